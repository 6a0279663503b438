import Verif.Spec.Document
import Verif.Spec.Predicate
import Verif.Spec.Tree
import Verif.Spec.Reached

/-!
# Rewriting documents

When one document may stand for another: its tests mean the same, and children whose test is never
anything but false may be left out.
-/

namespace Gopmml.Spec
open Gopmml

variable {F : Type}

/-- `p'` may stand for `p`: whatever the leaves are worth the two have the same value, and `p'` has no leaf
that `p` has not. -/
structure Simplifies (p p' : Pred F) : Prop where
  value : ∀ leaf, testValue leaf p = testValue leaf p'
  leaves : simples p' ⊆ simples p

/-- The same for the test of a node, which may be absent. -/
inductive SimplifiesTest : Option (Pred F) → Option (Pred F) → Prop
  | none : SimplifiesTest none none
  | some {p p'} : Simplifies p p' → SimplifiesTest (some p) (some p')

/-- A child with this id and this outcome, of a node with this default child, makes no difference. -/
def skips (s : MissingValueStrategy) (dc id : String) : PredRes → Bool
  | .t => false
  | .u => match s with
    | .none | .other _ => true
    | _ => false
  | .f => match s with
    | .weightedConfidence | .aggregateNodes => false
    | .defaultChild => id != dc
    | _ => true

/-- Never true and never unknown. -/
def Dead (p : Pred F) : Prop := ∀ leaf, testValue leaf p = .f

mutual
/-- A tree (under the given strategies) with simplified tests and some dead children left out. -/
inductive Simpler (s : MissingValueStrategy) (nt : NoTrueChildStrategy) : Node F → Node F → Prop
  | mk {id dc score rc ds ns ns' p p'} : SimplifiesTest p p' → SimplerList s nt dc ns ns' →
      -- returnNullPrediction tells leaves from other nodes
      (nt = .returnNullPrediction → (ns = [] ↔ ns' = [])) →
      Simpler s nt (.mk id dc score rc ds ns p) (.mk id dc score rc ds ns' p')
/-- The children of a node with the given default child. -/
inductive SimplerList (s : MissingValueStrategy) (nt : NoTrueChildStrategy) :
    String → List (Node F) → List (Node F) → Prop
  | nil {dc} : SimplerList s nt dc [] []
  | cons {dc n n' ns ns'} : Simpler s nt n n' → SimplerList s nt dc ns ns' →
      SimplerList s nt dc (n :: ns) (n' :: ns')
  | drop {dc id dc' score rc ds cs p ns ns'} : Dead p → s ≠ .weightedConfidence → s ≠ .aggregateNodes →
      (s = .defaultChild → id ≠ dc) → SimplerList s nt dc ns ns' →
      SimplerList s nt dc (.mk id dc' score rc ds cs (some p) :: ns) ns'
end

mutual
/-- Documents that differ in their trees only, and there as related by `T`. -/
inductive DocRel (T : TreeDoc F → TreeDoc F → Prop) : ModelElem F → ModelElem F → Prop
  | tree {d d' : TreeDoc F} : T d d' → DocRel T (.tree d) (.tree d')
  | regression {d : RegressionDoc F} : DocRel T (.regression d) (.regression d)
  | mining {h : MiningHead F} {segs segs'} : SegsRel T segs segs' → DocRel T (.mining h segs) (.mining h segs')
  | other {k} : DocRel T (.other k) (.other k)
inductive SegsRel (T : TreeDoc F → TreeDoc F → Prop) : List (SegDoc F) → List (SegDoc F) → Prop
  | nil : SegsRel T [] []
  | cons {id ps es es' segs segs'} : DocsRel T es es' → SegsRel T segs segs' →
      SegsRel T (.mk id ps es :: segs) (.mk id ps es' :: segs')
inductive DocsRel (T : TreeDoc F → TreeDoc F → Prop) : List (ModelElem F) → List (ModelElem F) → Prop
  | nil : DocsRel T [] []
  | cons {e e' es es'} : DocRel T e e' → DocsRel T es es' → DocsRel T (e :: es) (e' :: es')
end

/-- The tree of `d'` is the simplified tree of `d`; everything else is the same. -/
def SimplerTree (d d' : TreeDoc F) : Prop :=
  ∃ n', Simpler d.missingValueStrategy d.noTrueChildStrategy d.node n' ∧ d' = { d with node := n' }

end Gopmml.Spec
