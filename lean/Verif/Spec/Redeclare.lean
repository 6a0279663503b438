import Verif.Spec.Tree
import Verif.Spec.Mining
import Verif.Spec.Live

/-!
# Declarations written down differently

Documents that say the same in their data dictionary, mining schemas, outputs and targets, although
perhaps in another order, with repetitions, or with declarations nobody needs.
-/

namespace Gopmml.Spec
open Gopmml

variable {F : Type}

/-- The type of a data field: that of the last one of the name. -/
def dataTypeOf (dd : List DataField) (f : String) : Option DataType :=
  ((dd.filter (fun g => g.name = f)).getLast?).map (·.dataType)

/-- What the targets do to a score: factors and constants, in order. -/
def scaling (ts : List (Target F)) (k : String) : List (F ⊕ F) :=
  (ts.filter (fun t => t.field = k)).flatMap fun t =>
    t.rescaleFactor.toList.map .inl ++ t.rescaleConstant.toList.map .inr

/-- An output the library can serve. -/
def Served (f : OutputField) : Prop := f.feature = .empty ∨ f.feature = .probability

mutual
/-- The same model, with declarations that say the same about everything it asks for.

* A tree asks for the types of the fields in its tests, for the name of its target, and for the declared
  values of the target.
* A regression asks for nothing (but for verification its records may be any).
* An ensemble asks for the replacements of missing values, whether all outputs are supported, which
  scores there are, and how the scores are scaled. -/
inductive Redeclared (dd dd' : List DataField) : ModelElem F → ModelElem F → Prop
  | tree {d : TreeDoc F} {fs v} : (∀ f ∈ nodeFields d.node, dataTypeOf dd f = dataTypeOf dd' f) →
      targetOf d.miningFields = targetOf fs →
      (targetOf fs ≠ "" → targetValues dd (targetOf fs) = targetValues dd' (targetOf fs)) →
      Redeclared dd dd' (.tree d) (.tree { d with miningFields := fs, verification := v })
  | regression {d : RegressionDoc F} {v} :
      Redeclared dd dd' (.regression d) (.regression { d with verification := v })
  | mining {h : MiningHead F} {fs outs ts v segs segs'} :
      (∀ f, replacement h.miningFields f = replacement fs f) →
      ((∀ o ∈ h.outputs, Served o) ↔ ∀ o ∈ outs, Served o) →
      (∀ k, k ∈ h.outputs.map (·.name) ++ h.targets.map (·.field) ↔ k ∈ outs.map (·.name) ++ ts.map (·.field)) →
      (∀ k, scaling h.targets k = scaling ts k) →
      RedeclaredSegs dd dd' segs segs' →
      Redeclared dd dd' (.mining h segs)
        (.mining { h with miningFields := fs, outputs := outs, targets := ts, verification := v } segs')
  | other {k} : Redeclared dd dd' (.other k) (.other k)
inductive RedeclaredSegs (dd dd' : List DataField) : List (SegDoc F) → List (SegDoc F) → Prop
  | nil : RedeclaredSegs dd dd' [] []
  | cons {id ps es es' segs segs'} : RedeclaredDocs dd dd' es es' → RedeclaredSegs dd dd' segs segs' →
      RedeclaredSegs dd dd' (.mk id ps es :: segs) (.mk id ps es' :: segs')
inductive RedeclaredDocs (dd dd' : List DataField) : List (ModelElem F) → List (ModelElem F) → Prop
  | nil : RedeclaredDocs dd dd' [] []
  | cons {e e' es es'} : Redeclared dd dd' e e' → RedeclaredDocs dd dd' es es' →
      RedeclaredDocs dd dd' (e :: es) (e' :: es')
end

/-- A mining schema in which the order does not matter: no name twice, at most one target. -/
structure Unambiguous (fs : List MiningField) : Prop where
  names : (fs.map (·.name)).Nodup
  target : (fs.filter (fun f => f.usageType = .target)).length ≤ 1

mutual
/-- The same model with its mining fields, outputs and targets in another order. -/
inductive Shuffled : ModelElem F → ModelElem F → Prop
  | tree {d : TreeDoc F} {fs} : Unambiguous d.miningFields → d.miningFields.Perm fs →
      Shuffled (.tree d) (.tree { d with miningFields := fs })
  | regression {d : RegressionDoc F} : Shuffled (.regression d) (.regression d)
  | mining {h : MiningHead F} {fs outs ts segs segs'} : (h.miningFields.map (·.name)).Nodup →
      h.miningFields.Perm fs → h.outputs.Perm outs → (h.targets.map (·.field)).Nodup → h.targets.Perm ts →
      ShuffledSegs segs segs' →
      Shuffled (.mining h segs) (.mining { h with miningFields := fs, outputs := outs, targets := ts } segs')
  | other {k} : Shuffled (.other k) (.other k)
inductive ShuffledSegs : List (SegDoc F) → List (SegDoc F) → Prop
  | nil : ShuffledSegs [] []
  | cons {id ps es es' segs segs'} : ShuffledDocs es es' → ShuffledSegs segs segs' →
      ShuffledSegs (.mk id ps es :: segs) (.mk id ps es' :: segs')
inductive ShuffledDocs : List (ModelElem F) → List (ModelElem F) → Prop
  | nil : ShuffledDocs [] []
  | cons {e e' es es'} : Shuffled e e' → ShuffledDocs es es' → ShuffledDocs (e :: es) (e' :: es')
end

mutual
/-- The data fields a document asks for: the fields in the tests of its trees, and their targets. -/
def asked : ModelElem F → List String
  | .tree d => targetOf d.miningFields :: nodeFields d.node
  | .regression _ => []
  | .mining _ segs => askedSegs segs
  | .other _ => []
def askedSegs : List (SegDoc F) → List String
  | [] => []
  | .mk _ _ es :: segs => askedDocs es ++ askedSegs segs
def askedDocs : List (ModelElem F) → List String
  | [] => []
  | e :: es => asked e ++ askedDocs es
end

end Gopmml.Spec
