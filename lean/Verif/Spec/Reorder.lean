import Verif.Spec.Live

/-!
# Derived fields in another order
-/

namespace Gopmml.Spec
open Gopmml

variable {F : Type}

/-- Derived fields that have nothing to do with each other: different names, and neither is computed from
the other. -/
def Unrelated (a b : DerivedField F) : Prop :=
  a.name ≠ b.name ∧ a.name ∉ exprFields b.expr ∧ b.name ∉ exprFields a.expr

/-- The same derived fields, none written twice, with related ones in the same order. -/
structure ReorderedFields (L L' : List (DerivedField F)) : Prop where
  perm : L.Perm L'
  once : L.Nodup
  keeps : ∀ a b, ¬ Unrelated a b → [a, b].Sublist L → [a, b].Sublist L'

mutual
/-- The same document, with the derived fields of every model in another order. -/
inductive ReorderedDoc : ModelElem F → ModelElem F → Prop
  | tree {d : TreeDoc F} {L} : ReorderedFields d.localTransformations L →
      ReorderedDoc (.tree d) (.tree { d with localTransformations := L })
  | regression {d : RegressionDoc F} : ReorderedDoc (.regression d) (.regression d)
  | mining {h : MiningHead F} {L segs segs'} : ReorderedFields h.localTransformations L →
      ReorderedSegs segs segs' →
      ReorderedDoc (.mining h segs) (.mining { h with localTransformations := L } segs')
  | other {k} : ReorderedDoc (.other k) (.other k)
inductive ReorderedSegs : List (SegDoc F) → List (SegDoc F) → Prop
  | nil : ReorderedSegs [] []
  | cons {id ps es es' segs segs'} : ReorderedDocs es es' → ReorderedSegs segs segs' →
      ReorderedSegs (.mk id ps es :: segs) (.mk id ps es' :: segs')
inductive ReorderedDocs : List (ModelElem F) → List (ModelElem F) → Prop
  | nil : ReorderedDocs [] []
  | cons {e e' es es'} : ReorderedDoc e e' → ReorderedDocs es es' → ReorderedDocs (e :: es) (e' :: es')
end

/-- The same answer, or both fail (perhaps with different errors). -/
def SameOrFail {α : Type} (x y : Res α) : Prop := x = y ∨ ((∃ f, x = .error f) ∧ ∃ f, y = .error f)

end Gopmml.Spec
