import Verif.Spec.Mining

/-!
# Models and documents that cannot be told apart by calling `Evaluate`
-/

namespace Gopmml.Spec

variable {F : Type} [Arith F] [Lib F] [Trans F]

/-- `Evaluate` may answer `r` and leave the row as `row'`, for some order of visiting maps. -/
def Answers (m : EModel F) (row : Row F) (r : Res (Out F)) (row' : Row F) : Prop :=
  ∃ o, (EModel.evaluate o m row).res = r ∧ (EModel.evaluate o m row).row = row'

/-- The same answers are possible on every row, with the same effects on it. -/
def Inter (m m' : EModel F) : Prop := ∀ row r row', Answers m row r row' ↔ Answers m' row r row'

/-- Either both documents are built or neither, the dictionary of the document being left alike, and then
the two evaluators cannot be told apart. -/
def InterDocs (e e' : ModelElem F) : Prop := ∀ (dd : List DataField) (td td' : TD F),
  (∀ m, newModel dd e td = (.ok m, td') → ∃ m', newModel dd e' td = (.ok m', td') ∧ Inter m m') ∧
  (∀ m', newModel dd e' td = (.ok m', td') → ∃ m, newModel dd e td = (.ok m, td') ∧ Inter m m')

omit [Arith F] [Lib F] [Trans F] in
/-- An ensemble that does nothing but hand the row to its segments: no replacements for missing values
and no derived fields, and outputs that `Validate` accepts. -/
structure Neutral (h : MiningHead F) : Prop where
  replacement : ∀ f ∈ h.miningFields, f.missingValueReplacement = none
  derived : h.localTransformations = []
  outputs : ∀ f ∈ h.outputs, f.feature = .empty ∨ f.feature = .probability

end Gopmml.Spec
