import Verif.Model.Verify

/-!
# What it means for a model to agree with its verification table
-/

namespace Gopmml.Spec

variable {F : Type} [Arith F] [Lib F] [Trans F]

omit [Arith F] [Lib F] [Trans F] in
/-- Every column is named `data:…`. -/
def Prefixed (mv : ModelVerification F) : Prop := ∀ f ∈ mv.fields, ∃ col, f.column = "data:" ++ col

omit [Arith F] [Lib F] [Trans F] in
/-- A column is an input when some field with that column has no precision. -/
def InputColumn (mv : ModelVerification F) (k : String) : Prop :=
  ∃ f ∈ mv.fields, f.precision = none ∧ f.column = "data:" ++ k

omit [Arith F] [Lib F] [Trans F] in
/-- The field a column is compared with: the last one with a precision. -/
def outputField (mv : ModelVerification F) (k : String) : Option String :=
  (mv.fields.filter fun f => f.precision.isSome ∧ f.column = "data:" ++ k).getLast?.map (·.field)

omit [Arith F] [Lib F] [Trans F] in
/-- The row handed to the model. -/
def InputRow (mv : ModelVerification F) (r input : GoMap (GoVal F)) : Prop :=
  ∀ (k : String) (v : GoVal F), input[k]? = some v ↔ InputColumn mv k ∧ r[k]? = some v

omit [Lib F] [Trans F] in
/-- Close enough: not |expected - predicted| > 1e-5 * expected. -/
def Close (expected predicted : F) : Prop :=
  ¬ Arith.lt (Arith.mul (Arith.lit 1 100000) expected) (Arith.abs (Arith.sub expected predicted)) = true

/-- The model agrees with one row of the table. -/
def Agrees (o : MapOrd) (m : EModel F) (mv : ModelVerification F) (r : GoMap (GoVal F)) : Prop :=
  ∃ input out, InputRow mv r input ∧ (m.evaluate o (some input)).res = .ok out ∧
    ∀ k v f, r[k]? = some v → outputField mv k = some f →
      ∃ p, Row.get out f = some p ∧ Close v.float64 p.float64

omit [Arith F] [Lib F] [Trans F] in
/-- The verification table of a document. -/
def verificationOf : ModelElem F → Option (ModelVerification F)
  | .tree d => d.verification
  | .regression d => d.verification
  | .mining h _ => h.verification
  | .other _ => none

end Gopmml.Spec
