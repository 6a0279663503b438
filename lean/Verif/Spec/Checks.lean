import Verif.Spec.Slim
import Verif.Spec.Verify

/-!
# What verification does not depend on
-/

namespace Gopmml.Spec

variable {F : Type}

/-- What a verification field is read for: its column, and the field to compare it with if it has a precision. -/
def checkOf (v : VerificationField F) : String × Option String := (v.column, v.precision.map fun _ => v.field)

/-- The fields as they are read, and the rows. -/
def checksOf (mv : ModelVerification F) : List (String × Option String) × List (GoMap (GoVal F)) :=
  (mv.fields.map checkOf, mv.rows)

/-- Two models that are the same but for what `slim` leaves out, and that are verified with the same checks. -/
def SameChecks (e e' : ModelElem F) : Prop :=
  slim e = slim e' ∧ (verificationOf e).map checksOf = (verificationOf e').map checksOf

end Gopmml.Spec
