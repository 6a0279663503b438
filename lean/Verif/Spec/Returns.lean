import Verif.Model.Regression

/-!
# What a regression model returns beside an error
-/

namespace Gopmml.Spec

variable {F : Type} [Arith F] [Lib F] [Trans F]

/-- `v` is what may stand beside the error `e`:

* nil if a term is missing or the function has another name than the two known ones;
* an empty row if the number of tables or outputs is wrong;
* an empty row if the normalisation method is not supported, except in binary classification: there
  the answer the model would give if its tables ended before the first one with predictors. -/
def Beside (d : RegressionDoc F) (row : Row F) (e : Err) (v : Out F) : Prop :=
  match e with
  | .missingTerm _ => v = none
  | .unrecognizedRegressionFunction => v = none
  | .tableCount _ => v = some ∅
  | .outputCount _ => v = some ∅
  | .unsupportedNormalization =>
    if d.functionName = .classification ∧ d.outputs.length = 2 then
      ∃ pre t post, d.tables = pre ++ t :: post ∧ (∀ u ∈ pre, u.predictors = []) ∧
        t.predictors ≠ [] ∧ ({ d with tables := pre } : RegressionDoc F).evaluate row = .ok v
    else v = some ∅
  | _ => False

end Gopmml.Spec
