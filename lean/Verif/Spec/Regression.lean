import Verif.Model.Regression

/-!
# What a regression model should answer

Stated with sums, quotients and the first absent predictor of a document, without the loops of
regression.go.
-/

namespace Gopmml.Spec

variable {F : Type} [Arith F] [Lib F] [Trans F]

omit [Arith F] [Lib F] [Trans F] in
/-- The first predictor without an entry in the row. -/
def firstMissing (row : Row F) (nps : List (NumericPredictor F)) : Option String :=
  (nps.map (·.name)).find? fun k => (row.get k).isNone

omit [Trans F] in
/-- The number a field contributes. -/
def valueOf (row : Row F) (k : String) : F := ((row.get k).getD .nil).float64

omit [Trans F] in
/-- Intercept plus coefficient times value, summed from left to right. -/
def linear (row : Row F) (t : RegressionTable F) : F :=
  (t.predictors.map fun np => Arith.mul np.coefficient (valueOf row np.name)).foldl Arith.add t.intercept

omit [Lib F] in
/-- The inverse link functions; nothing for the methods the library does not implement. -/
def link : Normalization → Option (F → F)
  | .softmax | .logit => some fun x => Arith.div Arith.one (Arith.add Arith.one (Trans.exp (Arith.neg x)))
  | .exp => some fun x => Trans.exp x
  | .cloglog => some fun x => Arith.sub Arith.one (Trans.exp (Arith.neg (Trans.exp x)))
  | .cauchit => some fun x => Arith.add (Arith.lit 1 2) (Arith.mul Trans.invPi (Trans.atan x))
  | _ => none

omit [Trans F] in
/-- Intercept plus the transformed values, summed from left to right: what the binary
classifier computes for a table with predictors.  (The coefficients play no part.) -/
def transformed (g : F → F) (row : Row F) (t : RegressionTable F) : F :=
  (t.predictors.map fun np => g (valueOf row np.name)).foldl Arith.add t.intercept

omit [Lib F] [Trans F] in
/-- The share of each score in the total, after a transformation of the scores. -/
def share (g : F → F) (ys : List F) (y : F) : F :=
  Arith.div (g y) ((ys.map g).foldl Arith.add Arith.zero)

omit [Arith F] [Lib F] in
/-- The multi-class transformations. -/
def weight : Normalization → Option (F → F)
  | .softmax => some Trans.exp
  | .simplemax => some id
  | _ => none

omit [Arith F] [Lib F] [Trans F] in
/-- The output field reporting a category: the last one declaring it; the empty name when there
is none. -/
def reportedAs (outputs : List OutputField) (cat : String) : String :=
  ((outputs.filter fun o => o.value = cat).getLast?.map (·.name)).getD ""

end Gopmml.Spec
