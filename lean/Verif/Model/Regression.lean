import Verif.Model.Tree

/-!
# Regression models (evaluation/regression.go)

`NewRegressionModel` (regression.go:20-27) only stores its arguments and `Compile`
(regression.go:29-32) does nothing, so the evaluator is the document itself.
-/

namespace Gopmml

variable {F : Type} [Arith F] [Lib F] [Trans F]

omit [Arith F] [Lib F] [Trans F] in
/-- regression.go:34-59 `Validate`: outcome and updated model (which is changed even
when a later check fails). -/
def RegressionDoc.validate (d : RegressionDoc F) : Res Unit × RegressionDoc F :=
  let d' := { d with normalization := if d.normalization = .empty then .none else d.normalization }
  if d'.normalization = .none ∨ d'.normalization = .logit ∨ d'.normalization = .softmax ∨
      d'.normalization = .exp ∨ d'.normalization = .cloglog ∨ d'.normalization = .cauchit then
    if d'.functionName ≠ .classification then (fail .unsupportedMiningFunction, d')
    else if d'.outputs.all (fun o => o.feature = .probability) then (.ok (), d')
    else (fail .unsupportedOutputFeature, d')
  else (fail .unsupportedNormalization, d')

omit [Lib F] in
/-- regression.go:65-79 `normalize` -/
def normalize (n : Normalization) (term : F) : Res F :=
  match n with
  | .softmax => .ok (Arith.div Arith.one (Arith.add Arith.one (Trans.exp (Arith.neg term))))
  | .logit => .ok (Arith.div Arith.one (Arith.add Arith.one (Trans.exp (Arith.neg term))))
  | .exp => .ok (Trans.exp term)
  | .cloglog => .ok (Arith.sub Arith.one (Trans.exp (Arith.neg (Trans.exp term))))
  | .cauchit => .ok (Arith.add (Arith.lit 1 2) (Arith.mul Trans.invPi (Trans.atan term)))
  | _ => fail .unsupportedNormalization

omit [Trans F] in
/-- regression.go:105-114 and 173-183: intercept plus coefficient times value, in
document order. -/
def linearLoop (row : Row F) (y : F) : List (NumericPredictor F) → Res F
  | [] => .ok y
  | np :: nps =>
    match row.get np.name with
    | none => fail (.missingTerm np.name)
    | some term => linearLoop row (Arith.add y (Arith.mul np.coefficient term.float64)) nps

/-- regression.go:92-123 `EvaluateRegression` -/
def RegressionDoc.evalRegression (d : RegressionDoc F) (row : Row F) : Res (Out F) :=
  match d.tables with
  | [rtbl] =>
    match d.outputs with
    | [outField] => do
      let y ← linearLoop row rtbl.intercept rtbl.predictors
      let pred ← normalize d.normalization y
      pure (some ((∅ : GoMap (GoVal F)).insert outField.name (.f64 pred)))
    | os => fail (.outputCount os.length)
  | ts => fail (.tableCount ts.length)

/-- regression.go:134-144: the sum of the normalised terms of a table. -/
def binaryLoop (n : Normalization) (row : Row F) (pred : F) : List (NumericPredictor F) → Res F
  | [] => .ok pred
  | np :: nps =>
    match row.get np.name with
    | none => fail (.missingTerm np.name)
    | some term => do
      let normalized ← normalize n term.float64
      binaryLoop n row (Arith.add pred normalized) nps

omit [Arith F] [Lib F] [Trans F] in
/-- regression.go:151-155 -/
def binaryOut (outputs : List OutputField) (cat : String) (pred : F) (out : GoMap (GoVal F)) :
    GoMap (GoVal F) :=
  outputs.foldl (fun out o => if cat = o.value then out.insert o.name (.f64 pred) else out) out

/-- regression.go:130-156: the loop over the tables. -/
def binaryTables (n : Normalization) (outputs : List OutputField) (row : Row F)
    (finalPred : F) (out : GoMap (GoVal F)) : List (RegressionTable F) → Res (GoMap (GoVal F))
  | [] => .ok out
  | rtbl :: ts => do
    let pred ←
      if rtbl.predictors ≠ [] then binaryLoop n row rtbl.intercept rtbl.predictors
      else pure finalPred
    binaryTables n outputs row (Arith.sub finalPred pred)
      (binaryOut outputs rtbl.targetCategory pred out) ts

/-- regression.go:125-159 `EvaluateBinaryClassification` -/
def RegressionDoc.evalBinary (d : RegressionDoc F) (row : Row F) : Res (Out F) := do
  let out ← binaryTables d.normalization d.outputs row Arith.one ∅ d.tables
  pure (some out)

omit [Arith F] [Lib F] [Trans F] in
/-- regression.go:164-167 `outFields` -/
def outFieldMap (outputs : List OutputField) : GoMap String :=
  outputs.foldl (fun m o => m.insert o.value o.name) ∅

omit [Trans F] in
/-- regression.go:171-184: the linear predictors of all tables. -/
def linearAll (row : Row F) : List (RegressionTable F) → Res (List F)
  | [] => .ok []
  | t :: ts => do
    let y ← linearLoop row t.intercept t.predictors
    let ys ← linearAll row ts
    pure (y :: ys)

/-- regression.go:186-203: the loop over the targets. -/
def multiclassOut (n : Normalization) (y : List F) (out : GoMap (GoVal F)) :
    List (String × F) → Res (GoMap (GoVal F))
  | [] => .ok out
  | (target, yi) :: rest =>
    match n with
    | .softmax =>
      let s := y.foldl (fun s v => Arith.add s (Trans.exp v)) Arith.zero
      multiclassOut n y (out.insert target (.f64 (Arith.div (Trans.exp yi) s))) rest
    | .simplemax =>
      let s := y.foldl (fun s v => Arith.add s v) Arith.zero
      multiclassOut n y (out.insert target (.f64 (Arith.div yi s))) rest
    | _ => fail .unsupportedNormalization

/-- regression.go:161-205 `EvaluateMulticlassClassification` -/
def RegressionDoc.evalMulticlass (d : RegressionDoc F) (row : Row F) : Res (Out F) := do
  let outFields := outFieldMap d.outputs
  let targets := d.tables.map fun t => (outFields[t.targetCategory]?).getD ""
  let y ← linearAll row d.tables
  let out ← multiclassOut d.normalization y ∅ (targets.zip y)
  pure (some out)

/-- regression.go:81-90 `Evaluate`.  The row is only read. -/
def RegressionDoc.evaluate (d : RegressionDoc F) (row : Row F) : Res (Out F) :=
  match d.functionName with
  | .regression => d.evalRegression row
  | .classification => if d.outputs.length = 2 then d.evalBinary row else d.evalMulticlass row
  | .other _ => fail .unrecognizedRegressionFunction

end Gopmml
