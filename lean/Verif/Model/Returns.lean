import Verif.Model.Verify

/-!
# Both values of a Go call

`Evaluate` returns a row and an error. `Model/Mining.lean` keeps one of them: the row if the error is nil,
else the error. Here both are kept, because some of the functions of regression.go return a row beside an
error. `Model/Tree.lean` needs no second version: every `return` of tree.go:712-758 with an error has nil
beside it, as has every one of input.go:186-214.

`C86_collapse` (Props/Returns.lean) shows that the version here forgets to the one there.
-/

namespace Gopmml

variable {F α β : Type}

/-- The outcome of a Go function with results `(α, error)`. -/
inductive Ret (α : Type) where
  | returned (value : α) (err : Option Err)
  | panicked (p : Panic)

/-- Code with `return` statements in it: what was returned early, or the value to go on with. -/
abbrev Early (α β : Type) := Except (Ret α) β

/-- `x, err := …; if err != nil { return v, err }` -/
def orReturn (v : α) : Res β → Early α β
  | .ok b => .ok b
  | .error (.err e) => .error (.returned v (some e))
  | .error (.panic p) => .error (.panicked p)

/-- The body of a function: `return v, nil` at its end. -/
def Early.body : Early α α → Ret α
  | .ok v => .returned v none
  | .error r => r

/-- What `Model/Mining.lean` keeps of the two values. -/
def Ret.collapse : Ret α → Res α
  | .returned v none => .ok v
  | .returned _ (some e) => fail e
  | .panicked p => panic p

section
variable [Arith F] [Lib F]

/-- regression.go:105-114, 173-183: a missing term returns nil. -/
def linearRet (row : Row F) (y : F) : List (NumericPredictor F) → Early (Out F) F
  | [] => .ok y
  | np :: nps =>
    match row.get np.name with
    | none => .error (.returned none (some (.missingTerm np.name)))
    | some term => linearRet row (Arith.add y (Arith.mul np.coefficient term.float64)) nps

variable [Trans F]

/-- regression.go:92-123 `EvaluateRegression` -/
def RegressionDoc.evalRegressionRet (d : RegressionDoc F) (row : Row F) : Ret (Out F) :=
  match d.tables with
  | [rtbl] =>
    match d.outputs with
    | [outField] => Early.body do
      let y ← linearRet row rtbl.intercept rtbl.predictors
      let pred ← orReturn (some ∅) (normalize d.normalization y)
      pure (some ((∅ : GoMap (GoVal F)).insert outField.name (.f64 pred)))
    | os => .returned (some ∅) (some (.outputCount os.length))
  | ts => .returned (some ∅) (some (.tableCount ts.length))

/-- regression.go:134-144; `out` holds what the earlier tables have written. -/
def binaryTermsRet (n : Normalization) (row : Row F) (out : GoMap (GoVal F)) (pred : F) :
    List (NumericPredictor F) → Early (Out F) F
  | [] => .ok pred
  | np :: nps =>
    match row.get np.name with
    | none => .error (.returned none (some (.missingTerm np.name)))
    | some term => do
      let normalized ← orReturn (some out) (normalize n term.float64)
      binaryTermsRet n row out (Arith.add pred normalized) nps

/-- regression.go:130-156 -/
def binaryTablesRet (n : Normalization) (outputs : List OutputField) (row : Row F)
    (finalPred : F) (out : GoMap (GoVal F)) : List (RegressionTable F) → Early (Out F) (Out F)
  | [] => .ok (some out)
  | rtbl :: ts => do
    let pred ←
      if rtbl.predictors ≠ [] then binaryTermsRet n row out rtbl.intercept rtbl.predictors
      else pure finalPred
    binaryTablesRet n outputs row (Arith.sub finalPred pred)
      (binaryOut outputs rtbl.targetCategory pred out) ts

/-- regression.go:125-159 `EvaluateBinaryClassification` -/
def RegressionDoc.evalBinaryRet (d : RegressionDoc F) (row : Row F) : Ret (Out F) :=
  (binaryTablesRet d.normalization d.outputs row Arith.one ∅ d.tables).body

omit [Trans F] in
/-- regression.go:171-184 -/
def linearAllRet (row : Row F) : List (RegressionTable F) → Early (Out F) (List F)
  | [] => .ok []
  | t :: ts => do
    let y ← linearRet row t.intercept t.predictors
    let ys ← linearAllRet row ts
    pure (y :: ys)

/-- regression.go:186-203 -/
def multiclassRet (n : Normalization) (y : List F) (out : GoMap (GoVal F)) :
    List (String × F) → Early (Out F) (Out F)
  | [] => .ok (some out)
  | (target, yi) :: rest =>
    match n with
    | .softmax =>
      let s := y.foldl (fun s v => Arith.add s (Trans.exp v)) Arith.zero
      multiclassRet n y (out.insert target (.f64 (Arith.div (Trans.exp yi) s))) rest
    | .simplemax =>
      let s := y.foldl (fun s v => Arith.add s v) Arith.zero
      multiclassRet n y (out.insert target (.f64 (Arith.div yi s))) rest
    | _ => .error (.returned (some out) (some .unsupportedNormalization))

/-- regression.go:161-205 `EvaluateMulticlassClassification` -/
def RegressionDoc.evalMulticlassRet (d : RegressionDoc F) (row : Row F) : Ret (Out F) :=
  Early.body do
    let outFields := outFieldMap d.outputs
    let targets := d.tables.map fun t => (outFields[t.targetCategory]?).getD ""
    let y ← linearAllRet row d.tables
    multiclassRet d.normalization y ∅ (targets.zip y)

/-- regression.go:81-90 `Evaluate` -/
def RegressionDoc.evaluateRet (d : RegressionDoc F) (row : Row F) : Ret (Out F) :=
  match d.functionName with
  | .regression => d.evalRegressionRet row
  | .classification => if d.outputs.length = 2 then d.evalBinaryRet row else d.evalMulticlassRet row
  | .other _ => .returned none (some .unrecognizedRegressionFunction)

/-- A function all of whose errors have nil beside them. -/
def nilBeside : Res (Out F) → Ret (Out F)
  | .ok v => .returned v none
  | .error (.err e) => .returned none (some e)
  | .error (.panic p) => .panicked p

/-- What a call of `Evaluate` leaves behind, with both returned values. -/
structure EvRet (F α S : Type) where
  ret : Ret α
  row : Row F
  model : S

mutual
/-- `Model.Evaluate`: tree.go:712-758, regression.go:81-90, mining.go:224-257. -/
def EModel.evaluateRet (o : MapOrd) : EModel F → Row F → EvRet F (Out F) (EModel F)
  | .tree m, row =>
    let e := m.evaluate o row
    ⟨nilBeside e.res, e.row, .tree e.model⟩
  | .regression d, row => ⟨d.evaluateRet row, row, .regression d⟩
  | .mining s ms, row =>
    if ¬ s.validated then ⟨.returned none (some .notValidated), row, .mining s ms⟩
    else if ¬ s.compiled then ⟨.returned none (some .notCompiled), row, .mining s ms⟩
    else
      match imputeLoop ((o.at_ 0).range s.defaultValues) row with
      | (.error e, row) => ⟨nilBeside (.error e), row, .mining s ms⟩
      | (.ok (), row) =>
        match handleInput s.head.localTransformations row with
        | (.error e, row) => ⟨nilBeside (.error e), row, .mining s ms⟩
        | (.ok (), row) =>
          match s.head.method with
          | .average =>
            let r := sumSegmentsRet (o.at_ 1) s.head.functionName 0 (initScores s) ms row
            ⟨Early.body (r.1.map fun sm =>
                let out := sumFinish (o.at_ 2) s sm
                some (averageLoop s.segments.length ((o.at_ 3).range out) out)),
              r.2.1, .mining s r.2.2⟩
          | .sum =>
            let r := sumSegmentsRet (o.at_ 1) s.head.functionName 0 (initScores s) ms row
            ⟨Early.body (r.1.map fun sm => some (sumFinish (o.at_ 2) s sm)), r.2.1, .mining s r.2.2⟩
          | .modelChain =>
            let r := chainSegmentsRet (o.at_ 1) 0 (some ∅) ms row
            ⟨r.ret, r.row, .mining s r.model⟩
          | .selectFirst =>
            let r := selectFirstRet (o.at_ 1) ms row
            ⟨r.ret, r.row, .mining s r.model⟩
          | _ => ⟨.returned none (some .unsupportedMultipleModelMethod), row, .mining s ms⟩
/-- mining.go:119-130 `evaluateMultipleModelSelectFirst`: the row of a failing segment is dropped. -/
def selectFirstRet (o : MapOrd) : List (EModel F) → Row F → EvRet F (Out F) (List (EModel F))
  | [], row => ⟨.returned none (some .noSegments), row, []⟩
  | m :: ms, row =>
    let e := EModel.evaluateRet o m row
    match e.ret with
    | .returned _ (some err) => ⟨.returned none (some err), e.row, e.model :: ms⟩
    | .returned segOut none => ⟨.returned segOut none, e.row, e.model :: ms⟩
    | .panicked p => ⟨.panicked p, e.row, e.model :: ms⟩
/-- mining.go:132-149 `evaluateMultipleModelChain` -/
def chainSegmentsRet (o : MapOrd) (i : Nat) (lastOut : Out F) :
    List (EModel F) → Row F → EvRet F (Out F) (List (EModel F))
  | [], row => ⟨.returned lastOut none, row, []⟩
  | m :: ms, row =>
    match writeAll ((o.at_ (2 * i)).range (lastOut.getD ∅)) row with
    | (.error e, row) => ⟨nilBeside (.error e), row, m :: ms⟩
    | (.ok (), row) =>
      let e := EModel.evaluateRet (o.at_ (2 * i + 1)) m row
      match e.ret with
      | .returned _ (some err) => ⟨.returned none (some err), e.row, e.model :: ms⟩
      | .panicked p => ⟨.panicked p, e.row, e.model :: ms⟩
      | .returned segOut none =>
        let r := chainSegmentsRet o (i + 1) segOut ms e.row
        ⟨r.ret, r.row, e.model :: r.model⟩
/-- mining.go:162-181: the loop of `evaluateMultipleModelSum`; mining.go:201-204 passes its nil on. -/
def sumSegmentsRet (o : MapOrd) (fn : MiningFunction) (i : Nat) (scoreMap : GoMap F) :
    List (EModel F) → Row F → Early (Out F) (GoMap F) × Row F × List (EModel F)
  | [], row => (.ok scoreMap, row, [])
  | m :: ms, row =>
    let e := EModel.evaluateRet (o.at_ (2 * i)) m row
    match e.ret with
    | .returned _ (some err) => (.error (.returned none (some err)), e.row, e.model :: ms)
    | .panicked p => (.error (.panicked p), e.row, e.model :: ms)
    | .returned segout none =>
      let scoreMap := ((o.at_ (2 * i + 1)).range scoreMap).foldl (addScore fn segout) scoreMap
      let r := sumSegmentsRet o fn (i + 1) scoreMap ms e.row
      (r.1, r.2.1, e.model :: r.2.2)
end

end

end Gopmml
