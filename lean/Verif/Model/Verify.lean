import Verif.Model.Mining

/-!
# Model verification (evaluation/evaluation.go:32-84)
-/

namespace Gopmml

variable {F : Type} [Arith F] [Lib F] [Trans F]

/-- `strings.HasPrefix(column, "data:")` and `column[5:]` (evaluation.go:41-44). -/
def columnName (column : String) : Option String :=
  match column.toList with
  | 'd' :: 'a' :: 't' :: 'a' :: ':' :: rest => some (String.ofList rest)
  | _ => none

/-- evaluation.go:37-50: `inputMap` and `outputMap`. -/
def verifyMaps : List (VerificationField F) → GoMap String → GoMap String →
    Res (GoMap String × GoMap String)
  | [], inp, out => .ok (inp, out)
  | v :: vs, inp, out =>
    match columnName v.column with
    | none => fail (.verifyPrefix v.column)
    | some col =>
      match v.precision with
      | none => verifyMaps vs (inp.insert col v.field) out
      | some _ => verifyMaps vs inp (out.insert col v.field)

omit [Arith F] [Lib F] [Trans F] in
/-- evaluation.go:53-59: the input row built from a verification row. -/
def verifyInput (inp : GoMap String) (entries : List (String × GoVal F)) : GoMap (GoVal F) :=
  entries.foldl (fun m kv => if kv.1 ∈ inp then m.insert kv.1 kv.2 else m) ∅

omit [Trans F] in
/-- evaluation.go:66-80: comparison of the outputs. -/
def verifyCompare (out : GoMap String) (output : Out F) : List (String × GoVal F) → Res Unit
  | [] => .ok ()
  | (k, v) :: es =>
    match out[k]? with
    | none => verifyCompare out output es
    | some fieldName =>
      match output.bind (fun m => m[fieldName]?) with
      | none => fail (.verifyNotProduced fieldName)
      | some predictedVal =>
        let expected := v.float64
        let delta := Arith.sub expected predictedVal.float64
        if Arith.lt (Arith.mul (Arith.lit 1 100000) expected) (Arith.abs delta) then
          fail (.verifyMismatch k)
        else verifyCompare out output es

/-- evaluation.go:52-81: the loop over the verification rows; the evaluator is
passed along because `Evaluate` may update its cache. -/
def verifyRows (o : MapOrd) (inp out : GoMap String) (i : Nat) :
    List (GoMap (GoVal F)) → EModel F → Res Unit × EModel F
  | [], m => (.ok (), m)
  | vRow :: rows, m =>
    let input := verifyInput inp ((o.at_ (3 * i)).range vRow)
    let e := m.evaluate (o.at_ (3 * i + 1)) (some input)
    match e.res with
    | .error err => (.error err, e.model)
    | .ok output =>
      match verifyCompare out output ((o.at_ (3 * i + 2)).range vRow) with
      | .error err => (.error err, e.model)
      | .ok () => verifyRows o inp out (i + 1) rows e.model

/-- evaluation.go:32-84 `verifyModel` -/
def verifyModel (o : MapOrd) (m : EModel F) (mv : Option (ModelVerification F)) :
    Res Unit × EModel F :=
  match mv with
  | none => (.ok (), m)
  | some mv =>
    match verifyMaps mv.fields ∅ ∅ with
    | .error e => (.error e, m)
    | .ok (inp, out) => verifyRows o inp out 0 mv.rows m

/-- `Model.Verify` (tree.go:708-710, regression.go:61-63, mining.go:45-47). -/
def EModel.verify (o : MapOrd) (m : EModel F) : Res Unit × EModel F :=
  match m with
  | .tree t => verifyModel o m t.model.verification
  | .regression d => verifyModel o m d.verification
  | .mining s _ => verifyModel o m s.head.verification

end Gopmml
