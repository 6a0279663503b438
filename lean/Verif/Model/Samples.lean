import Batteries.Lean.Except
import Verif.Model.Replay

/-!
# Sample ensembles used in the examples beside the theorems
-/

namespace Gopmml.Samples
open Gopmml Replay

/-- A stand-in for `math.Exp` and `math.Atan` so that samples containing regression models can be
computed: it is only meant for concrete examples. (On the arguments 0 the values are right.) -/
scoped instance standIn : Trans F64 where
  exp x := Arith.add Arith.one x
  atan x := x
  invPi := num "0.3183098861837907"

def dd : List DataField := [⟨"x", .double, []⟩, ⟨"c", .string, []⟩, ⟨"y", .double, []⟩]

/-- Score `lo` when x < 5, else `hi`; no prediction without x. -/
def regTree (lo hi : String) : TreeDoc F64 where
  functionName := .regression
  missingValuePenalty := num "1"
  missingValueStrategy := .nullPrediction
  noTrueChildStrategy := .other ""
  localTransformations := []
  miningFields := [active "x"]
  verification := none
  node := .mk "" "" "0" (num "0") [] [
    .mk "" "" lo (num "0") [] [] (some (sp "x" .lessThan "5")),
    .mk "" "" hi (num "0") [] [] (some (sp "x" .greaterOrEqual "5"))] (some .true_)

def seg (m : ModelElem F64) : SegDoc F64 := .mk "" [.true_] [m]

def head (method : MultipleModelMethod) : MiningHead F64 where
  functionName := .regression
  method := method
  verification := none
  miningFields := [⟨"x", .other "", "", "", some "3"⟩]
  localTransformations := []
  outputs := []
  targets := [⟨"y", some (num "1"), some (num "2")⟩]

/-- Three trees. -/
def ensemble (method : MultipleModelMethod) : ModelElem F64 :=
  .mining (head method)
    [seg (.tree (regTree "1" "10")), seg (.tree (regTree "2" "20")), seg (.tree (regTree "4" "40"))]

/-- An ensemble inside an ensemble. -/
def nested : ModelElem F64 :=
  .mining { head .modelChain with targets := [] }
    [seg (ensemble .sum), seg (.tree (regTree "100" "200"))]

instance : DecidableEq (Res (Out F64)) := inferInstance
instance : DecidableEq (Row F64) := inferInstance

/-- Build a model and evaluate one row: what is returned (`none` if the model is rejected). -/
def eval (o : MapOrd) (e : ModelElem F64) (row : List (String × GoVal F64)) : Option (Res (Out F64)) :=
  match newModel dd e [] with
  | (.ok m, _) => some (EModel.evaluate o m (some (mk row))).res
  | _ => none

/-- The caller's row afterwards. -/
def evalRow (o : MapOrd) (e : ModelElem F64) (row : List (String × GoVal F64)) : Option (Row F64) :=
  match newModel dd e [] with
  | (.ok m, _) => some (EModel.evaluate o m (some (mk row))).row
  | _ => none

-- x = 7: (10 + 20 + 40) * 2 + 1; x imputed as 3: (1 + 2 + 4) * 2 + 1.
example : eval .sorted (ensemble .sum) [("x", .int .int 7)] =
      some (.ok (some (mk [("y", .f64 (num "141"))]))) ∧
    eval .sorted (ensemble .sum) [] = some (.ok (some (mk [("y", .f64 (num "15"))]))) ∧
    evalRow .sorted (ensemble .sum) [] = some (some (mk [("x", .str "3")])) ∧
    eval .sorted nested [] = some (.ok (some (mk [("score", .f64 (num "100"))]))) ∧
    evalRow .sorted nested [] = some (some (mk [("x", .str "3"), ("y", .f64 (num "15"))])) := by
  decide +kernel

end Gopmml.Samples
