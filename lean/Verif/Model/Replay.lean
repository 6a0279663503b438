import Verif.Model.Verify
import Verif.Model.F64

/-!
# Replay of the repository's own tests on the model

Concrete documents and rows from evaluation/tree_test.go, evaluated by the kernel
in exact binary64 arithmetic.  These are validation of the model against the
repository's expectations, not proofs of properties; the documents also serve as
the concrete examples beside the theorems.
-/

namespace Gopmml.Replay
open Gopmml

/-- The float64 written as a decimal literal. -/
def num (s : String) : F64 := (F64.parseF64 s).getD .nan

/-- A map literal. -/
def mk (l : List (String × GoVal F64)) : GoMap (GoVal F64) := Std.ExtTreeMap.ofList l

abbrev P := Pred F64
abbrev N := Node F64

def sp (field : String) (op : SimpleOp) (value : String) : P := .simple ⟨field, op, value, .nil⟩
def dist (value rc conf : String) : ScoreDistribution F64 :=
  ⟨value, num rc, some (num conf), none⟩
def target : MiningField := ⟨"whatIdo", .target, "", "", none⟩
def active (n : String) : MiningField := ⟨n, .other "", "", "", none⟩

/-- tree_test.go:20-36 -/
def dd : List DataField :=
  [⟨"temperature", .double, []⟩, ⟨"humidity", .double, []⟩,
   ⟨"windy", .string, ["true", "false"]⟩,
   ⟨"outlook", .string, ["sunny", "overcast", "rain"]⟩,
   ⟨"whatIdo", .string, ["will play", "may play", "no play"]⟩]

/-- tree_test.go:45-89 (the document `normal`) -/
def golfNormal : N :=
  let leaf (score : String) (p : P) : N := .mk "" "" score (num "0") [] [] (some p)
  .mk "" "" "will play" (num "0") [] [
    .mk "" "" "will play" (num "0") [] [
      .mk "" "" "will play" (num "0") [] [
        leaf "will play" (sp "humidity" .lessThan "80"),
        leaf "no play" (sp "humidity" .greaterOrEqual "80")]
        (some (.compound .and [sp "temperature" .lessThan "90", sp "temperature" .greaterThan "50"])),
      leaf "no play" (.compound .or
        [sp "temperature" .greaterOrEqual "90", sp "temperature" .lessOrEqual "50"])]
      (some (sp "outlook" .equal "sunny")),
    .mk "" "" "may play" (num "0") [] [
      leaf "may play" (.compound .and [sp "temperature" .greaterThan "60",
        sp "temperature" .lessThan "100", sp "outlook" .equal "overcast",
        sp "humidity" .lessThan "70", sp "windy" .equal "false"]),
      leaf "no play" (.compound .and [sp "outlook" .equal "rain", sp "humidity" .lessThan "70"])]
      (some (.compound .or [sp "outlook" .equal "overcast", sp "outlook" .equal "rain"]))]
    (some .true_)

/-- tree_test.go:119-163 (the tree with counts and ids, used with five strategies) -/
def golfCounts : N :=
  .mk "1" "2" "will play" (num "100")
    [dist "will play" "60" "0.6", dist "may play" "30" "0.3", dist "no play" "10" "0.1"] [
    .mk "2" "3" "will play" (num "50")
      [dist "will play" "40" "0.8", dist "may play" "2" "0.04", dist "no play" "8" "0.16"] [
      .mk "3" "" "will play" (num "40")
        [dist "will play" "36" "0.9", dist "may play" "2" "0.05", dist "no play" "2" "0.05"] []
        (some (.compound .surrogate
          [sp "temperature" .greaterOrEqual "50", sp "humidity" .lessThan "80"])),
      .mk "4" "" "no play" (num "10")
        [dist "will play" "4" "0.4", dist "may play" "0" "0.0", dist "no play" "6" "0.6"] []
        (some (.compound .surrogate
          [sp "temperature" .lessThan "50", sp "humidity" .greaterOrEqual "80"]))]
      (some (sp "outlook" .equal "sunny")),
    .mk "5" "" "may play" (num "50")
      [dist "will play" "20" "0.4", dist "may play" "28" "0.56", dist "no play" "2" "0.04"] []
      (some (.compound .or [sp "outlook" .equal "overcast", sp "outlook" .equal "rain"]))]
    (some .true_)

def doc (s : MissingValueStrategy) (penalty : String) (n : N) : TreeDoc F64 where
  functionName := .classification
  missingValuePenalty := num penalty
  missingValueStrategy := s
  noTrueChildStrategy := .other ""
  localTransformations := []
  miningFields := [active "temperature", active "humidity", active "windy", active "outlook", target]
  verification := none
  node := n

/-- Build the model and evaluate one row (map order: sorted keys). -/
def run (d : TreeDoc F64) (row : List (String × GoVal F64)) : Res (Out F64) :=
  match newTreeModel dd [] d with
  | (.error e, _) => .error e
  | (.ok m, _) => (m.evaluate .sorted (some (Std.ExtTreeMap.ofList row))).res

/-- The entries of a returned row. -/
def entries (r : Res (Out F64)) : Option (List (String × GoVal F64)) :=
  match r with
  | .ok (some m) => some m.toList
  | _ => none

def lookup (r : Res (Out F64)) (k : String) : Option (GoVal F64) :=
  match r with
  | .ok (some m) => m[k]?
  | _ => none

/-- TestTreeModel (tree_test.go:428-463): an `int` temperature. -/
example :
    let r := run (doc (.other "") "1" golfNormal)
      [("temperature", .int .int 75), ("humidity", .int .int 55), ("windy", .bool false),
       ("outlook", .str "overcast")]
    (entries r).map List.length = some 4 ∧ lookup r "whatIdo" = some (.str "may play") ∧
      lookup r "probability(may play)" = some (.f64 (num "1")) := by decide +kernel

/-- tree_test.go:466-501 -/
example :
    let r := run (doc .weightedConfidence "1" golfCounts)
      [("temperature", .int .int 45), ("humidity", .int .int 60), ("outlook", .str "sunny")]
    (entries r).map List.length = some 4 ∧ lookup r "whatIdo" = some (.str "no play") := by
  decide +kernel

/-- TestTreeMode_WeightedConfidence: the probability is exactly the float64 0.8. -/
example :
    let r := run (doc .weightedConfidence "1" golfCounts) [("outlook", .str "sunny")]
    (entries r).map List.length = some 4 ∧ lookup r "whatIdo" = some (.str "will play") ∧
      lookup r "probability(will play)" = some (.f64 (num "0.8")) := by decide +kernel

/-- TestTreeMode_DefaultChild: the probability is exactly the float64 0.48. -/
example :
    let r := run (doc .defaultChild "0.8" golfCounts)
      [("temperature", .f64 (num "40")), ("humidity", .f64 (num "70"))]
    (entries r).map List.length = some 4 ∧ lookup r "whatIdo" = some (.str "no play") ∧
      lookup r "probability(no play)" = some (.f64 (num "0.48")) := by decide +kernel

/-- TestTreeMode_LastPrediction -/
example :
    let r := run (doc .lastPrediction "1" golfCounts) [("outlook", .str "sunny")]
    (entries r).map List.length = some 4 ∧ lookup r "whatIdo" = some (.str "will play") ∧
      lookup r "probability(will play)" = some (.f64 (num "0.8")) := by decide +kernel

/-- TestTreeMode_AggregateNodes -/
example :
    let r := run (doc .aggregateNodes "1" golfCounts)
      [("temperature", .f64 (num "45")), ("humidity", .f64 (num "90"))]
    (entries r).map List.length = some 4 ∧ lookup r "whatIdo" = some (.str "may play") := by
  decide +kernel

/-- TestTreeMode_NullPredictedValue: no row, no error. -/
example : run (doc .nullPrediction "1" golfCounts) [("outlook", .str "sunny")] matches .ok none := by
  decide +kernel

end Gopmml.Replay
