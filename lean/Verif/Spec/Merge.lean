import Verif.Spec.Tree
import Verif.Spec.Mining
import Verif.Spec.Ascending
import Verif.Model.F64

/-!
# Merging the trees of a forest (C101)

On document level. The answers of the merged tree are texts of float64 numbers, as `%v` writes them.
-/

namespace Gopmml.Spec

/-- A leaf that is always reached. -/
def leaf (text : String) : Node F64 := .mk "" "" text Arith.zero [] [] (some .true_)

/-- A node that has to answer although it has no answer. -/
def stuck : Node F64 := .mk "" "" "" Arith.zero [] [.mk "" "" "" Arith.zero [] [] (some .false_)] (some .true_)

mutual
/-- The tree with one more child at the end of every node `n`: `k n`. -/
def graft (k : Node F64 → Node F64) : Node F64 → Node F64
  | .mk id dc score rc dists nodes pred =>
    .mk "" "" "" Arith.zero [] (grafts k nodes ++ [k (.mk id dc score rc dists nodes pred)]) pred
def grafts (k : Node F64 → Node F64) : List (Node F64) → List (Node F64)
  | [] => []
  | n :: ns => graft k n :: grafts k ns
end

/-- Where to go on once the node `n` of the tree `d` has been found to answer, if the trees before have added up to
`acc`. -/
def goOn (dd : List DataField) (d : TreeDoc F64) (rest : F64 → Node F64) (acc : F64) (n : Node F64) : Node F64 :=
  match (ownDist dd d n).head? with
  | none => stuck
  | some s =>
    match Lib.parseFloat s.value with
    | none => leaf s.value
    | some x => rest (Arith.add acc x)

/-- All decisions of the first tree, then below each of them those of the other trees; each leaf has the sum of the
scores found on the way, rounded as float64. A tree without prediction adds nothing. -/
def mergeFrom (dd : List DataField) : List (TreeDoc F64) → F64 → Node F64
  | [], acc => leaf (GoVal.f64 acc).string
  | d :: ds, acc =>
    .mk "" "" "" Arith.zero [] [graft (goOn dd d (mergeFrom dd ds) acc) d.node, mergeFrom dd ds acc] (some .true_)

/-- A tree without any special treatment of missing values. -/
def plainTree (n : Node F64) : TreeDoc F64 where
  functionName := .regression
  missingValuePenalty := Arith.zero
  missingValueStrategy := .none
  noTrueChildStrategy := .returnNullPrediction
  localTransformations := []
  miningFields := []
  verification := none
  node := n

/-- One tree for many. -/
def mergedTree (dd : List DataField) (ds : List (TreeDoc F64)) : TreeDoc F64 :=
  plainTree (mergeFrom dd ds Arith.zero)

/-- A tree that never predicts. -/
def silentTree : TreeDoc F64 := plainTree (.mk "" "" "" Arith.zero [] [] (some .false_))

/-- A segment with one tree. -/
def treeSegment (d : TreeDoc F64) : SegDoc F64 := .mk "" [] [.tree d]

/-- The segment has just the tree `d`. -/
def IsTree (seg : SegDoc F64) (d : TreeDoc F64) : Prop := ∃ id ps, seg = .mk id ps [.tree d]

/-- A regression tree with the default strategy, complete predicates, and no derived fields of its own. -/
structure Mergeable (d : TreeDoc F64) : Prop where
  regression : d.functionName = .regression
  strategy : DefaultStrategy d
  preds : AllPreds d.node
  noLocals : d.localTransformations = []

end Gopmml.Spec
