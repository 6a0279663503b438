import Verif.Spec.Reached
import Verif.Spec.Rewrite
import Verif.Spec.Safe

/-!
# Trees as lists of rules (C96)
-/

namespace Gopmml.Spec

variable {F : Type}

/-- A rule: the nodes on the way down to a node, with this itself. -/
abbrev Rule (F : Type) := List (Node F) × Node F

mutual
/-- The rules of a tree: one for each node, those of the children before that of their parent. -/
def rules (above : List (Node F)) : Node F → List (Rule F)
  | .mk id dc score rc dists nodes pred =>
    rulesOf (above ++ [.mk id dc score rc dists nodes pred]) nodes ++
      [(above ++ [.mk id dc score rc dists nodes pred], .mk id dc score rc dists nodes pred)]
def rulesOf (above : List (Node F)) : List (Node F) → List (Rule F)
  | [] => []
  | n :: ns => rules above n ++ rulesOf above ns
end

/-- The outcome of a rule: all tests on the way have to hold. -/
def ruleValue (T : Node F → PredRes) (r : Rule F) : PredRes := all3 (r.1.map T)

def saysTrue : Pred F → Bool
  | .true_ => true
  | _ => false

def saysFalse : Pred F → Bool
  | .false_ => true
  | _ => false

/-- One test for several. (`True` and `False` cannot be operands of a compound: they would count as unknown.) -/
def conj (ps : List (Pred F)) : Pred F :=
  if ps.any saysFalse then .false_
  else
    match ps.filter (! saysTrue ·) with
    | [] => .true_
    | q :: qs => .compound .and (q :: qs)

/-- A leaf that stands for a rule. -/
def ruleNode : Rule F → Node F
  | (path, .mk id dc score rc dists _ _) => .mk id dc score rc dists [] (some (conj (path.filterMap (·.pred))))

/-- A tree of one level: the root with a leaf for every rule. -/
def flatten : Node F → Node F
  | .mk id dc score rc dists nodes pred => .mk id dc score rc dists ((rulesOf [] nodes).map ruleNode) pred

/-- The tree of `d'` is that of `d` flattened, or both are the same. -/
def FlatTree (d d' : TreeDoc F) : Prop :=
  d' = d ∨
  goesDown d.missingValueStrategy = true ∧ d.noTrueChildStrategy ≠ .returnNullPrediction ∧
    everyNode (fun n => n.pred.isSome) d.node = true ∧ d' = { d with node := flatten d.node }

end Gopmml.Spec
