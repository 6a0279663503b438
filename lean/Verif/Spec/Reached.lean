import Verif.Spec.Tree

/-!
# The nodes whose tests are made (C80)
-/

namespace Gopmml.Spec

variable {F : Type}

/-- The strategies that go on below a node whose test is unknown, and ask every child. -/
def Thorough : MissingValueStrategy → Bool
  | .lastPrediction | .defaultChild | .weightedConfidence | .aggregateNodes => true
  | _ => false

/-- After a test with this outcome the children are looked at. -/
def goesOn (s : MissingValueStrategy) : PredRes → Bool
  | .t => true
  | .u => Thorough s
  | .f => false

/-- After a child with this outcome the later children are not looked at. -/
def settles (s : MissingValueStrategy) : PredRes → Bool
  | .t => !Thorough s
  | .u => s = .nullPrediction
  | .f => false

/-- The nodes whose tests are made below and at a node, in order; `T` is the outcome of a node's test. -/
def reached (s : MissingValueStrategy) (T : Node F → PredRes) : Node F → List (Node F)
  | .mk id dc score rc dists nodes pred =>
    .mk id dc score rc dists nodes pred ::
      if goesOn s (T (.mk id dc score rc dists nodes pred)) then reacheds s T nodes else []
where
  reacheds (s : MissingValueStrategy) (T : Node F → PredRes) : List (Node F) → List (Node F)
    | [] => []
    | n :: ns => reached s T n ++ if settles s (T n) then [] else reacheds s T ns

mutual
/-- The trees differ at most in nodes whose tests are not made. -/
inductive SameReached (s : MissingValueStrategy) (T : Node F → PredRes) : Node F → Node F → Prop
  | mk {id dc score rc dists nodes nodes' pred} : (nodes = [] ↔ nodes' = []) →
      (goesOn s (T (.mk id dc score rc dists nodes pred)) = true → SameReacheds s T nodes nodes') →
      SameReached s T (.mk id dc score rc dists nodes pred) (.mk id dc score rc dists nodes' pred)
inductive SameReacheds (s : MissingValueStrategy) (T : Node F → PredRes) : List (Node F) → List (Node F) → Prop
  | nil : SameReacheds s T [] []
  | stop {n n' ns ns'} : SameReached s T n n' → settles s (T n) = true → SameReacheds s T (n :: ns) (n' :: ns')
  | cons {n n' ns ns'} : SameReached s T n n' → SameReacheds s T ns ns' → SameReacheds s T (n :: ns) (n' :: ns')
end

/-- All nodes of a tree, in document order. -/
def allNodes : Node F → List (Node F)
  | .mk id dc score rc dists nodes pred => .mk id dc score rc dists nodes pred :: allNodess nodes
where
  allNodess : List (Node F) → List (Node F)
    | [] => []
    | n :: ns => allNodes n ++ allNodess ns

/-- The tree has at most `h` levels below the node, and no node more than `b` children. -/
inductive Branching (b : Nat) : Nat → Node F → Prop
  | mk {h n} : n.nodes.length ≤ b → (∀ c ∈ n.nodes, Branching b h c) → Branching b (h + 1) n
  | leaf {n} : n.nodes = [] → Branching b 0 n

end Gopmml.Spec
