import Verif.Model.Doc

/-!
# How much there is to do

Counted on the document alone.
-/

namespace Gopmml.Spec

variable {F : Type}

mutual
/-- The comparisons (simple predicates) in a predicate. -/
def tests : Pred F → Nat
  | .simple _ => 1
  | .compound _ ps => testsAll ps
  | .true_ => 0
  | .false_ => 0
  | .set _ => 0
def testsAll : List (Pred F) → Nat
  | [] => 0
  | p :: ps => tests p + testsAll ps
end

def testsOpt : Option (Pred F) → Nat
  | none => 0
  | some p => tests p

mutual
/-- The comparisons in the tests of a node and everything below it. -/
def treeTests : Node F → Nat
  | .mk _ _ _ _ _ nodes pred => testsOpt pred + treesTests nodes
def treesTests : List (Node F) → Nat
  | [] => 0
  | n :: ns => treeTests n + treesTests ns
end

mutual
/-- The comparisons below a node on the most expensive way down: the tests of all children, of all children of
one of them, and so on. -/
def wayTests : Node F → Nat
  | .mk _ _ _ _ _ nodes _ => childTests nodes + deepestTests nodes
/-- The comparisons in the tests of the nodes themselves. -/
def childTests : List (Node F) → Nat
  | [] => 0
  | .mk _ _ _ _ _ _ pred :: ns => testsOpt pred + childTests ns
def deepestTests : List (Node F) → Nat
  | [] => 0
  | n :: ns => max (wayTests n) (deepestTests ns)
end

/-- The comparisons in a prediction of a tree: on one way down if the strategy gives up at an unknown test,
otherwise all. -/
def docTests (d : TreeDoc F) : Nat :=
  match d.missingValueStrategy, d.node with
  | .none, .mk _ _ _ _ _ _ pred => testsOpt pred + wayTests d.node
  | .other _, .mk _ _ _ _ _ _ pred => testsOpt pred + wayTests d.node
  | .nullPrediction, .mk _ _ _ _ _ _ pred => testsOpt pred + wayTests d.node
  | _, _ => treeTests d.node

mutual
/-- The comparisons in a prediction of a model. -/
def elemTests : ModelElem F → Nat
  | .tree d => docTests d
  | .regression _ => 0
  | .mining _ segs => segsTests segs
  | .other _ => 0
def segsTests : List (SegDoc F) → Nat
  | [] => 0
  | .mk _ _ [e] :: segs => elemTests e + segsTests segs
  | .mk _ _ _ :: _ => 0
end

mutual
/-- The accesses to shared memory it takes to build a model: one for every mining field of a tree, two for every
local transformation, one to read the dictionary, one for every comparison, and one for the default method of an
ensemble. -/
def elemWork : ModelElem F → Nat
  | .tree d => d.miningFields.length + 2 * d.localTransformations.length + 1 + treeTests d.node
  | .regression _ => 0
  | .mining h segs => 1 + 2 * h.localTransformations.length + 1 + segsWork segs
  | .other _ => 0
def segsWork : List (SegDoc F) → Nat
  | [] => 0
  | .mk _ _ [e] :: segs => elemWork e + segsWork segs
  | .mk _ _ _ :: _ => 0
end

mutual
/-- A tree of depth at most `d` whose nodes have at most `b` children and tests of at most `k` comparisons. -/
def shaped (b k : Nat) : Nat → Node F → Bool
  | d, .mk _ _ _ _ _ nodes pred => decide (nodes.length ≤ b) && decide (testsOpt pred ≤ k) && shapedAll b k d nodes
def shapedAll (b k : Nat) : Nat → List (Node F) → Bool
  | _, [] => true
  | 0, _ :: _ => false
  | d + 1, n :: ns => shaped b k d n && shapedAll b k (d + 1) ns
end

end Gopmml.Spec
