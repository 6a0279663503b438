import Mathlib.Data.List.Forall2
import Verif.Spec.Tree

/-!
# Specification of weightedConfidence and aggregateNodes

Both mix the children's answers when some child is unknown.  Floating-point sums
depend on the order of summation, and Go's map iteration order is unspecified, so
the specification is a relation: the answer is right for some order.
-/

namespace Gopmml.Spec

variable {F : Type} [Arith F]

/-- Left-to-right float sum. -/
def sum (l : List F) : F := l.foldl Arith.add Arith.zero

/-- The children that are not false, with their answers. -/
def live (nodes : List (Node F)) (as : List (Ans F)) : List (Node F × Ans F) :=
  (nodes.zip as).filter (fun p => p.2.2 ≠ .f)

/-- The last of the pairs whose node has the given id. -/
def withId (l : List (Node F × Ans F)) (i : String) : Option (Node F × Ans F) :=
  (l.filter (fun p => p.1.id = i)).getLast?

/-- The scores that the live child with id `i` contributes, each with the child's weight. -/
def contributions (l : List (Node F × Ans F)) (i : String) : List (F × ScoreDist F) :=
  match withId l i with
  | none => []
  | some p => p.2.1.map fun s =>
      (Arith.div p.1.recordCount (sum (l.map (fun q => q.1.recordCount))), s)

/-- `dist` is the mixture of the weighted scores `ws`: one entry per label, holding the
sums of the label's counts and of its weighted probabilities and confidences. -/
def IsMixture (ws : List (F × ScoreDist F)) (dist : List (ScoreDist F)) : Prop :=
  (dist.map (·.value)).Nodup ∧
  (∀ L, L ∈ dist.map (·.value) ↔ L ∈ ws.map (fun w => w.2.value)) ∧
  ∀ s ∈ dist, ∀ ls, ls = ws.filter (fun w => w.2.value = s.value) →
    s.recordCount = sum (ls.map (fun w => w.2.recordCount)) ∧
    s.probability = sum (ls.map (fun w => Arith.mul w.2.probability w.1)) ∧
    s.confidence = sum (ls.map (fun w => Arith.mul w.2.confidence w.1))

/-- The weightedConfidence mixture of the live children `l`, taken in some order of their
ids. -/
def WeightedMix (l : List (Node F × Ans F)) (dist : List (ScoreDist F)) : Prop :=
  ∃ order : List String, order.Nodup ∧ (∀ i, i ∈ order ↔ i ∈ l.map (fun p => p.1.id)) ∧
    IsMixture (order.flatMap (contributions l)) dist

/-- The aggregateNodes distribution of all scores collected from the children: one entry
per label, its probability and confidence the label's share of the record counts. -/
def AggregateMix (scores dist : List (ScoreDist F)) : Prop :=
  (dist.map (·.value)).Nodup ∧
  (∀ L, L ∈ dist.map (·.value) ↔ L ∈ scores.map (·.value)) ∧
  ∀ s ∈ dist,
    s.recordCount = sum ((scores.filter (fun t => t.value = s.value)).map (·.recordCount)) ∧
    s.probability = Arith.div s.recordCount (sum (scores.map (·.recordCount))) ∧
    s.confidence = Arith.div s.recordCount (sum (scores.map (·.recordCount)))

/-- Answers under weightedConfidence. -/
inductive WeightedAns (T : Node F → PredRes) (own : Node F → List (ScoreDist F)) :
    Node F → Ans F → Prop
  | rejected {n} : T n = .f → WeightedAns T own n (declaredDist n.dists, .f)
  | mixed {n as dist} : T n ≠ .f → List.Forall₂ (WeightedAns T own) n.nodes as →
      (∃ a ∈ as, a.2 = .u) → WeightedMix (live n.nodes as) dist → WeightedAns T own n (dist, .t)
  | child {n as} : T n ≠ .f → List.Forall₂ (WeightedAns T own) n.nodes as →
      (∀ a ∈ as, a.2 ≠ .u) → lastTrue as ≠ [] → WeightedAns T own n (lastTrue as, T n)
  | itself {n as} : T n ≠ .f → List.Forall₂ (WeightedAns T own) n.nodes as →
      (∀ a ∈ as, a.2 ≠ .u) → lastTrue as = [] → WeightedAns T own n (own n, T n)

/-- Answers under aggregateNodes. -/
inductive AggregateAns (T : Node F → PredRes) (own : Node F → List (ScoreDist F)) :
    Node F → Ans F → Prop
  | rejected {n} : T n = .f → AggregateAns T own n (own n, .f)
  | mixed {n as dist} : T n ≠ .f → List.Forall₂ (AggregateAns T own) n.nodes as →
      (∃ a ∈ as, a.2 = .u) → AggregateMix (as.flatMap (·.1)) dist → AggregateAns T own n (dist, .t)
  | child {n as} : T n ≠ .f → List.Forall₂ (AggregateAns T own) n.nodes as →
      (∀ a ∈ as, a.2 ≠ .u) → lastTrue as ≠ [] → AggregateAns T own n (lastTrue as, T n)
  | itself {n as} : T n ≠ .f → List.Forall₂ (AggregateAns T own) n.nodes as →
      (∀ a ∈ as, a.2 ≠ .u) → lastTrue as = [] → AggregateAns T own n (own n, T n)

end Gopmml.Spec
