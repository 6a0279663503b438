import Verif.Spec.Rounding
import Verif.Spec.Reached

/-!
# Documents whose float64 probabilities should sum to nearly one (C85)
-/

namespace Gopmml.F64

/-- The number a finite float64 denotes; nought for the others. -/
def toQ (x : F64) : ℚ := x.val.getD 0

/-- Finite and not negative. -/
def Mass (x : F64) : Prop := ∃ q, x.val = some q ∧ 0 ≤ q

/-- A whole number that is not negative. -/
def Whole (x : F64) : Prop := ∃ n : Nat, x.val = some (n : ℚ)

end Gopmml.F64

namespace Gopmml.Spec
open F64

/-- What a node of the document must satisfy.  Its declared labels are distinct and in `Λ`; its
probabilities are either all absent, the counts not negative with a finite total that is not
nought, or all given, not negative, and summing to one up to `ε`.  Without declared labels, its
score is one of the target's (distinct) values, which are in `Λ`. -/
def NearNode (dd : List DataField) (d : TreeDoc F64) (Λ : List String) (ε : ℚ) (r : Node F64) : Prop :=
  (r.dists ≠ [] → (r.dists.map (·.value)).Nodup ∧ (∀ s ∈ r.dists, s.value ∈ Λ) ∧
    (((∀ s ∈ r.dists, s.probability = none ∧ Mass s.recordCount) ∧
        ∃ t, ((r.dists.map (·.recordCount)).foldl F64.add F64.zero).val = some t ∧ t ≠ 0) ∨
     ∃ ps : List F64, r.dists.map (·.probability) = ps.map some ∧ (∀ p ∈ ps, Mass p) ∧
        |(ps.map toQ).sum - 1| ≤ ε)) ∧
  (r.dists = [] → targetOf d.miningFields ≠ "" ∧ (targetValues dd (targetOf d.miningFields)).Nodup ∧
    (∀ v ∈ targetValues dd (targetOf d.miningFields), v ∈ Λ) ∧
    r.score ∈ targetValues dd (targetOf d.miningFields))

/-- The record count of a node: that of its labels, if it lists any. -/
def nodeCount (r : Node F64) : ℚ :=
  if r.dists = [] then r.recordCount.toQ else (r.dists.map (·.recordCount.toQ)).sum

/-- The extra conditions of the single strategies.  The penalty of defaultChild is one.
weightedConfidence needs inner nodes that answer, record counts between nought and `2^900`,
distinct ids among siblings, and a tree of at most `h` levels with at most `b ≤ 2^40` children
each.  aggregateNodes needs whole counts, positive at each node and `2^53` at most over the tree. -/
def NearStrategy (d : TreeDoc F64) (b h : Nat) : Prop :=
  match d.missingValueStrategy with
  | .defaultChild => d.missingValuePenalty.val = some 1
  | .weightedConfidence => d.noTrueChildStrategy ≠ .returnNullPrediction ∧ Branching b h d.node ∧ b ≤ 2 ^ 40 ∧
      ∀ r, Sub r d.node → (r.nodes.map (·.id)).Nodup ∧ ∃ q, r.recordCount.val = some q ∧ 0 < q ∧ q ≤ 2 ^ 900
  | .aggregateNodes => (∀ r, Sub r d.node → 0 < nodeCount r ∧
        (r.dists = [] → Whole r.recordCount) ∧ ∀ s ∈ r.dists, Whole s.recordCount) ∧
      ((allNodes d.node).map nodeCount).sum ≤ 2 ^ 53
  | _ => True

/-- How far from one the sum may be, in units of `2^-53`: `N` labels, and for weightedConfidence
`h` levels of at most `b` children. -/
def units (s : MissingValueStrategy) (N b h : Nat) : Nat :=
  3 * (N + 1) + if s = .weightedConfidence then 9 * h * (b + 1) else 0

end Gopmml.Spec
