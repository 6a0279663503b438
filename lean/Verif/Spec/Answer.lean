import Verif.Spec.Mix

/-!
# The answers of a tree under every strategy
-/

namespace Gopmml.Spec

variable {F : Type} [Arith F]

/-- The answers a node may give under the document's missing-value strategy. -/
def NodeAns (dd : List DataField) (d : TreeDoc F) (T : Node F → PredRes) (n : Node F) (a : Ans F) : Prop :=
  match d.missingValueStrategy with
  | .none | .other _ =>
    (T n ≠ .t ∧ a = ([], .f)) ∨
    (T n = .t ∧ ∃ r, FirstTrue T n r ∧ a = (ownDist dd d r, .t))
  | .nullPrediction =>
    (T n = .f ∧ a = ([], .f)) ∨
    (T n ≠ .f ∧ (∃ r, Visits T r n ∧ T r = .u) ∧ a = ([], .u)) ∨
    (T n ≠ .f ∧ (∀ r, Visits T r n → T r ≠ .u) ∧ ∃ r, FirstTrue T n r ∧ a = (ownDist dd d r, .t))
  | .lastPrediction => a = lastAns T (ownDist dd d) n
  | .defaultChild => a = defaultAns d.missingValuePenalty T (ownDist dd d) n
  | .weightedConfidence => WeightedAns T (ownDist dd d) n a
  | .aggregateNodes => AggregateAns T (ownDist dd d) n a

omit [Arith F] in
/-- From `n` to `r` along children that are true while all their siblings are false. -/
inductive Clean (T : Node F → PredRes) : Node F → Node F → Prop
  | stop {n : Node F} : (∀ c ∈ n.nodes, T c = .f) → Clean T n n
  | step {n c r : Node F} {pre post : List (Node F)} :
      n.nodes = pre ++ c :: post → (∀ e ∈ pre, T e = .f) → (∀ e ∈ post, T e = .f) → T c = .t →
      Clean T c r → Clean T n r

end Gopmml.Spec
