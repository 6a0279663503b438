import Verif.Proofs.F64Arith
import Verif.Proofs.Answer
import Verif.Proofs.Best
import Verif.Model.Samples

/-!
# Property C18: probabilities between 0 and 1 in float64 arithmetic
-/

namespace Gopmml.Props
open Gopmml Spec F64

/-- Probability NaN or in [0,1], record count non-negative. -/
def GoodScore (s : ScoreDist F64) : Prop := UnitOrNaN s.probability ∧ NonNeg s.recordCount

/-- What the document must declare: non-negative record counts, and no given probability
outside [0,1]. -/
def GoodNode (n : Node F64) : Prop :=
  Arith.le Arith.zero n.recordCount = true ∧
  ∀ s ∈ n.dists, Arith.le Arith.zero s.recordCount = true ∧ ∀ p, s.probability = some p → UnitOrNaN p

theorem single_le_sum {l : List F64} (hl : ∀ x ∈ l, NonNeg x) {x : F64} (hx : x ∈ l) :
    ext x ≤ ext (l.foldl add Arith.zero) := by
  have := foldl_sublist (List.singleton_sublist.mpr hx) hl nonNeg_zero nonNeg_zero (_root_.le_refl _)
  rwa [List.foldl_cons, List.foldl_nil, zero_add_ext (hl x hx) ext_zero nonNeg_zero] at this

/-- **C18**: a label's share of the summed record counts of its node. -/
theorem C18_record_counts {dists : List (ScoreDistribution F64)}
    (h : ∀ s ∈ dists, Arith.le Arith.zero s.recordCount = true ∧ ∀ p, s.probability = some p → UnitOrNaN p) :
    ∀ s ∈ declaredDist dists, GoodScore s := by
  intro s hs
  unfold declaredDist at hs
  obtain ⟨t, ht, rfl⟩ := List.mem_map.mp hs
  have hnn : ∀ x ∈ dists.map (·.recordCount), NonNeg x := by
    intro x hx
    obtain ⟨u, hu, rfl⟩ := List.mem_map.mp hx
    exact nonNeg_iff.mpr (h u hu).1
  have htn := nonNeg_iff.mpr (h t ht).1
  refine ⟨?_, htn⟩
  simp only
  cases hp : t.probability with
  | some p => exact (h t ht).2 p hp
  | none =>
    exact unit_div htn (foldl_nonNeg hnn nonNeg_zero)
      (single_le_sum hnn (List.mem_map.mpr ⟨t, ht, rfl⟩))

theorem good_ownDist {dd : List DataField} {d : TreeDoc F64} {n : Node F64} (h : GoodNode n) :
    ∀ s ∈ ownDist dd d n, GoodScore s := by
  unfold ownDist
  have hrc := nonNeg_iff.mpr h.1
  split_ifs with h1 h2 h3
  · simp
  · exact C18_record_counts h.2
  · intro s hs
    obtain ⟨v, -, rfl⟩ := List.mem_map.mp hs
    refine ⟨?_, ?_⟩ <;> simp only <;> split_ifs
    · exact unit_one
    · exact unit_zero
    · exact hrc
    · exact nonNeg_zero
  · simp only [List.mem_singleton, forall_eq]
    exact ⟨unit_zero, hrc⟩

/-- **C18**: an aggregateNodes mixture of non-negative counts. -/
theorem C18_aggregate {scores dist : List (ScoreDist F64)} (h : AggregateMix scores dist)
    (hs : ∀ s ∈ scores, NonNeg s.recordCount) : ∀ s ∈ dist, GoodScore s := by
  intro s hsd
  obtain ⟨h1, h2, -⟩ := h.2.2 s hsd
  have hnn : ∀ x ∈ scores.map (·.recordCount), NonNeg x := by
    intro x hx
    obtain ⟨u, hu, rfl⟩ := List.mem_map.mp hx
    exact hs u hu
  have hsub : ((scores.filter (fun t => decide (t.value = s.value))).map (·.recordCount)).Sublist
      (scores.map (·.recordCount)) := List.filter_sublist.map _
  have hrc : NonNeg s.recordCount := by
    rw [h1]
    exact foldl_nonNeg (fun x hx => hnn x (hsub.subset hx)) nonNeg_zero
  refine ⟨?_, hrc⟩
  rw [h2]
  refine unit_div hrc (foldl_nonNeg hnn nonNeg_zero) ?_
  rw [h1]
  exact foldl_sublist hsub hnn nonNeg_zero nonNeg_zero (_root_.le_refl _)

/-- **C18**: scaling by a penalty between 0 and 1. -/
theorem C18_penalty {p penalty : F64} (hp : UnitOrNaN p) (h : UnitOrNaN penalty) :
    UnitOrNaN (Arith.mul p penalty) := unit_mul hp h

/-- **C18**: every probability a classification tree reports is NaN or between 0 and 1, for
every strategy but weightedConfidence, whatever the map order. -/
theorem C18_evaluate {dd : List DataField} {td td' : TD F64} {d : TreeDoc F64} {m : TreeModel F64}
    {row row' : Row F64} (h : newTreeModel dd td d = (.ok m, td')) (hp : AllPreds d.node)
    (hi : handleInput d.localTransformations row = (.ok (), row'))
    (hn : ∀ r, Sub r d.node → GoodNode r)
    (hpen : d.missingValueStrategy = .defaultChild → UnitOrNaN d.missingValuePenalty)
    (hw : d.missingValueStrategy ≠ .weightedConfidence)
    (hc : d.functionName = .classification) (o : MapOrd) {r : GoMap (GoVal F64)}
    (hr : (m.evaluate o row).res = .ok (some r)) {L : String} {x : F64}
    (hx : r["probability(" ++ L ++ ")"]? = some (.f64 x)) : UnitOrNaN x := by
  obtain ⟨a, ha, he⟩ := evaluate_answer h hp hi o
  have hall : ∀ s ∈ a.1, GoodScore s := by
    refine nodeAns_forall (dd := dd) (d := d) (fun r hr => good_ownDist (hn r hr)) (fun h => absurd h hw) ?_
      (fun h => absurd h hw) ?_ ha
    · intro hs s hq
      exact ⟨unit_mul hq.1 (hpen hs), hq.2⟩
    · intro _ scores dist hs hmix
      exact C18_aggregate hmix (fun s h => (hs s h).2)
  rw [hr] at he
  unfold report at he
  by_cases hat : a.2 = .t
  · rw [if_neg (by simp [hat]), hc] at he
    simp only [Except.ok.injEq, Option.some.injEq] at he
    rw [he, classRow_prob] at hx
    cases hl : (a.1.filter (fun s => decide (s.value = L))).getLast? with
    | none => rw [hl] at hx; simp only at hx; split_ifs at hx; simp at hx
    | some s =>
      rw [hl] at hx
      simp only [Option.some.injEq, GoVal.f64.injEq] at hx
      have := List.mem_of_getLast? hl
      rw [← hx]
      exact (hall s (List.mem_filter.mp this).1).1
  · rw [if_pos hat] at he
    simp at he

section Examples
open Replay

/-- Four unknown children that all predict "yes" with certainty, counts 2, 4, 3, 1. -/
def fourSure : TreeDoc F64 :=
  doc .weightedConfidence "1" (.mk "0" "" "" (num "10") [] [
    .mk "a" "" "" (num "2") [⟨"will play", num "2", none, none⟩] [] (some (sp "outlook" .equal "sunny")),
    .mk "b" "" "" (num "4") [⟨"will play", num "4", none, none⟩] [] (some (sp "outlook" .equal "rain")),
    .mk "c" "" "" (num "3") [⟨"will play", num "3", none, none⟩] [] (some (sp "outlook" .equal "x")),
    .mk "d" "" "" (num "1") [⟨"will play", num "1", none, none⟩] [] (some (sp "outlook" .equal "y"))]
    (some .true_))

/-- The bound does fail for weightedConfidence: rounding makes the probability of a certain
label 1.0000000000000002. -/
theorem C18_weighted_exceeds_one :
    (match lookup (run fourSure []) "probability(will play)" with
    | some (.f64 x) => Arith.lt (Arith.one : F64) x
    | _ => false) = true := by decide +kernel

/-- NaN does occur: a distribution whose counts are all zero. -/
theorem C18_nan_occurs :
    lookup (run (doc .none "1" (.mk "0" "" "" (num "0") [⟨"will play", num "0", none, none⟩] []
      (some .true_))) []) "probability(will play)" = some (.f64 .nan) := by decide +kernel

-- C18: the repository's golf tree meets the hypotheses.
example : (newTreeModel dd [] (doc .aggregateNodes "1" golfCounts)).1.isOk ∧
    ([golfCounts] ++ golfCounts.nodes ++ golfCounts.nodes.flatMap (·.nodes)).all (fun n =>
      Arith.le Arith.zero n.recordCount && n.dists.all (fun s => Arith.le Arith.zero s.recordCount &&
        match s.probability with
        | none => true
        | some p => Arith.le Arith.zero p && Arith.le p Arith.one)) = true := by decide +kernel

end Examples

end Gopmml.Props
