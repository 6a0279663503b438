import Verif.Proofs.Real
import Verif.Props.MapOrder

/-!
# Exact arithmetic: probabilities sum to one (C19), order independence of mixtures (C25)
-/

namespace Gopmml.Props
open Gopmml Spec Real'

/-! ## C19 -/

/-- The probabilities of a distribution sum to one. -/
def SumsToOne (dist : List (ScoreDist ℝ)) : Prop := (dist.map (·.probability)).sum = 1

theorem sum_map_div {α : Type} (l : List α) (f : α → ℝ) (t : ℝ) :
    (l.map (fun a => f a / t)).sum = (l.map f).sum / t := by
  induction l with
  | nil => simp
  | cons a l ih => simp only [List.map_cons, List.sum_cons, ih, add_div]

theorem declaredDist_probabilities (dists : List (ScoreDistribution ℝ)) :
    (declaredDist dists).map (·.probability) =
      dists.map (fun s => s.probability.getD (s.recordCount / (dists.map (·.recordCount)).sum)) := by
  unfold declaredDist
  rw [List.map_map]
  apply List.map_congr_left
  intro s _
  have : (dists.map (·.recordCount)).foldl Arith.add Arith.zero = (dists.map (·.recordCount)).sum := by
    rw [← sum_eq]; rfl
  simp only [Function.comp, this]
  cases s.probability <;> rfl

/-- **C19**: probabilities derived from record counts sum to one. -/
theorem C19_record_counts {dists : List (ScoreDistribution ℝ)} (hp : ∀ s ∈ dists, s.probability = none)
    (ht : (dists.map (·.recordCount)).sum ≠ 0) : SumsToOne (declaredDist dists) := by
  unfold SumsToOne
  rw [declaredDist_probabilities, List.map_congr_left (g := fun s => s.recordCount /
    (dists.map (·.recordCount)).sum) (fun s hs => by simp [hp s hs]), sum_map_div, div_self ht]

-- C19: two labels with counts 9 and 1.
example : SumsToOne (declaredDist [⟨"a", 9, none, none⟩, ⟨"b", 1, none, none⟩]) :=
  C19_record_counts (by simp) (by norm_num)

/-- **C19**: probabilities given in the document are reported as they are. -/
theorem C19_given {dists : List (ScoreDistribution ℝ)} {ps : List ℝ}
    (hp : dists.map (·.probability) = ps.map some) (ht : ps.sum = 1) : SumsToOne (declaredDist dists) := by
  unfold SumsToOne
  rw [declaredDist_probabilities, ← ht]
  generalize (dists.map (·.recordCount)).sum = t
  clear ht
  congr 1
  induction dists generalizing ps with
  | nil => cases ps <;> simp_all
  | cons s l ih =>
    cases ps with
    | nil => simp at hp
    | cons p ps =>
      simp only [List.map_cons, List.cons.injEq] at hp
      simp [hp.1, ih hp.2]

-- C19: given probabilities.
example : SumsToOne (declaredDist [⟨"a", 9, none, some (1/4)⟩, ⟨"b", 1, none, some (3/4)⟩]) :=
  C19_given (ps := [1/4, 3/4]) (by simp) (by norm_num)

/-- **C19**: all mass on the node's score, when the score is one of the target's values. -/
theorem C19_one_hot {values : List String} {score : String} (rc : ℝ) (hn : values.Nodup)
    (hs : score ∈ values) : SumsToOne (oneHot values score rc) := by
  unfold SumsToOne oneHot
  rw [List.map_map, ← sum_ite_nodup hn hs 1]
  congr 2
  funext v
  simp only [Function.comp, zero_eq, one_eq, eq_comm (a := v)]

-- C19: a score among three target values.
example : SumsToOne (oneHot ["a", "b", "c"] "b" 5) := C19_one_hot 5 (by decide) (by decide)

/-- The total record count of an aggregateNodes mixture is that of its parts. -/
theorem aggregate_total {scores dist : List (ScoreDist ℝ)} (h : AggregateMix scores dist) :
    (dist.map (·.recordCount)).sum = (scores.map (·.recordCount)).sum := by
  obtain ⟨hn, hl, hv⟩ := h
  have := sum_groups scores (fun t => t.value) (·.recordCount) hn
    (fun w hw => (hl _).mpr (List.mem_map.mpr ⟨w, hw, rfl⟩))
  rw [← this, List.map_map]
  congr 1
  apply List.map_congr_left
  intro s hs
  rw [(hv s hs).1, sum_eq]
  rfl

/-- **C19**: an aggregateNodes mixture sums to one unless the total record count is zero. -/
theorem C19_aggregate {scores dist : List (ScoreDist ℝ)} (h : AggregateMix scores dist)
    (ht : (scores.map (·.recordCount)).sum ≠ 0) : SumsToOne dist := by
  have htot := aggregate_total h
  unfold SumsToOne
  have : dist.map (·.probability) = dist.map (fun s => s.recordCount / (scores.map (·.recordCount)).sum) := by
    apply List.map_congr_left
    intro s hs
    rw [(h.2.2 s hs).2.1, sum_eq]
    rfl
  rw [this, sum_map_div, htot, div_self ht]

-- C19: counts 3 and 1 for "a" and "b" in one node, 2 for "a" in another.
example : AggregateMix [⟨"a", 0, 0, 3⟩, ⟨"b", 0, 0, 1⟩, ⟨"a", 0, 0, 2⟩]
      [⟨"b", 1/6, 1/6, 1⟩, ⟨"a", 5/6, 5/6, (5 : ℝ)⟩] ∧
    ((([⟨"a", 0, 0, 3⟩, ⟨"b", 0, 0, 1⟩, ⟨"a", 0, 0, 2⟩] : List (ScoreDist ℝ)).map (·.recordCount)).sum ≠ 0) := by
  refine ⟨⟨by decide, by intro L; simp; tauto, ?_⟩, by norm_num⟩
  intro s hs
  simp only [List.mem_cons, List.not_mem_nil, or_false] at hs
  rcases hs with rfl | rfl <;> simp [sum_eq, div_eq] <;> norm_num

/-- **C19**: a weightedConfidence mixture of live children with distinct ids, whose
distributions all sum to one, sums to one unless the total record count is zero. -/
theorem C19_weighted {ns : List (Node ℝ)} {as : List (Ans ℝ)} {dist : List (ScoreDist ℝ)}
    (hid : (ns.map (·.id)).Nodup) (h : WeightedMix (live ns as) dist)
    (hone : ∀ p ∈ live ns as, SumsToOne p.2.1)
    (ht : ((live ns as).map (fun p => p.1.recordCount)).sum ≠ 0) : SumsToOne dist := by
  obtain ⟨order, hperm, hmix⟩ := C16_distinct_ids hid h
  rw [sum_eq] at hmix
  set W := ((live ns as).map (fun p => p.1.recordCount)).sum with hW
  obtain ⟨hn, hl, hv⟩ := hmix
  set ws := order.flatMap (fun p => p.2.1.map (fun s => (Arith.div p.1.recordCount W, s))) with hws
  have hg := sum_groups ws (fun w => w.2.value) (fun w => Arith.mul w.2.probability w.1) hn
    (fun w hw => (hl _).mpr (List.mem_map.mpr ⟨w, hw, rfl⟩))
  unfold SumsToOne
  have h1 : (dist.map (·.probability)).sum = (ws.map (fun w => Arith.mul w.2.probability w.1)).sum := by
    rw [← hg, List.map_map]
    congr 1
    apply List.map_congr_left
    intro s hs
    rw [(hv s hs _ rfl).2.1, sum_eq]
    rfl
  rw [h1, hws]
  have h2 : ∀ l : List (Node ℝ × Ans ℝ), (∀ p ∈ l, SumsToOne p.2.1) →
      ((l.flatMap (fun p => p.2.1.map (fun s => (Arith.div p.1.recordCount W, s)))).map
        (fun w => Arith.mul w.2.probability w.1)).sum = (l.map (fun p => p.1.recordCount)).sum / W := by
    intro l
    induction l with
    | nil => simp
    | cons p l ih =>
      intro hl
      rw [List.flatMap_cons, List.map_append, List.sum_append, ih (fun q hq => hl q (by simp [hq])),
        List.map_cons, List.sum_cons, add_div, List.map_map]
      congr 1
      have : (p.2.1.map ((fun w : ℝ × ScoreDist ℝ => Arith.mul w.2.probability w.1) ∘
          fun s => (Arith.div p.1.recordCount W, s))).sum =
          (p.2.1.map (·.probability)).sum * (p.1.recordCount / W) := by
        generalize p.2.1 = l'
        induction l' with
        | nil => simp
        | cons s l' ih' => rw [List.map_cons, List.sum_cons, ih', List.map_cons, List.sum_cons, add_mul]; rfl
      rw [this, hl p (by simp), one_mul]
  rw [h2 order (fun p hp => hone p (hperm.mem_iff.mp hp)), (hperm.map _).sum_eq, ← hW, div_self ht]

-- C19: two live children with weights 3/4 and 1/4.
example : WeightedMix (F := ℝ) (live
      [.mk "x" "" "" 3 [] [] none, .mk "y" "" "" 1 [] [] none]
      [([⟨"a", 0, 1, 3⟩], .u), ([⟨"a", 0, 1/2, 1⟩, ⟨"b", 0, 1/2, 1⟩], .u)])
    [⟨"a", 0, 7/8, 4⟩, ⟨"b", 0, 1/8, 1⟩] := by
  refine ⟨["x", "y"], by decide, by intro i; simp [live, Node.id], ?_⟩
  have : (["x", "y"].flatMap (contributions (F := ℝ) (live
      [.mk "x" "" "" 3 [] [] none, .mk "y" "" "" 1 [] [] none]
      [([⟨"a", 0, 1, 3⟩], .u), ([⟨"a", 0, 1/2, 1⟩, ⟨"b", 0, 1/2, 1⟩], .u)]))) =
      [(3/4, ⟨"a", 0, 1, 3⟩), (1/4, ⟨"a", 0, 1/2, 1⟩), (1/4, ⟨"b", 0, 1/2, 1⟩)] := by
    simp [contributions, live, withId, Node.id, Node.recordCount, sum_eq, div_eq]
    norm_num
  rw [this]
  refine ⟨by decide, by intro L; simp, ?_⟩
  intro s hs ls hls
  subst hls
  simp only [List.mem_cons, List.not_mem_nil, or_false] at hs
  rcases hs with rfl | rfl <;> simp [sum_eq, mul_eq] <;> norm_num

/-- Distinct labels, probabilities summing to one. -/
def Proper (dist : List (ScoreDist ℝ)) : Prop := (dist.map (·.value)).Nodup ∧ SumsToOne dist

/-- What a node of the document must satisfy: its declared labels are distinct and its
probabilities either all absent, with counts not adding up to zero, or all given and
summing to one; without declared labels, its score is one of the target's (distinct) values. -/
def ProperNode (dd : List DataField) (d : TreeDoc ℝ) (r : Node ℝ) : Prop :=
  (r.dists ≠ [] → (r.dists.map (·.value)).Nodup ∧
    (((∀ s ∈ r.dists, s.probability = none) ∧ (r.dists.map (·.recordCount)).sum ≠ 0) ∨
     ∃ ps : List ℝ, r.dists.map (·.probability) = ps.map some ∧ ps.sum = 1)) ∧
  (r.dists = [] → targetOf d.miningFields ≠ "" ∧ (targetValues dd (targetOf d.miningFields)).Nodup ∧
    r.score ∈ targetValues dd (targetOf d.miningFields))

variable {dd : List DataField} {d : TreeDoc ℝ}

theorem declaredDist_values {F : Type} [Arith F] (dists : List (ScoreDistribution F)) :
    (declaredDist dists).map (·.value) = dists.map (·.value) := by
  unfold declaredDist; rw [List.map_map]; rfl

theorem declaredDist_counts {F : Type} [Arith F] (dists : List (ScoreDistribution F)) :
    (declaredDist dists).map (·.recordCount) = dists.map (·.recordCount) := by
  unfold declaredDist; rw [List.map_map]; rfl

theorem ownDist_proper {r : Node ℝ} (h : ProperNode dd d r) :
    (ownDist dd d r = [] ∧ r.nodes ≠ [] ∧ d.noTrueChildStrategy = .returnNullPrediction) ∨
      Proper (ownDist dd d r) := by
  unfold ownDist
  split_ifs with h1 h2 h3
  · exact .inl ⟨rfl, h1⟩
  · obtain ⟨hn, h⟩ := h.1 h2
    refine .inr ⟨by rw [declaredDist_values]; exact hn, ?_⟩
    rcases h with ⟨hp, ht⟩ | ⟨ps, hp, ht⟩
    · exact C19_record_counts hp ht
    · exact C19_given hp ht
  · obtain ⟨-, hn, hs⟩ := h.2 (not_not.mp h2)
    refine .inr ⟨?_, C19_one_hot _ hn hs⟩
    unfold oneHot
    rw [List.map_map]
    simpa [Function.comp_def] using hn
  · exact absurd (h.2 (not_not.mp h2)).1 h3

/-- The extra conditions of the single strategies: defaultChild must not penalise;
weightedConfidence needs positive record counts, distinct ids among siblings and inner nodes
that answer; aggregateNodes needs positive totals. -/
def ProperStrategy (d : TreeDoc ℝ) : Prop :=
  match d.missingValueStrategy with
  | .defaultChild => d.missingValuePenalty = 1
  | .weightedConfidence => d.noTrueChildStrategy ≠ .returnNullPrediction ∧
      ∀ r, Sub r d.node → 0 < r.recordCount ∧ (r.nodes.map (·.id)).Nodup
  | .aggregateNodes => ∀ r, Sub r d.node →
      (r.dists = [] → 0 < r.recordCount) ∧ (r.dists ≠ [] → 0 < (r.dists.map (·.recordCount)).sum)
  | _ => True

theorem weighted_proper {T : Node ℝ → PredRes} {own : Node ℝ → List (ScoreDist ℝ)} {n : Node ℝ} {a : Ans ℝ}
    (hown : ∀ r, Sub r n → Proper (own r))
    (hr : ∀ r, Sub r n → 0 < r.recordCount ∧ (r.nodes.map (·.id)).Nodup)
    (h : WeightedAns T own n a) : a.2 ≠ .f → Proper a.1 := by
  induction n using Node.ind generalizing a with
  | h n ih =>
    intro ha
    have ih' : ∀ c ∈ n.nodes, ∀ b, WeightedAns T own c b → b.2 ≠ .f → Proper b.1 :=
      fun c hc b hb => ih c hc (fun r h => hown r (.child hc h)) (fun r h => hr r (.child hc h)) hb
    cases h with
    | rejected _ => exact absurd rfl ha
    | @mixed _ as dist _ hall hu hmix =>
      have hlive : ∀ p ∈ live n.nodes as, Proper p.2.1 := by
        intro p hp
        obtain ⟨hz, hf⟩ := List.mem_filter.mp hp
        obtain ⟨c, hc, hcb⟩ := forall₂_mem_right hall (List.of_mem_zip (a := p.1) (b := p.2) hz).2
        exact ih' c hc _ hcb (by simpa using hf)
      refine ⟨?_, C19_weighted (hr n .refl).2 hmix (fun p hp => (hlive p hp).2) ?_⟩
      · obtain ⟨order, -, -, h, -⟩ := hmix; exact h
      · apply ne_of_gt
        apply List.sum_pos
        · intro x hx
          obtain ⟨p, hp, rfl⟩ := List.mem_map.mp hx
          have := (List.of_mem_zip (a := p.1) (b := p.2) (List.mem_filter.mp hp).1).1
          exact (hr _ (.child this .refl)).1
        · obtain ⟨b, hb, hbu⟩ := hu
          have hlen := hall.length_eq
          obtain ⟨i, hi, hib⟩ := List.getElem_of_mem hb
          have : ((n.nodes[i]'(by omega)), b) ∈ live n.nodes as := by
            refine List.mem_filter.mpr ⟨?_, by simp [hbu]⟩
            refine List.mem_iff_getElem.mpr ⟨i, by simp; omega, ?_⟩
            simp [hib]
          intro he
          rw [List.map_eq_nil_iff] at he
          rw [he] at this
          simp at this
    | @child _ as _ hall _ hl =>
      obtain ⟨b, hb, hbt, he⟩ := lastTrue_mem hl
      obtain ⟨c, hc, hcb⟩ := forall₂_mem_right hall hb
      simp only [he]
      exact ih' c hc _ hcb (by simp [hbt])
    | itself _ _ _ _ => exact hown n .refl

theorem aggregate_proper {T : Node ℝ → PredRes} {own : Node ℝ → List (ScoreDist ℝ)} {n : Node ℝ} {a : Ans ℝ}
    (hown : ∀ r, Sub r n → own r = [] ∨ (Proper (own r) ∧ 0 < ((own r).map (·.recordCount)).sum))
    (h : AggregateAns T own n a) : a.1 = [] ∨ (Proper a.1 ∧ 0 < (a.1.map (·.recordCount)).sum) := by
  induction n using Node.ind generalizing a with
  | h n ih =>
    have ih' : ∀ c ∈ n.nodes, ∀ b, AggregateAns T own c b →
        b.1 = [] ∨ (Proper b.1 ∧ 0 < (b.1.map (·.recordCount)).sum) :=
      fun c hc b hb => ih c hc (fun r h => hown r (.child hc h)) hb
    cases h with
    | rejected _ => exact hown n .refl
    | @mixed _ as dist _ hall hu hmix =>
      have hpos : ∀ l : List (Ans ℝ), (∀ b ∈ l, b.1 = [] ∨ 0 < (b.1.map (·.recordCount)).sum) →
          l.flatMap (·.1) = [] ∨ 0 < ((l.flatMap (·.1)).map (·.recordCount)).sum := by
        intro l
        induction l with
        | nil => simp
        | cons b l ihl =>
          intro hl
          rw [List.flatMap_cons, List.map_append, List.sum_append]
          rcases hl b (by simp) with h | h <;> rcases ihl (fun c hc => hl c (by simp [hc])) with h' | h'
          · left; simp [h, h']
          · right; simp [h, h']
          · right; simp [h, h']
          · right; linarith
      have hall' : ∀ b ∈ as, b.1 = [] ∨ 0 < (b.1.map (·.recordCount)).sum := by
        intro b hb
        obtain ⟨c, hc, hcb⟩ := forall₂_mem_right hall hb
        exact (ih' c hc _ hcb).imp id (·.2)
      rcases hpos as hall' with h | h
      · left
        rw [h] at hmix
        have := hmix.2.1
        cases dist with
        | nil => rfl
        | cons s l => exact absurd ((this s.value).mp (by simp)) (by simp)
      · right
        exact ⟨⟨hmix.1, C19_aggregate hmix (ne_of_gt h)⟩, by rw [aggregate_total hmix]; exact h⟩
    | @child _ as _ hall _ hl =>
      obtain ⟨b, hb, hbt, he⟩ := lastTrue_mem hl
      obtain ⟨c, hc, hcb⟩ := forall₂_mem_right hall hb
      simp only [he]
      exact ih' c hc _ hcb
    | itself _ _ _ _ => exact hown n .refl

/-- Under any strategy the answer of a proper tree is empty or proper. -/
theorem nodeAns_proper {T : Node ℝ → PredRes} {a : Ans ℝ}
    (hn : ∀ r, Sub r d.node → ProperNode dd d r) (hst : ProperStrategy d)
    (h : NodeAns dd d T d.node a) (ha : a.2 = .t) : a.1 = [] ∨ Proper a.1 := by
  have hown : ∀ r, Sub r d.node → ownDist dd d r = [] ∨ Proper (ownDist dd d r) :=
    fun r hr => (ownDist_proper (hn r hr)).imp (·.1) id
  unfold NodeAns at h
  unfold ProperStrategy at hst
  cases hs : d.missingValueStrategy with
  | none | other s =>
    simp only [hs] at h
    rcases h with ⟨-, rfl⟩ | ⟨-, r, hr, rfl⟩
    · simp
    · exact hown r (firstTrue_sub hr)
  | nullPrediction =>
    simp only [hs] at h
    rcases h with ⟨-, rfl⟩ | ⟨-, -, rfl⟩ | ⟨-, -, r, hr, rfl⟩
    · simp
    · simp
    · exact hown r (firstTrue_sub hr)
  | lastPrediction =>
    simp only [hs] at h
    subst h
    clear hst hn hs
    generalize d.node = n at *
    clear ha
    induction n using Node.ind with
    | h n ih =>
      rw [lastAns_eq]
      split_ifs with h1 h2
      · simp
      · obtain ⟨b, hb, -, he⟩ := lastTrue_mem h2.2
        simp only [List.mem_map] at hb
        obtain ⟨c, hc, rfl⟩ := hb
        simp only [he]
        exact ih c hc (fun r hr => hown r (.child hc hr))
      · exact hown n .refl
  | defaultChild =>
    simp only [hs] at h hst
    subst h
    rw [hst]
    clear hn hs ha
    generalize d.node = n at *
    induction n using Node.ind with
    | h n ih =>
      rw [defaultAns_eq, answerOf_map]
      split_ifs with h1 h2 h3
      · simp
      · cases hl : (n.nodes.filter (fun e => decide (e.id = n.defaultChild))).getLast? with
        | none => simp
        | some c =>
          have := List.mem_of_getLast? hl
          simp only [List.mem_filter] at this
          have h := ih c this.1 (fun r hr => hown r (.child this.1 hr))
          simp only [Option.map_some, mul_eq, mul_one, List.map_id']
          exact h
      · obtain ⟨b, hb, -, he⟩ := lastTrue_mem h3
        simp only [List.mem_map] at hb
        obtain ⟨c, hc, rfl⟩ := hb
        simp only [he]
        exact ih c hc (fun r hr => hown r (.child hc hr))
      · exact hown n .refl
  | weightedConfidence =>
    simp only [hs] at h hst
    refine .inr (weighted_proper (fun r hr => ?_) hst.2 h (by simp [ha]))
    rcases ownDist_proper (hn r hr) with ⟨-, -, h⟩ | h
    · exact absurd h hst.1
    · exact h
  | aggregateNodes =>
    simp only [hs] at h hst
    refine (aggregate_proper (fun r hr => ?_) h).imp id (·.1)
    rcases hown r hr with h | h
    · exact .inl h
    · right
      refine ⟨h, ?_⟩
      have hp := hst r hr
      have hne : ownDist dd d r ≠ [] := by rintro he; simp [he, Proper, SumsToOne] at h
      revert hne
      unfold ownDist
      split_ifs with h1 h2 h3
      · simp
      · intro _; rw [declaredDist_counts]; exact hp.2 h2
      · intro _
        obtain ⟨-, hnd, hsc⟩ := (hn r hr).2 (not_not.mp h2)
        have : ((oneHot (targetValues dd (targetOf d.miningFields)) r.score r.recordCount).map
            (·.recordCount)).sum = r.recordCount := by
          unfold oneHot
          rw [List.map_map]
          refine Eq.trans ?_ (sum_ite_nodup hnd hsc r.recordCount)
          congr 2
          funext v
          simp only [Function.comp, zero_eq, eq_comm (a := v)]
        rw [this]
        exact hp.1 (not_not.mp h2)
      · exact fun _ => absurd ((hn r hr).2 (not_not.mp h2)).1 h3

/-- The number stored under `probability(L)`, zero if there is none. -/
noncomputable def probability (r : GoMap (GoVal ℝ)) (L : String) : ℝ :=
  match r["probability(" ++ L ++ ")"]? with
  | some (.f64 x) => x
  | _ => 0

/-- **C19**: in exact arithmetic, whatever the strategy and the map order, the probabilities a
classification tree reports sum to one (or it reports none). -/
theorem C19_evaluate [Lib ℝ] {td td' : TD ℝ} {m : TreeModel ℝ} {row row' : Row ℝ}
    (h : newTreeModel dd td d = (.ok m, td')) (hp : AllPreds d.node)
    (hi : handleInput d.localTransformations row = (.ok (), row'))
    (hn : ∀ r, Sub r d.node → ProperNode dd d r) (hst : ProperStrategy d)
    (hc : d.functionName = .classification) (o : MapOrd) {r : GoMap (GoVal ℝ)}
    (hr : (m.evaluate o row).res = .ok (some r)) :
    ∃ labels : List String, labels.Nodup ∧ (∀ L, L ∉ labels → ∀ x, r["probability(" ++ L ++ ")"]? ≠ some (.f64 x)) ∧
      (labels = [] ∨ (labels.map (probability r)).sum = 1) := by
  obtain ⟨a, ha, he⟩ := evaluate_answer h hp hi o
  rw [hr] at he
  unfold report at he
  by_cases hat : a.2 = .t
  · rw [if_neg (by simp [hat]), hc] at he
    simp only [Except.ok.injEq, Option.some.injEq] at he
    have hd := nodeAns_proper hn hst ha hat
    generalize a.1 = dist at he hd
    subst he
    refine ⟨dist.map (·.value), ?_, ?_, ?_⟩
    · rcases hd with rfl | hd
      · simp
      · exact hd.1
    · intro L hL x
      rw [classRow_prob]
      have : dist.filter (fun s => decide (s.value = L)) = [] := by
        simp only [List.filter_eq_nil_iff, decide_eq_true_eq]
        exact fun s hs e => hL (List.mem_map.mpr ⟨s, hs, e⟩)
      rw [this]
      simp only [List.getLast?_nil]
      split_ifs <;> simp
    · rcases hd with rfl | ⟨hnd, hone⟩
      · simp
      · right
        rw [List.map_map, ← hone]
        congr 1
        apply List.map_congr_left
        intro s hs
        simp only [Function.comp, probability]
        rw [classRow_prob]
        cases hl : (dist.filter (fun t => decide (t.value = s.value))).getLast? with
        | none =>
          rw [List.getLast?_eq_none_iff, List.filter_eq_nil_iff] at hl
          exact absurd (hl s hs) (by simp)
        | some t =>
          have := List.mem_of_getLast? hl
          simp only [List.mem_filter, decide_eq_true_eq] at this
          rw [List.inj_on_of_nodup_map hnd this.1 hs this.2]
  · rw [if_pos hat] at he
    simp at he

/-- A document over the reals: root true, two children testing a string field. -/
def mixDoc (s : MissingValueStrategy) : TreeDoc ℝ where
  functionName := .classification
  missingValuePenalty := 1
  missingValueStrategy := s
  noTrueChildStrategy := .other ""
  localTransformations := []
  miningFields := [⟨"y", .target, "", "", none⟩]
  verification := none
  node := .mk "r" "" "a" 4 [⟨"a", 3, none, none⟩, ⟨"b", 1, none, none⟩] [
    .mk "c" "" "a" 3 [⟨"a", 3, none, none⟩] [] (some (.simple ⟨"x", .equal, "u", .nil⟩)),
    .mk "d" "" "b" 1 [⟨"b", 1, none, none⟩] [] (some (.simple ⟨"x", .equal, "v", .nil⟩))] (some .true_)

theorem mixDoc_sub {s : MissingValueStrategy} {r : Node ℝ} (h : Sub r (mixDoc s).node) :
    r = (mixDoc s).node ∨ r ∈ (mixDoc s).node.nodes := by
  cases h with
  | refl => exact .inl rfl
  | child hc h =>
    right
    cases h with
    | refl => exact hc
    | child hc' _ =>
      simp only [mixDoc, Node.nodes, List.mem_cons, List.not_mem_nil, or_false] at hc
      rcases hc with rfl | rfl <;> simp [Node.nodes] at hc'

-- C19: the hypotheses of `C19_evaluate` can be met under every strategy.
example [Lib ℝ] (s : MissingValueStrategy) :
    (∃ m td', newTreeModel [⟨"x", .string, []⟩, ⟨"y", .string, ["a", "b"]⟩] [] (mixDoc s) = (.ok m, td')) ∧
    AllPreds (mixDoc s).node ∧
    (∀ r, Sub r (mixDoc s).node → ProperNode [⟨"x", .string, []⟩, ⟨"y", .string, ["a", "b"]⟩] (mixDoc s) r) ∧
    ProperStrategy (mixDoc s) := by
  refine ⟨?_, ?_, ?_, ?_⟩
  · rw [(C08_construction _ _ _).1]
    refine ⟨.inl rfl, ?_⟩
    intro r hr q hq t ht
    rcases mixDoc_sub hr with rfl | h
    · simp [mixDoc, Node.pred] at hq; subst hq; simp [simples] at ht
    · simp only [mixDoc, Node.nodes, List.mem_cons, List.not_mem_nil, or_false] at h
      rcases h with rfl | rfl <;>
      · simp [Node.pred] at hq
        subst hq
        simp only [simples, List.mem_cons, List.not_mem_nil, or_false] at ht
        subst ht
        exact ⟨.string, by simp [declaredType, mixDoc], trivial⟩
  · intro r hr
    rcases mixDoc_sub hr with rfl | h
    · exact ⟨_, rfl⟩
    · simp only [mixDoc, Node.nodes, List.mem_cons, List.not_mem_nil, or_false] at h
      rcases h with rfl | rfl <;> exact ⟨_, rfl⟩
  · intro r hr
    rcases mixDoc_sub hr with rfl | h
    · refine ⟨fun _ => ⟨by simp [mixDoc, Node.dists], .inl ⟨by simp [mixDoc, Node.dists], ?_⟩⟩, by simp [mixDoc, Node.dists]⟩
      simp [mixDoc, Node.dists]
      norm_num
    · simp only [mixDoc, Node.nodes, List.mem_cons, List.not_mem_nil, or_false] at h
      rcases h with rfl | rfl <;>
        exact ⟨fun _ => ⟨by decide, .inl ⟨by simp [Node.dists], by simp [Node.dists]⟩⟩, by simp [Node.dists]⟩
  · unfold ProperStrategy
    cases s with
    | none | other _ | nullPrediction | lastPrediction => trivial
    | defaultChild => rfl
    | weightedConfidence =>
      refine ⟨by simp [mixDoc], ?_⟩
      intro r hr
      rcases mixDoc_sub hr with rfl | h
      · exact ⟨by simp [mixDoc, Node.recordCount], by simp [mixDoc, Node.nodes, Node.id]⟩
      · simp only [mixDoc, Node.nodes, List.mem_cons, List.not_mem_nil, or_false] at h
        rcases h with rfl | rfl <;> simp [Node.recordCount, Node.nodes]
    | aggregateNodes =>
      intro r hr
      rcases mixDoc_sub hr with rfl | h
      · simp [mixDoc, Node.dists]; norm_num
      · simp only [mixDoc, Node.nodes, List.mem_cons, List.not_mem_nil, or_false] at h
        rcases h with rfl | rfl <;> simp [Node.dists]

/-! ## C25 in exact arithmetic -/

/-- Equal, or the same scores with distinct labels in another order. -/
def SameDist (d d' : List (ScoreDist ℝ)) : Prop :=
  d = d' ∨ (d.Perm d' ∧ (d.map (·.value)).Nodup)

def SameAns (a a' : Ans ℝ) : Prop := a.2 = a'.2 ∧ SameDist a.1 a'.1

theorem SameDist.perm {d d' : List (ScoreDist ℝ)} (h : SameDist d d') : d.Perm d' := by
  rcases h with rfl | h
  · exact .refl _
  · exact h.1

theorem sum_perm {l l' : List ℝ} (h : l.Perm l') : Spec.sum l = Spec.sum l' := by
  rw [sum_eq, sum_eq, h.sum_eq]

/-- Distributions with the same distinct labels and the same scores per label. -/
theorem perm_of_labels {d d' : List (ScoreDist ℝ)} (hn : (d.map (·.value)).Nodup)
    (hn' : (d'.map (·.value)).Nodup) (hl : ∀ L, L ∈ d.map (·.value) ↔ L ∈ d'.map (·.value))
    (he : ∀ s ∈ d, ∀ s' ∈ d', s.value = s'.value → s = s') : d.Perm d' := by
  refine (List.perm_ext_iff_of_nodup hn.of_map hn'.of_map).mpr ?_
  intro s
  constructor
  · intro hs
    obtain ⟨s', hs', hv⟩ := List.mem_map.mp ((hl s.value).mp (List.mem_map.mpr ⟨s, hs, rfl⟩))
    rw [he s hs s' hs' hv.symm]; exact hs'
  · intro hs
    obtain ⟨s', hs', hv⟩ := List.mem_map.mp ((hl s.value).mpr (List.mem_map.mpr ⟨s, hs, rfl⟩))
    rw [← he s' hs' s hs hv]; exact hs'

theorem isMixture_perm {ws ws' : List (ℝ × ScoreDist ℝ)} {d d' : List (ScoreDist ℝ)} (hw : ws.Perm ws')
    (h : IsMixture ws d) (h' : IsMixture ws' d') : d.Perm d' := by
  refine perm_of_labels h.1 h'.1 (fun L => ?_) ?_
  · rw [h.2.1, h'.2.1, (hw.map _).mem_iff]
  · intro s hs s' hs' hv
    obtain ⟨a1, a2, a3⟩ := h.2.2 s hs _ rfl
    obtain ⟨b1, b2, b3⟩ := h'.2.2 s' hs' _ rfl
    have hf : (ws.filter (fun w => decide (w.2.value = s.value))).Perm
        (ws'.filter (fun w => decide (w.2.value = s'.value))) := by rw [hv]; exact hw.filter _
    cases s; cases s'
    simp only at *
    rw [ScoreDist.mk.injEq]
    exact ⟨hv, by rw [a3, b3]; exact sum_perm (hf.map _), by rw [a2, b2]; exact sum_perm (hf.map _),
      by rw [a1, b1]; exact sum_perm (hf.map _)⟩

theorem aggregateMix_perm {ws ws' d d' : List (ScoreDist ℝ)} (hw : ws.Perm ws')
    (h : AggregateMix ws d) (h' : AggregateMix ws' d') : d.Perm d' := by
  refine perm_of_labels h.1 h'.1 (fun L => ?_) ?_
  · rw [h.2.1, h'.2.1, (hw.map _).mem_iff]
  · intro s hs s' hs' hv
    obtain ⟨a1, a2, a3⟩ := h.2.2 s hs
    obtain ⟨b1, b2, b3⟩ := h'.2.2 s' hs'
    have hf : (ws.filter (fun w => decide (w.value = s.value))).Perm
        (ws'.filter (fun w => decide (w.value = s'.value))) := by rw [hv]; exact hw.filter _
    have hrc : s.recordCount = s'.recordCount := by rw [a1, b1]; exact sum_perm (hf.map _)
    have ht : Spec.sum (ws.map (·.recordCount)) = Spec.sum (ws'.map (·.recordCount)) := sum_perm (hw.map _)
    cases s; cases s'
    simp only at *
    rw [ScoreDist.mk.injEq]
    exact ⟨hv, by rw [a3, b3, hrc, ht], by rw [a2, b2, hrc, ht], hrc⟩

theorem sameAns_lastTrue {as as' : List (Ans ℝ)} (h : List.Forall₂ SameAns as as') :
    SameDist (lastTrue as) (lastTrue as') := by
  have hf : List.Forall₂ SameAns (as.filter (fun a => decide (a.2 = .t))) (as'.filter (fun a => decide (a.2 = .t))) := by
    induction h with
    | nil => exact .nil
    | cons hr _ ih =>
      simp only [List.filter_cons, hr.1]
      split_ifs
      · exact .cons hr ih
      · exact ih
  unfold lastTrue
  have hl : ∀ {l l' : List (Ans ℝ)}, List.Forall₂ SameAns l l' →
      (l.getLast? = none ∧ l'.getLast? = none) ∨
        ∃ a a', l.getLast? = some a ∧ l'.getLast? = some a' ∧ SameAns a a' := by
    intro l l' h
    induction h with
    | nil => simp
    | @cons a a' l l' hr ht ih =>
      right
      rcases ih with ⟨h1, h2⟩ | ⟨b, b', h1, h2, h3⟩
      · rw [List.getLast?_eq_none_iff] at h1 h2
        exact ⟨a, a', by simp [h1], by simp [h2], hr⟩
      · exact ⟨b, b', by simp [List.getLast?_cons, h1], by simp [List.getLast?_cons, h2], h3⟩
  rcases hl hf with ⟨h1, h2⟩ | ⟨b, b', h1, h2, h3⟩
  · rw [h1, h2]; exact .inl rfl
  · rw [h1, h2]; exact h3.2

theorem sameDist_nil {d d' : List (ScoreDist ℝ)} (h : SameDist d d') : d = [] ↔ d' = [] := by
  have := h.perm.length_eq
  rw [← List.length_eq_zero_iff, ← List.length_eq_zero_iff, this]

theorem sameAns_unknown {as as' : List (Ans ℝ)} (h : List.Forall₂ SameAns as as') :
    (∃ a ∈ as, a.2 = .u) ↔ ∃ a ∈ as', a.2 = .u := by
  induction h with
  | nil => simp
  | cons hr _ ih => simp only [List.exists_mem_cons_iff, hr.1, ih]

theorem sameAns_all {R : Node ℝ → Ans ℝ → Prop} {ns : List (Node ℝ)} {as as' : List (Ans ℝ)}
    (ih : ∀ c ∈ ns, ∀ a a', R c a → R c a' → SameAns a a')
    (h : List.Forall₂ R ns as) (h' : List.Forall₂ R ns as') : List.Forall₂ SameAns as as' := by
  induction ns generalizing as as' with
  | nil => cases h; cases h'; exact .nil
  | cons c ns ihn =>
    cases h with
    | cons hr ht =>
    cases h' with
    | cons hr' ht' =>
    exact .cons (ih c (by simp) _ _ hr hr') (ihn (fun c hc => ih c (by simp [hc])) ht ht')

theorem flatMap_perm_of_forall₂ {as as' : List (Ans ℝ)} (h : List.Forall₂ SameAns as as') :
    (as.flatMap (·.1)).Perm (as'.flatMap (·.1)) := by
  induction h with
  | nil => exact .refl _
  | cons hr _ ih => rw [List.flatMap_cons, List.flatMap_cons]; exact hr.2.perm.append ih

/-- Live children with the same answers. -/
theorem live_same {ns : List (Node ℝ)} {as as' : List (Ans ℝ)} (h : List.Forall₂ SameAns as as') :
    List.Forall₂ (fun p q => p.1 = q.1 ∧ SameAns p.2 q.2) (live ns as) (live ns as') := by
  unfold live
  induction h generalizing ns with
  | nil => simp
  | @cons a a' as as' hr ht ih =>
    cases ns with
    | nil => simp
    | cons n ns =>
      simp only [List.zip_cons_cons, List.filter_cons, hr.1]
      split_ifs
      · exact .cons ⟨rfl, hr⟩ ih
      · exact ih

theorem contributions_perm {l l' : List (Node ℝ × Ans ℝ)}
    (h : List.Forall₂ (fun p q => p.1 = q.1 ∧ SameAns p.2 q.2) l l') (i : String) :
    (contributions l i).Perm (contributions l' i) := by
  have hrc : l.map (fun q => q.1.recordCount) = l'.map (fun q => q.1.recordCount) := by
    induction h with
    | nil => rfl
    | cons hr _ ih => simp [hr.1, ih]
  have hf : List.Forall₂ (fun p q => p.1 = q.1 ∧ SameAns p.2 q.2)
      (l.filter (fun p => decide (p.1.id = i))) (l'.filter (fun p => decide (p.1.id = i))) := by
    induction h with
    | nil => exact .nil
    | cons hr _ ih =>
      simp only [List.filter_cons, hr.1]
      split_ifs
      · exact .cons hr (ih (by simp_all))
      · exact ih (by simp_all)
  have hl : ∀ {l l' : List (Node ℝ × Ans ℝ)}, List.Forall₂ (fun p q => p.1 = q.1 ∧ SameAns p.2 q.2) l l' →
      (l.getLast? = none ∧ l'.getLast? = none) ∨
        ∃ a a', l.getLast? = some a ∧ l'.getLast? = some a' ∧ a.1 = a'.1 ∧ SameAns a.2 a'.2 := by
    intro l l' h
    induction h with
    | nil => simp
    | @cons a a' l l' hr ht ih =>
      right
      rcases ih with ⟨h1, h2⟩ | ⟨b, b', h1, h2, h3⟩
      · rw [List.getLast?_eq_none_iff] at h1 h2
        exact ⟨a, a', by simp [h1], by simp [h2], hr⟩
      · exact ⟨b, b', by simp [List.getLast?_cons, h1], by simp [List.getLast?_cons, h2], h3⟩
  unfold contributions withId
  rw [hrc]
  rcases hl hf with ⟨h1, h2⟩ | ⟨b, b', h1, h2, h3, h4⟩
  · rw [h1, h2]
  · rw [h1, h2]
    simp only [h3]
    exact h4.2.perm.map _

theorem weighted_same {T : Node ℝ → PredRes} {own : Node ℝ → List (ScoreDist ℝ)} {n : Node ℝ}
    {a a' : Ans ℝ} (h : WeightedAns T own n a) (h' : WeightedAns T own n a') : SameAns a a' := by
  induction n using Node.ind generalizing a a' with
  | h n ih =>
    have ih' : ∀ c ∈ n.nodes, ∀ b b', WeightedAns T own c b → WeightedAns T own c b' → SameAns b b' :=
      fun c hc b b' hb hb' => ih c hc hb hb'
    have habs : ∀ {as as' : List (Ans ℝ)}, List.Forall₂ (WeightedAns T own) n.nodes as →
        List.Forall₂ (WeightedAns T own) n.nodes as' → List.Forall₂ SameAns as as' :=
      fun h h' => sameAns_all ih' h h'
    cases h with
    | rejected hf =>
      cases h' with
      | rejected _ => exact ⟨rfl, .inl rfl⟩
      | mixed h1 | child h1 | itself h1 => exact absurd hf h1
    | @mixed _ as _ hf hall hu hmix =>
      cases h' with
      | rejected h1 => exact absurd h1 hf
      | @mixed _ as' _ hf' hall' hu' hmix' =>
        refine ⟨rfl, .inr ⟨?_, by obtain ⟨_, _, _, h, _⟩ := hmix; exact h⟩⟩
        have hlive := live_same (ns := n.nodes) (habs hall hall')
        obtain ⟨ord, hn, hm, hmix⟩ := hmix
        obtain ⟨ord', hn', hm', hmix'⟩ := hmix'
        have hid : (live n.nodes as).map (fun p => p.1.id) = (live n.nodes as').map (fun p => p.1.id) := by
          have : ∀ {l l' : List (Node ℝ × Ans ℝ)},
              List.Forall₂ (fun p q => p.1 = q.1 ∧ SameAns p.2 q.2) l l' →
              l.map (fun p => p.1.id) = l'.map (fun p => p.1.id) := by
            intro l l' h
            induction h with
            | nil => rfl
            | cons hr _ ih => simp [hr.1, ih]
          exact this hlive
        have hord : ord.Perm ord' := (List.perm_ext_iff_of_nodup hn hn').mpr (fun i => by
          rw [hm, hm', hid])
        refine isMixture_perm ?_ hmix hmix'
        refine (hord.flatMap_right _).trans ?_
        exact List.Perm.flatMap_left _ (fun i _ => contributions_perm hlive i)
      | child _ hall' hu' _ | itself _ hall' hu' _ =>
        obtain ⟨b, hb, hbu⟩ := (sameAns_unknown (habs hall hall')).mp hu
        exact absurd hbu (hu' b hb)
    | child hf hall hu hl =>
      cases h' with
      | rejected h1 => exact absurd h1 hf
      | mixed _ hall' hu' _ =>
        obtain ⟨b, hb, hbu⟩ := (sameAns_unknown (habs hall hall')).mpr hu'
        exact absurd hbu (hu b hb)
      | child _ hall' _ _ => exact ⟨rfl, sameAns_lastTrue (habs hall hall')⟩
      | itself _ hall' _ hl' => exact absurd ((sameDist_nil (sameAns_lastTrue (habs hall hall'))).mpr hl') hl
    | itself hf hall hu hl =>
      cases h' with
      | rejected h1 => exact absurd h1 hf
      | mixed _ hall' hu' _ =>
        obtain ⟨b, hb, hbu⟩ := (sameAns_unknown (habs hall hall')).mpr hu'
        exact absurd hbu (hu b hb)
      | child _ hall' _ hl' => exact absurd ((sameDist_nil (sameAns_lastTrue (habs hall hall'))).mp hl) hl'
      | itself _ _ _ _ => exact ⟨rfl, .inl rfl⟩

theorem aggregate_same {T : Node ℝ → PredRes} {own : Node ℝ → List (ScoreDist ℝ)} {n : Node ℝ}
    {a a' : Ans ℝ} (h : AggregateAns T own n a) (h' : AggregateAns T own n a') : SameAns a a' := by
  induction n using Node.ind generalizing a a' with
  | h n ih =>
    have ih' : ∀ c ∈ n.nodes, ∀ b b', AggregateAns T own c b → AggregateAns T own c b' → SameAns b b' :=
      fun c hc b b' hb hb' => ih c hc hb hb'
    have habs : ∀ {as as' : List (Ans ℝ)}, List.Forall₂ (AggregateAns T own) n.nodes as →
        List.Forall₂ (AggregateAns T own) n.nodes as' → List.Forall₂ SameAns as as' :=
      fun h h' => sameAns_all ih' h h'
    cases h with
    | rejected hf =>
      cases h' with
      | rejected _ => exact ⟨rfl, .inl rfl⟩
      | mixed h1 | child h1 | itself h1 => exact absurd hf h1
    | mixed hf hall hu hmix =>
      cases h' with
      | rejected h1 => exact absurd h1 hf
      | mixed hf' hall' hu' hmix' =>
        exact ⟨rfl, .inr ⟨aggregateMix_perm (flatMap_perm_of_forall₂ (habs hall hall')) hmix hmix', hmix.1⟩⟩
      | child _ hall' hu' _ | itself _ hall' hu' _ =>
        obtain ⟨b, hb, hbu⟩ := (sameAns_unknown (habs hall hall')).mp hu
        exact absurd hbu (hu' b hb)
    | child hf hall hu hl =>
      cases h' with
      | rejected h1 => exact absurd h1 hf
      | mixed _ hall' hu' _ =>
        obtain ⟨b, hb, hbu⟩ := (sameAns_unknown (habs hall hall')).mpr hu'
        exact absurd hbu (hu b hb)
      | child _ hall' _ _ => exact ⟨rfl, sameAns_lastTrue (habs hall hall')⟩
      | itself _ hall' _ hl' => exact absurd ((sameDist_nil (sameAns_lastTrue (habs hall hall'))).mpr hl') hl
    | itself hf hall hu hl =>
      cases h' with
      | rejected h1 => exact absurd h1 hf
      | mixed _ hall' hu' _ =>
        obtain ⟨b, hb, hbu⟩ := (sameAns_unknown (habs hall hall')).mpr hu'
        exact absurd hbu (hu b hb)
      | child _ hall' _ hl' => exact absurd ((sameDist_nil (sameAns_lastTrue (habs hall hall'))).mp hl) hl'
      | itself _ _ _ _ => exact ⟨rfl, .inl rfl⟩

theorem classRow_label {d : List (ScoreDist ℝ)} (hn : (d.map (·.value)).Nodup) {s : ScoreDist ℝ} (hs : s ∈ d)
    (target label : String) :
    (classRow target label d)["probability(" ++ s.value ++ ")"]? = some (.f64 s.probability) := by
  rw [classRow_prob]
  cases hl : (d.filter (fun t => decide (t.value = s.value))).getLast? with
  | none =>
    rw [List.getLast?_eq_none_iff, List.filter_eq_nil_iff] at hl
    exact absurd (hl s hs) (by simp)
  | some t =>
    have := List.mem_of_getLast? hl
    simp only [List.mem_filter, decide_eq_true_eq] at this
    rw [List.inj_on_of_nodup_map hn this.1 hs this.2]

/-- Two labels tie for the greatest probability of a row. -/
def Tie (r : GoMap (GoVal ℝ)) : Prop :=
  ∃ L L' x, L ≠ L' ∧ r["probability(" ++ L ++ ")"]? = some (.f64 x) ∧
    r["probability(" ++ L' ++ ")"]? = some (.f64 x) ∧
    ∀ K y, r["probability(" ++ K ++ ")"]? = some (.f64 y) → y ≤ x

/-- Rows of the same distribution agree but for the label, which differs only on a tie. -/
theorem classRow_same {d d' : List (ScoreDist ℝ)} (h : SameDist d d') (target : String)
    {r r' : GoMap (GoVal ℝ)} (hr : r = classRow target (pickBest d).value d)
    (hr' : r' = classRow target (pickBest d').value d') :
    (∀ k, k ≠ target → r[k]? = r'[k]?) ∧ (r = r' ∨ Tie r) := by
  rcases h with rfl | ⟨hperm, hn⟩
  · subst hr hr'; exact ⟨fun k _ => rfl, .inl rfl⟩
  have hn' : (d'.map (·.value)).Nodup := ((hperm.map _).nodup_iff).mp hn
  have hkey : ∀ k, ((∃ s ∈ d, k = "probability(" ++ s.value ++ ")") ∨ k ≠ target ∨
      (pickBest d).value = (pickBest d').value) → r[k]? = r'[k]? := by
    intro k hk
    subst hr hr'
    by_cases hex : ∃ s ∈ d, k = "probability(" ++ s.value ++ ")"
    · obtain ⟨s, hs, rfl⟩ := hex
      rw [classRow_label hn hs, classRow_label hn' (hperm.mem_iff.mp hs)]
    · have hk := hk.resolve_left hex
      push Not at hex
      rw [classRow_other target _ k d hex,
        classRow_other target _ k d' (fun s hs => hex s (hperm.mem_iff.mpr hs))]
      rcases hk with hk | hk
      · rw [if_neg (Ne.symm hk), if_neg (Ne.symm hk)]
      · rw [hk]
  refine ⟨fun k hk => hkey k (.inr (.inl hk)), ?_⟩
  have hbest : ∀ {e : List (ScoreDist ℝ)} {b : ScoreDist ℝ}, IsBest e b →
      b ∈ e ∧ 0 < b.probability ∧ ∀ u ∈ e, u.probability ≤ b.probability := by
    rintro e b ⟨pre, post, rfl, hpos, hpre, hpost⟩
    rw [zero_eq, lt_iff] at hpos
    refine ⟨by simp, hpos, ?_⟩
    intro u hu
    rcases List.mem_append.mp hu with hu | hu
    · rcases hpre u hu with h | h
      · rw [lt_iff] at h; exact h.le
      · rw [zero_eq, lt_false] at h; exact h.trans hpos.le
    · rcases List.mem_cons.mp hu with rfl | hu
      · exact le_refl _
      · have := hpost u hu; rw [lt_false] at this; exact this
  by_cases he : (pickBest d).value = (pickBest d').value
  · left; exact Std.ExtTreeMap.ext_getElem? fun k => hkey k (.inr (.inr he))
  right
  rcases pickBest_spec ltLaws d with ⟨h1, h2⟩ | h1 <;> rcases pickBest_spec ltLaws d' with ⟨h1', h2'⟩ | h1'
  · exact absurd (h1.trans h1'.symm) he
  · obtain ⟨a, b, -⟩ := hbest h1'
    have := h2 _ (hperm.mem_iff.mpr a)
    rw [zero_eq, lt_false] at this
    exact absurd b (not_lt.mpr this)
  · obtain ⟨a, b, -⟩ := hbest h1
    have := h2' _ (hperm.mem_iff.mp a)
    rw [zero_eq, lt_false] at this
    exact absurd b (not_lt.mpr this)
  · obtain ⟨a, b, c⟩ := hbest h1
    obtain ⟨a', b', c'⟩ := hbest h1'
    have hx : (pickBest d').probability = (pickBest d).probability :=
      le_antisymm (c _ (hperm.mem_iff.mpr a')) (c' _ (hperm.mem_iff.mp a))
    refine ⟨_, _, (pickBest d).probability, he, ?_, ?_, ?_⟩
    · rw [hr, classRow_label hn a]
    · rw [hr, classRow_label hn (hperm.mem_iff.mpr a'), hx]
    · intro K y hy
      rw [hr, classRow_prob] at hy
      cases hl : (d.filter (fun t => decide (t.value = K))).getLast? with
      | none => rw [hl] at hy; simp only at hy; split_ifs at hy; simp at hy
      | some t =>
        rw [hl] at hy
        have := List.mem_of_getLast? hl
        simp only [List.mem_filter] at this
        simp only [Option.some.injEq, GoVal.f64.injEq] at hy
        rw [← hy]
        exact c t this.1

/-- **C25** in exact arithmetic, for trees of any strategy: for any two map orders,
`Evaluate` leaves the same row; for classification it returns either nothing for both, or
rows that agree on every key but the target's, in particular on all probabilities, and
on the target too unless two different labels tie for the greatest probability. -/
theorem C25_exact [Lib ℝ] {td td' : TD ℝ} {m : TreeModel ℝ} {row row' : Row ℝ}
    (h : newTreeModel dd td d = (.ok m, td')) (hp : AllPreds d.node)
    (hi : handleInput d.localTransformations row = (.ok (), row'))
    (hc : d.functionName = .classification) (o o' : MapOrd) :
    (m.evaluate o row).row = (m.evaluate o' row).row ∧
    ((m.evaluate o row).res = .ok none ∧ (m.evaluate o' row).res = .ok none ∨
     ∃ r r', (m.evaluate o row).res = .ok (some r) ∧ (m.evaluate o' row).res = .ok (some r') ∧
      (∀ k, k ≠ targetOf d.miningFields → r[k]? = r'[k]?) ∧ (r = r' ∨ Tie r)) := by
  refine ⟨?_, ?_⟩
  · obtain ⟨-, -, hv, hcm, hk, -, -, -, -⟩ := newTreeModel_ok h
    rw [(evaluate_eq hv hcm (by rw [hk]; exact keysOk_empty) o row).1,
      (evaluate_eq hv hcm (by rw [hk]; exact keysOk_empty) o' row).1]
  have hrep : ∀ a : Ans ℝ, report d.functionName (targetOf d.miningFields) a = if a.2 ≠ .t then .ok none
      else .ok (some (classRow (targetOf d.miningFields) (pickBest a.1).value a.1)) := by
    intro a; unfold report; rw [hc]
  obtain ⟨a, ha, he⟩ := evaluate_answer h hp hi o
  obtain ⟨a', ha', he'⟩ := evaluate_answer h hp hi o'
  rw [hrep] at he he'
  by_cases hs : d.missingValueStrategy = .weightedConfidence ∨ d.missingValueStrategy = .aggregateNodes
  · have hsame : SameAns a a' := by
      rcases hs with hs | hs <;> simp only [NodeAns, hs] at ha ha'
      · exact weighted_same ha ha'
      · exact aggregate_same ha ha'
    rw [← hsame.1] at he'
    by_cases hat : a.2 = .t
    · rw [if_neg (by simp [hat])] at he he'
      obtain ⟨h1, h2⟩ := classRow_same hsame.2 (targetOf d.miningFields) rfl rfl
      exact .inr ⟨_, _, he, he', h1, h2⟩
    · rw [if_pos hat] at he he'
      exact .inl ⟨he, he'⟩
  · push Not at hs
    have hm := (newTreeModel_ok h).2.2.2.2.2.1
    rw [tree_order (m := m) (by rw [hm]; exact hs.1) (by rw [hm]; exact hs.2) o o' row] at he ⊢
    by_cases hat : a.2 = .t
    · rw [if_neg (by simp [hat])] at he
      exact .inr ⟨_, _, he, he, fun _ _ => rfl, .inl rfl⟩
    · rw [if_pos hat] at he
      exact .inl ⟨he, he⟩

-- C25: `mixDoc`, shown above to be accepted, is an instance.
example [Lib ℝ] : (mixDoc .weightedConfidence).functionName = .classification ∧
    handleInput (F := ℝ) (mixDoc .weightedConfidence).localTransformations (some ∅) = (.ok (), some ∅) :=
  ⟨rfl, rfl⟩

end Gopmml.Props
