import Verif.Props.Strategies
import Verif.Proofs.Mix
import Verif.Spec.Answer

/-!
# Answers under every strategy, and what they preserve
-/

namespace Gopmml
open Spec Props

theorem forall₂_mem_right {α β : Type} {R : α → β → Prop} {l : List α} {l' : List β}
    (h : List.Forall₂ R l l') {b : β} (hb : b ∈ l') : ∃ a ∈ l, R a b := by
  induction h with
  | nil => simp at hb
  | cons hr _ ih =>
    rcases List.mem_cons.mp hb with rfl | hb
    · exact ⟨_, by simp, hr⟩
    · obtain ⟨a, ha, hab⟩ := ih hb
      exact ⟨a, by simp [ha], hab⟩

theorem forall₂_append_left {α β : Type} {R : α → β → Prop} {l l' : List α} {bs : List β}
    (h : List.Forall₂ R (l ++ l') bs) :
    ∃ bs1 bs2, List.Forall₂ R l bs1 ∧ List.Forall₂ R l' bs2 ∧ bs = bs1 ++ bs2 := by
  induction l generalizing bs with
  | nil => exact ⟨[], bs, .nil, h, rfl⟩
  | cons a l ih =>
    cases h with
    | cons hr ht =>
      obtain ⟨bs1, bs2, h1, h2, rfl⟩ := ih ht
      exact ⟨_ :: bs1, bs2, .cons hr h1, h2, rfl⟩

variable {F : Type} [Arith F] [Lib F] {dd : List DataField} {td td' : TD F} {d : TreeDoc F}
  {m : TreeModel F} {row row' : Row F}

theorem nodeAns_of_eval {n : Node F} {cn : CNode F} (h : newNode (treeTypes dd td d) n = .ok cn)
    (hp : AllPreds n) (o : MapOrd) (row : Row F) :
    ∃ a, evalNode (docCtx dd td d) o row cn = .ok a ∧
      NodeAns dd d (nodeTest (treeTypes dd td d) row) n a := by
  have hnone : ∃ a, evalNone (docCtx dd td d) row cn = .ok a ∧
      ((nodeTest (treeTypes dd td d) row n ≠ .t ∧ a = ([], .f)) ∨
        (nodeTest (treeTypes dd td d) row n = .t ∧
          ∃ r, FirstTrue (nodeTest (treeTypes dd td d) row) n r ∧ a = (ownDist dd d r, .t))) := by
    have := evalNone_spec row n h hp
    by_cases hT : nodeTest (treeTypes dd td d) row n = .t
    · obtain ⟨r, hr, he⟩ := this.2 hT
      exact ⟨_, he, .inr ⟨hT, r, hr, rfl⟩⟩
    · exact ⟨_, this.1 hT, .inl ⟨hT, rfl⟩⟩
  unfold evalNode NodeAns
  have hc : (docCtx dd td d).strategy = d.missingValueStrategy := rfl
  rw [hc]
  cases d.missingValueStrategy with
  | aggregateNodes => exact evalAggregate_spec row o n h hp
  | weightedConfidence => exact evalWeighted_spec row o n h hp
  | defaultChild => exact ⟨_, evalDefault_spec row n h hp, rfl⟩
  | lastPrediction => exact ⟨_, evalLast_spec row n h hp, rfl⟩
  | none => exact hnone
  | other s => exact hnone
  | nullPrediction =>
    have := evalNull_spec row n h hp
    by_cases hT : nodeTest (treeTypes dd td d) row n = .f
    · exact ⟨_, this.1 hT, .inl ⟨hT, rfl⟩⟩
    · rcases this.2 hT with ⟨hu, he⟩ | ⟨hall, r, hr, he⟩
      · exact ⟨_, he, .inr (.inl ⟨hT, hu, rfl⟩)⟩
      · exact ⟨_, he, .inr (.inr ⟨hT, hall, r, hr, rfl⟩)⟩

/-- Evaluate reports some answer of the root. -/
theorem evaluate_answer (h : newTreeModel dd td d = (.ok m, td')) (hp : AllPreds d.node)
    (hi : handleInput d.localTransformations row = (.ok (), row')) (o : MapOrd) :
    ∃ a, NodeAns dd d (nodeTest (treeTypes dd td d) row') d.node a ∧
      (m.evaluate o row).res = report d.functionName (targetOf d.miningFields) a := by
  have hn := (newTreeModel_ok h).2.2.2.2.2.2.2.2
  obtain ⟨a, ha, hw⟩ := nodeAns_of_eval hn hp o row'
  have he := constructed_evaluate h hi o
  rw [ha] at he
  exact ⟨a, hw, he⟩

omit [Arith F] [Lib F] in
theorem firstTrue_sub {T : Node F → PredRes} {n r : Node F} (h : FirstTrue T n r) : Sub r n := by
  induction h with
  | stop _ => exact .refl
  | step hn _ _ _ ih => exact .child (by simp [hn]) ih

omit [Lib F] in
/-- A property of single scores that every strategy preserves holds of every score of every
answer. -/
theorem nodeAns_forall {T : Node F → PredRes} {Q : ScoreDist F → Prop} {n : Node F} {a : Ans F}
    (hown : ∀ r, Sub r n → ∀ s ∈ ownDist dd d r, Q s)
    (hdecl : d.missingValueStrategy = .weightedConfidence → ∀ r, Sub r n → ∀ s ∈ declaredDist r.dists, Q s)
    (hpen : d.missingValueStrategy = .defaultChild → ∀ s : ScoreDist F, Q s →
      Q ⟨s.value, Arith.mul s.confidence d.missingValuePenalty,
        Arith.mul s.probability d.missingValuePenalty, s.recordCount⟩)
    (hw : d.missingValueStrategy = .weightedConfidence → ∀ (l : List (Node F × Ans F)) dist,
      (∀ p ∈ l, ∀ s ∈ p.2.1, Q s) → WeightedMix l dist → ∀ s ∈ dist, Q s)
    (hagg : d.missingValueStrategy = .aggregateNodes → ∀ scores dist : List (ScoreDist F),
      (∀ s ∈ scores, Q s) → AggregateMix scores dist → ∀ s ∈ dist, Q s)
    (h : NodeAns dd d T n a) : ∀ s ∈ a.1, Q s := by
  unfold NodeAns at h
  have hnone : ∀ b : Prop, ((T n ≠ .t ∧ a = ([], .f)) ∨
      (b ∧ ∃ r, FirstTrue T n r ∧ a = (ownDist dd d r, .t))) → ∀ s ∈ a.1, Q s := by
    rintro b (⟨-, rfl⟩ | ⟨-, r, hr, rfl⟩)
    · simp
    · exact hown r (firstTrue_sub hr)
  cases hs : d.missingValueStrategy with
  | none => rw [hs] at h; exact hnone _ h
  | other s => rw [hs] at h; exact hnone _ h
  | nullPrediction =>
    rw [hs] at h
    rcases h with ⟨-, rfl⟩ | ⟨-, -, rfl⟩ | ⟨-, -, r, hr, rfl⟩
    · simp
    · simp
    · exact hown r (firstTrue_sub hr)
  | lastPrediction =>
    rw [hs] at h
    subst h
    clear hdecl hpen hw hagg hnone hs
    induction n using Node.ind with
    | h n ih =>
      rw [lastAns_eq]
      split_ifs with h1 h2
      · simp
      · obtain ⟨b, hb, -, he⟩ := lastTrue_mem h2.2
        simp only [List.mem_map] at hb
        obtain ⟨c, hc, rfl⟩ := hb
        simp only [he]
        exact ih c hc (fun r hr => hown r (.child hc hr))
      · exact hown n .refl
  | defaultChild =>
    rw [hs] at h
    have hpen := hpen hs
    subst h
    clear hdecl hw hagg hnone hs
    induction n using Node.ind with
    | h n ih =>
      rw [defaultAns_eq, answerOf_map]
      split_ifs with h1 h2 h3
      · simp
      · cases hl : (n.nodes.filter (fun e => decide (e.id = n.defaultChild))).getLast? with
        | none => simp
        | some c =>
          have := List.mem_of_getLast? hl
          simp only [List.mem_filter] at this
          simp only [Option.map_some, List.mem_map]
          rintro s ⟨t, ht, rfl⟩
          exact hpen t (ih c this.1 (fun r hr => hown r (.child this.1 hr)) t ht)
      · obtain ⟨b, hb, -, he⟩ := lastTrue_mem h3
        simp only [List.mem_map] at hb
        obtain ⟨c, hc, rfl⟩ := hb
        simp only [he]
        exact ih c hc (fun r hr => hown r (.child hc hr))
      · exact hown n .refl
  | weightedConfidence =>
    rw [hs] at h
    replace hw := hw hs
    replace hdecl := hdecl hs
    clear hagg hnone hs hpen
    induction n using Node.ind generalizing a with
    | h n ih =>
      have ih' : ∀ c ∈ n.nodes, ∀ b, WeightedAns T (ownDist dd d) c b → ∀ s ∈ b.1, Q s :=
        fun c hc b hb => ih c hc (fun r hr => hown r (.child hc hr)) hb (fun r hr => hdecl r (.child hc hr))
      cases h with
      | rejected _ => exact hdecl n .refl
      | @mixed _ as dist _ hall hu hmix =>
        refine hw _ dist ?_ hmix
        intro p hp
        unfold live at hp
        have hz := List.mem_filter.mp hp
        have h2 := (List.of_mem_zip (a := p.1) (b := p.2) hz.1).2
        obtain ⟨c, hc, hcb⟩ := forall₂_mem_right hall h2
        exact ih' c hc _ hcb
      | @child _ as _ hall _ hl =>
        obtain ⟨b, hb, -, he⟩ := lastTrue_mem hl
        obtain ⟨c, hc, hcb⟩ := forall₂_mem_right hall hb
        simp only [he]
        exact ih' c hc _ hcb
      | itself _ _ _ _ => exact hown n .refl
  | aggregateNodes =>
    rw [hs] at h
    replace hagg := hagg hs
    clear hw hnone hs hdecl hpen
    induction n using Node.ind generalizing a with
    | h n ih =>
      have ih' : ∀ c ∈ n.nodes, ∀ b, AggregateAns T (ownDist dd d) c b → ∀ s ∈ b.1, Q s :=
        fun c hc b hb => ih c hc (fun r hr => hown r (.child hc hr)) hb
      cases h with
      | rejected _ => exact hown n .refl
      | @mixed _ as dist _ hall hu hmix =>
        refine hagg _ dist ?_ hmix
        intro s hs
        obtain ⟨b, hb, hsb⟩ := List.mem_flatMap.mp hs
        obtain ⟨c, hc, hcb⟩ := forall₂_mem_right hall hb
        exact ih' c hc _ hcb s hsb
      | @child _ as _ hall _ hl =>
        obtain ⟨b, hb, -, he⟩ := lastTrue_mem hl
        obtain ⟨c, hc, hcb⟩ := forall₂_mem_right hall hb
        simp only [he]
        exact ih' c hc _ hcb
      | itself _ _ _ _ => exact hown n .refl

end Gopmml
