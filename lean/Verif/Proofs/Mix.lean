import Verif.Proofs.Strategies
import Verif.Proofs.Induct
import Verif.Spec.Mix

/-!
# weightedConfidence and aggregateNodes compute their specifications
-/

namespace Gopmml
open Spec

/-- A loop accumulating into the entry of each element's key. -/
theorem foldl_accum {α V : Type} (k : α → String) (f : V → α → V) (z : String → V) (l : List α)
    (m : GoMap V) (x : String) :
    (l.foldl (fun m a => m.insert (k a) (f ((m[k a]?).getD (z (k a))) a)) m)[x]? =
      if ∃ a ∈ l, k a = x then some ((l.filter (fun a => k a = x)).foldl f ((m[x]?).getD (z x)))
      else m[x]? := by
  induction l generalizing m with
  | nil => simp
  | cons a l ih =>
    rw [List.foldl_cons, ih, GoMap.getElem?_insert]
    by_cases h : k a = x
    · subst h
      by_cases hl : ∃ b ∈ l, k b = k a
      · simp [hl]
      · have : l.filter (fun b => decide (k b = k a)) = [] := by
          simpa [List.filter_eq_nil_iff] using hl
        simp [hl, this]
    · simp [h]

namespace MapOrd
variable {V : Type} (o : MapOrd) (m : GoMap V)

theorem range_perm : (o.range m).Perm m.toList := o.perm _ _

theorem mem_range {p : String × V} : p ∈ o.range m ↔ m[p.1]? = some p.2 := by
  rw [(o.range_perm m).mem_iff]
  exact Std.ExtTreeMap.mem_toList_iff_getElem?_eq_some

theorem nodup_range : ((o.range m).map (·.1)).Nodup := by
  rw [((o.range_perm m).map (·.1)).nodup_iff]
  have : m.toList.map (·.1) = m.keys := Std.ExtTreeMap.map_fst_toList_eq_keys
  rw [this]
  exact Std.ExtTreeMap.nodup_keys

theorem mem_range_keys {k : String} : k ∈ (o.range m).map (·.1) ↔ ∃ v, m[k]? = some v := by
  simp [mem_range]

end MapOrd

variable {F : Type} [Arith F] [Lib F]

omit [Lib F] in
/-- Add one weighted score to a label's entry. -/
def addWeighted (a : ScoreDist F) (w : F × ScoreDist F) : ScoreDist F :=
  ⟨a.value, Arith.add a.confidence (Arith.mul w.2.confidence w.1),
    Arith.add a.probability (Arith.mul w.2.probability w.1),
    Arith.add a.recordCount w.2.recordCount⟩

omit [Lib F] in
/-- Add one score's count to a label's entry. -/
def addCount (a s : ScoreDist F) : ScoreDist F :=
  ⟨a.value, a.confidence, a.probability, Arith.add a.recordCount s.recordCount⟩

omit [Lib F] in
theorem weighted_fold (ls : List (F × ScoreDist F)) (z : ScoreDist F) :
    ls.foldl addWeighted z =
      ⟨z.value, (ls.map (fun w => Arith.mul w.2.confidence w.1)).foldl Arith.add z.confidence,
        (ls.map (fun w => Arith.mul w.2.probability w.1)).foldl Arith.add z.probability,
        (ls.map (fun w => w.2.recordCount)).foldl Arith.add z.recordCount⟩ := by
  induction ls generalizing z with
  | nil => rfl
  | cons w ls ih => rw [List.foldl_cons, ih]; rfl

omit [Lib F] in
/-- The values of a map built by `weightedStep`, in any order, are the mixture. -/
theorem isMixture_of_fold (o : MapOrd) (ws : List (F × ScoreDist F)) :
    IsMixture ws ((o.range (ws.foldl (fun agg w => weightedStep w.1 agg w.2) ∅)).map (·.2)) := by
  have key : ∀ x, (ws.foldl (fun agg w => weightedStep w.1 agg w.2) (∅ : GoMap (ScoreDist F)))[x]? =
      if ∃ a ∈ ws, a.2.value = x then
        some ⟨x, sum ((ws.filter (fun w => w.2.value = x)).map (fun w => Arith.mul w.2.confidence w.1)),
          sum ((ws.filter (fun w => w.2.value = x)).map (fun w => Arith.mul w.2.probability w.1)),
          sum ((ws.filter (fun w => w.2.value = x)).map (fun w => w.2.recordCount))⟩
      else none := by
    intro x
    have := foldl_accum (fun w : F × ScoreDist F => w.2.value) addWeighted
      (fun v => ⟨v, Arith.zero, Arith.zero, Arith.zero⟩) ws ∅ x
    rw [weighted_fold] at this
    refine Eq.trans this ?_
    simp [sum]
  have hv : ∀ p ∈ o.range (ws.foldl (fun agg w => weightedStep w.1 agg w.2) (∅ : GoMap (ScoreDist F))),
      p.2.value = p.1 := by
    intro p hp
    rw [MapOrd.mem_range, key] at hp
    split_ifs at hp
    simp only [Option.some.injEq] at hp
    rw [← hp]
  have hmap : ((o.range (ws.foldl (fun agg w => weightedStep w.1 agg w.2) (∅ : GoMap (ScoreDist F)))).map
      (·.2)).map (·.value) =
      (o.range (ws.foldl (fun agg w => weightedStep w.1 agg w.2) (∅ : GoMap (ScoreDist F)))).map (·.1) := by
    rw [List.map_map]
    exact List.map_congr_left hv
  refine ⟨?_, ?_, ?_⟩
  · rw [hmap]; exact o.nodup_range _
  · intro L
    rw [hmap, MapOrd.mem_range_keys, key]
    simp
  · intro s hs ls hls
    obtain ⟨p, hp, rfl⟩ := List.mem_map.mp hs
    have h1 := hv p hp
    rw [MapOrd.mem_range, key] at hp
    split_ifs at hp
    simp only [Option.some.injEq] at hp
    subst hls
    rw [h1, ← hp]
    exact ⟨rfl, rfl, rfl⟩

theorem newNode_recordCount {types : FieldTypes} {n : Node F} {cn : CNode F}
    (h : newNode types n = .ok cn) : cn.score.recordCount = n.recordCount := by
  obtain ⟨id, dc, score, rc, dists, nodes, pred⟩ := n
  obtain ⟨cs, pred', hcs, -, rfl⟩ := newNode_ok h
  rfl

/-- The compiled live children are the document's. -/
theorem live_map {types : FieldTypes} {ns : List (Node F)} {cs : List (CNode F)}
    (h : List.Forall₂ (fun n cn => newNode types n = .ok cn) ns cs) (rs : List (NodeRes F)) :
    (liveChildren cs rs).map (fun p => (p.1.id, p.1.score.recordCount, p.2)) =
      (live ns rs).map (fun p => (p.1.id, p.1.recordCount, p.2)) := by
  unfold liveChildren live
  induction h generalizing rs with
  | nil => rfl
  | cons hn _ ih =>
    cases rs with
    | nil => rfl
    | cons r rs =>
      simp only [List.zip_cons_cons, List.filter_cons]
      split_ifs
      · rw [List.map_cons, List.map_cons, newNode_id hn, newNode_recordCount hn, ih]
      · exact ih rs

theorem liveScores_eq {types : FieldTypes} {ns : List (Node F)} {cs : List (CNode F)}
    (h : List.Forall₂ (fun n cn => newNode types n = .ok cn) ns cs) (rs : List (NodeRes F)) (i : String) :
    (liveScores (liveChildren cs rs))[i]? = (withId (live ns rs) i).map (·.2.1) := by
  unfold liveScores withId
  have e1 : (liveChildren cs rs).foldl (fun m p => m.insert p.1.id p.2.1) (∅ : GoMap (List (ScoreDist F))) =
      ((liveChildren cs rs).map (fun p => (p.1.id, p.1.score.recordCount, p.2))).foldl
        (fun m p => m.insert p.1 p.2.2.1) ∅ := by
    rw [List.foldl_map]
  rw [e1, live_map h, foldl_insert_getElem? (fun p : String × F × NodeRes F => p.1), filter_map_getLast?]
  cases ((live ns rs).filter (fun p => decide (p.1.id = i))).getLast? <;> simp

theorem liveCounts_eq {types : FieldTypes} {ns : List (Node F)} {cs : List (CNode F)}
    (h : List.Forall₂ (fun n cn => newNode types n = .ok cn) ns cs) (rs : List (NodeRes F)) (i : String) :
    (childRecordCounts (liveChildren cs rs))[i]? = (withId (live ns rs) i).map (·.1.recordCount) := by
  unfold childRecordCounts withId
  have e1 : (liveChildren cs rs).foldl (fun m p => m.insert p.1.id p.1.score.recordCount) (∅ : GoMap F) =
      ((liveChildren cs rs).map (fun p => (p.1.id, p.1.score.recordCount, p.2))).foldl
        (fun m p => m.insert p.1 p.2.1) ∅ := by
    rw [List.foldl_map]
  rw [e1, live_map h, foldl_insert_getElem? (fun p : String × F × NodeRes F => p.1), filter_map_getLast?]
  cases ((live ns rs).filter (fun p => decide (p.1.id = i))).getLast? <;> simp

theorem liveTotal_eq {types : FieldTypes} {ns : List (Node F)} {cs : List (CNode F)}
    (h : List.Forall₂ (fun n cn => newNode types n = .ok cn) ns cs) (rs : List (NodeRes F)) :
    totalRecordCount (liveChildren cs rs) = sum ((live ns rs).map (fun q => q.1.recordCount)) := by
  unfold totalRecordCount sum
  have e1 : (liveChildren cs rs).foldl (fun t p => Arith.add t p.1.score.recordCount) Arith.zero =
      ((liveChildren cs rs).map (fun p => (p.1.id, p.1.score.recordCount, p.2))).foldl
        (fun t p => Arith.add t p.2.1) Arith.zero := by
    rw [List.foldl_map]
  rw [e1, live_map h, List.foldl_map, List.foldl_map]

omit [Arith F] [Lib F] in
theorem withId_isSome {l : List (Node F × Ans F)} {i : String} :
    (∃ p, withId l i = some p) ↔ i ∈ l.map (fun p => p.1.id) := by
  unfold withId
  constructor
  · rintro ⟨p, hp⟩
    have := List.mem_of_getLast? hp
    simp only [List.mem_filter, decide_eq_true_eq] at this
    exact List.mem_map.mpr ⟨p, this.1, this.2⟩
  · intro h
    obtain ⟨p, hp, hi⟩ := List.mem_map.mp h
    cases hl : (l.filter (fun p => decide (p.1.id = i))).getLast? with
    | some q => exact ⟨q, rfl⟩
    | none =>
      rw [List.getLast?_eq_none_iff, List.filter_eq_nil_iff] at hl
      exact absurd hi (by simpa using hl p hp)

/-- The weighted aggregate is the document's weighted mixture. -/
theorem weightedMix_of_agg {types : FieldTypes} {ns : List (Node F)} {cs : List (CNode F)}
    (h : List.Forall₂ (fun n cn => newNode types n = .ok cn) ns cs) (rs : List (NodeRes F))
    (o o' : MapOrd) :
    WeightedMix (live ns rs) ((o'.range (weightedAgg o (liveChildren cs rs))).map (·.2)) := by
  refine ⟨(o.range (liveScores (liveChildren cs rs))).map (·.1), o.nodup_range _, ?_, ?_⟩
  · intro i
    rw [MapOrd.mem_range_keys, ← withId_isSome]
    rw [liveScores_eq h]
    cases withId (live ns rs) i <;> simp
  · have : weightedAgg o (liveChildren cs rs) =
        (((o.range (liveScores (liveChildren cs rs))).map (·.1)).flatMap
          (contributions (live ns rs))).foldl (fun agg w => weightedStep w.1 agg w.2) ∅ := by
      have e : ((o.range (liveScores (liveChildren cs rs))).map (·.1)).flatMap
          (contributions (live ns rs)) =
          (o.range (liveScores (liveChildren cs rs))).flatMap (fun p => p.2.map fun s =>
            (Arith.div (((childRecordCounts (liveChildren cs rs))[p.1]?).getD Arith.zero)
              (totalRecordCount (liveChildren cs rs)), s)) := by
        rw [List.flatMap_map]
        unfold List.flatMap
        congr 1
        apply List.map_congr_left
        intro p hp
        rw [MapOrd.mem_range, liveScores_eq h] at hp
        unfold contributions
        cases hw : withId (live ns rs) p.1 with
        | none => simp [hw] at hp
        | some q =>
          simp only [hw, Option.map_some, Option.some.injEq] at hp
          simp only [liveCounts_eq h, liveTotal_eq h, hw, Option.map_some, Option.getD_some, ← hp]
      rw [e, List.foldl_flatMap]
      unfold weightedAgg
      simp only [List.foldl_map]
    rw [this]
    exact isMixture_of_fold o' _

mutual
theorem evalWeighted_spec {dd : List DataField} {td : TD F} {d : TreeDoc F} (row : Row F) :
    (o : MapOrd) → (n : Node F) → {cn : CNode F} →
    newNode (treeTypes dd td d) n = .ok cn → AllPreds n →
    ∃ a, evalWeighted (docCtx dd td d) row o cn = .ok a ∧
      WeightedAns (nodeTest (treeTypes dd td d) row) (ownDist dd d) n a
  | o, .mk id dc score rc dists nodes pred, cn, h, hp => by
    have ht := nodeTest_eq h (hp _ .refl) row
    have ho := outputScoreDist_eq h
    obtain ⟨cs, pred', hcs, -, rfl⟩ := newNode_ok h
    obtain ⟨rs, hrs, hall⟩ :=
      evalWeightedChildren_spec row o 2 nodes hcs (fun c hc => allPreds_child hp hc)
    simp only [CNode.pred] at ht
    simp only [evalWeighted, ht, res_bind_ok, hrs, trueDist_eq, ho, unknownValues_iff]
    by_cases hT : nodeTest (treeTypes dd td d) row (.mk id dc score rc dists nodes pred) = .f
    · rw [if_pos hT]
      exact ⟨_, rfl, by rw [hT]; exact .rejected hT⟩
    · rw [if_neg hT]
      by_cases hu : ∃ a ∈ rs, a.2 = .u
      · rw [if_neg (by simp [hu]), if_pos hu]
        exact ⟨_, rfl, .mixed hT hall hu (weightedMix_of_agg (newNodes_forall hcs) rs _ _)⟩
      · have hu' : ∀ a ∈ rs, a.2 ≠ .u := fun a ha h => hu ⟨a, ha, h⟩
        by_cases hl : lastTrue rs = []
        · rw [if_neg (by simp [hl]), if_neg hu]
          exact ⟨_, rfl, .itself hT hall hu' hl⟩
        · rw [if_pos ⟨hu, hl⟩]
          exact ⟨_, rfl, .child hT hall hu' hl⟩
theorem evalWeightedChildren_spec {dd : List DataField} {td : TD F} {d : TreeDoc F} (row : Row F) :
    (o : MapOrd) → (i : Nat) → (ns : List (Node F)) → {cs : List (CNode F)} →
    newNodes (treeTypes dd td d) ns = .ok cs → (∀ c ∈ ns, AllPreds c) →
    ∃ rs, evalWeightedChildren (docCtx dd td d) row o i cs = .ok rs ∧
      List.Forall₂ (WeightedAns (nodeTest (treeTypes dd td d) row) (ownDist dd d)) ns rs
  | o, i, [], cs, h, _ => by
    simp [newNodes] at h; subst h
    exact ⟨[], by simp [evalWeightedChildren], .nil⟩
  | o, i, n :: ns, cs, h, hp => by
    simp only [newNodes, bind_eq_ok] at h
    obtain ⟨cn, hn, cs', hcs, h⟩ := h
    simp at h; subst h
    obtain ⟨a, ha, hw⟩ := evalWeighted_spec row (o.at_ i) n hn (hp n (by simp))
    obtain ⟨rs, hrs, hall⟩ := evalWeightedChildren_spec row o (i + 1) ns hcs (fun c hc => hp c (by simp [hc]))
    exact ⟨a :: rs, by simp [evalWeightedChildren, ha, hrs], .cons hw hall⟩
end

omit [Lib F] in
theorem aggregate_fold (ls : List (ScoreDist F)) (z : ScoreDist F) :
    ls.foldl addCount z =
      ⟨z.value, z.confidence, z.probability, (ls.map (·.recordCount)).foldl Arith.add z.recordCount⟩ := by
  induction ls generalizing z with
  | nil => rfl
  | cons w ls ih => rw [List.foldl_cons, ih]; rfl

omit [Lib F] in
theorem aggregateMix_of_dist (o : MapOrd) (scores : List (ScoreDist F)) :
    AggregateMix scores (aggregateDist o scores) := by
  have key : ∀ x, (scores.foldl aggregateStep (∅ : GoMap (ScoreDist F)))[x]? =
      if ∃ a ∈ scores, a.value = x then
        some ⟨x, Arith.zero, Arith.zero,
          sum ((scores.filter (fun t => t.value = x)).map (·.recordCount))⟩
      else none := by
    intro x
    have := foldl_accum (fun s : ScoreDist F => s.value) addCount
      (fun v => ⟨v, Arith.zero, Arith.zero, Arith.zero⟩) scores ∅ x
    rw [aggregate_fold] at this
    refine Eq.trans this ?_
    simp [sum]
  have hv : ∀ p ∈ o.range (scores.foldl aggregateStep (∅ : GoMap (ScoreDist F))), p.2.value = p.1 := by
    intro p hp
    rw [MapOrd.mem_range, key] at hp
    split_ifs at hp
    simp only [Option.some.injEq] at hp
    rw [← hp]
  have hmap : (aggregateDist o scores).map (·.value) =
      (o.range (scores.foldl aggregateStep (∅ : GoMap (ScoreDist F)))).map (·.1) := by
    unfold aggregateDist
    rw [List.map_map]
    exact List.map_congr_left hv
  refine ⟨?_, ?_, ?_⟩
  · rw [hmap]; exact o.nodup_range _
  · intro L
    rw [hmap, MapOrd.mem_range_keys, key]
    simp
  · intro s hs
    unfold aggregateDist at hs
    obtain ⟨p, hp, rfl⟩ := List.mem_map.mp hs
    have h1 := hv p hp
    rw [MapOrd.mem_range, key] at hp
    split_ifs at hp
    simp only [Option.some.injEq] at hp
    have e : scores.foldl (fun t sc => Arith.add t sc.recordCount) Arith.zero =
        sum (scores.map (·.recordCount)) := by
      rw [sum, List.foldl_map]
    rw [e]
    simp only [h1]
    rw [← hp]
    simp

mutual
theorem evalAggregate_spec {dd : List DataField} {td : TD F} {d : TreeDoc F} (row : Row F) :
    (o : MapOrd) → (n : Node F) → {cn : CNode F} →
    newNode (treeTypes dd td d) n = .ok cn → AllPreds n →
    ∃ a, evalAggregate (docCtx dd td d) row o cn = .ok a ∧
      AggregateAns (nodeTest (treeTypes dd td d) row) (ownDist dd d) n a
  | o, .mk id dc score rc dists nodes pred, cn, h, hp => by
    have ht := nodeTest_eq h (hp _ .refl) row
    have ho := outputScoreDist_eq h
    obtain ⟨cs, pred', hcs, -, rfl⟩ := newNode_ok h
    obtain ⟨rs, hrs, hall⟩ :=
      evalAggregateChildren_spec row o 1 nodes hcs (fun c hc => allPreds_child hp hc)
    simp only [CNode.pred] at ht
    simp only [evalAggregate, ht, res_bind_ok, hrs, trueDist_eq, ho, unknownValues_iff]
    by_cases hT : nodeTest (treeTypes dd td d) row (.mk id dc score rc dists nodes pred) = .f
    · rw [if_pos hT]
      exact ⟨_, rfl, by rw [hT]; exact .rejected hT⟩
    · rw [if_neg hT]
      by_cases hu : ∃ a ∈ rs, a.2 = .u
      · rw [if_neg (by simp [hu]), if_pos hu]
        exact ⟨_, rfl, .mixed hT hall hu (aggregateMix_of_dist _ _)⟩
      · have hu' : ∀ a ∈ rs, a.2 ≠ .u := fun a ha h => hu ⟨a, ha, h⟩
        by_cases hl : lastTrue rs = []
        · rw [if_neg (by simp [hl]), if_neg hu]
          exact ⟨_, rfl, .itself hT hall hu' hl⟩
        · rw [if_pos ⟨hu, hl⟩]
          exact ⟨_, rfl, .child hT hall hu' hl⟩
theorem evalAggregateChildren_spec {dd : List DataField} {td : TD F} {d : TreeDoc F} (row : Row F) :
    (o : MapOrd) → (i : Nat) → (ns : List (Node F)) → {cs : List (CNode F)} →
    newNodes (treeTypes dd td d) ns = .ok cs → (∀ c ∈ ns, AllPreds c) →
    ∃ rs, evalAggregateChildren (docCtx dd td d) row o i cs = .ok rs ∧
      List.Forall₂ (AggregateAns (nodeTest (treeTypes dd td d) row) (ownDist dd d)) ns rs
  | o, i, [], cs, h, _ => by
    simp [newNodes] at h; subst h
    exact ⟨[], by simp [evalAggregateChildren], .nil⟩
  | o, i, n :: ns, cs, h, hp => by
    simp only [newNodes, bind_eq_ok] at h
    obtain ⟨cn, hn, cs', hcs, h⟩ := h
    simp at h; subst h
    obtain ⟨a, ha, hw⟩ := evalAggregate_spec row (o.at_ i) n hn (hp n (by simp))
    obtain ⟨rs, hrs, hall⟩ := evalAggregateChildren_spec row o (i + 1) ns hcs (fun c hc => hp c (by simp [hc]))
    exact ⟨a :: rs, by simp [evalAggregateChildren, ha, hrs], .cons hw hall⟩
end

end Gopmml
