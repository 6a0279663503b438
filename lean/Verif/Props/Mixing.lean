import Verif.Props.Strategies
import Verif.Proofs.Mix

/-!
# Properties C16 and C17: weightedConfidence and aggregateNodes
-/

namespace Gopmml.Props
open Gopmml Spec

variable {F : Type} [Arith F] [Lib F] {dd : List DataField} {td td' : TD F} {d : TreeDoc F}
  {m : TreeModel F} {row row' : Row F}

/-- **C16**, the answer of a weightedConfidence tree is one of the answers of its root allowed
by `WeightedAns`, whatever the map iteration order. -/
theorem C16_weighted_confidence (h : newTreeModel dd td d = (.ok m, td')) (hp : AllPreds d.node)
    (hs : d.missingValueStrategy = .weightedConfidence)
    (hi : handleInput d.localTransformations row = (.ok (), row')) (o : MapOrd) :
    ∃ a, WeightedAns (nodeTest (treeTypes dd td d) row') (ownDist dd d) d.node a ∧
      (m.evaluate o row).res = report d.functionName (targetOf d.miningFields) a := by
  have hn := (newTreeModel_ok h).2.2.2.2.2.2.2.2
  have he := constructed_evaluate h hi o
  have hev : evalNode (docCtx dd td d) o row' m.root = evalWeighted (docCtx dd td d) row' o m.root := by
    simp [evalNode, docCtx, hs]
  obtain ⟨a, ha, hw⟩ := evalWeighted_spec row' o d.node hn hp
  rw [hev, ha] at he
  exact ⟨a, hw, he⟩

section
omit [Arith F] [Lib F]

theorem withId_distinct {l : List (Node F × Ans F)} (hid : (l.map (fun p => p.1.id)).Nodup)
    {i : String} {p : Node F × Ans F} : withId l i = some p ↔ p ∈ l ∧ p.1.id = i := by
  have hinj : ∀ p ∈ l, ∀ q ∈ l, p.1.id = q.1.id → p = q := fun p hp q hq e =>
    List.inj_on_of_nodup_map hid hp hq e
  constructor
  · intro h
    have := List.mem_of_getLast? h
    simpa using this
  · rintro ⟨hp, hi⟩
    have hex := (withId_isSome (l := l) (i := i)).mpr (List.mem_map.mpr ⟨p, hp, hi⟩)
    obtain ⟨q, hq⟩ := hex
    have hq' := List.mem_of_getLast? hq
    simp only [List.mem_filter, decide_eq_true_eq] at hq'
    rw [hq, hinj q hq'.1 p hp (by rw [hq'.2, hi])]

theorem live_ids_nodup {ns : List (Node F)} {as : List (Ans F)} (hid : (ns.map (·.id)).Nodup) :
    ((live ns as).map (fun p => p.1.id)).Nodup := by
  unfold live
  have h1 : ((ns.zip as).map (fun p => p.1.id)).Sublist (ns.map (·.id)) := by
    have : (ns.zip as).map (fun p => p.1.id) = (ns.map (·.id)).take as.length := by
      induction ns generalizing as with
      | nil => simp
      | cons n ns ih =>
        cases as with
        | nil => simp
        | cons a as =>
          simp only [List.zip_cons_cons, List.map_cons, List.length_cons, List.take_succ_cons]
          rw [ih (List.nodup_cons.mp (by simpa using hid)).2]
    rw [this]
    exact List.take_sublist _ _
  exact ((List.filter_sublist.map _).trans h1).nodup hid
end

omit [Lib F] in
/-- **C16**: if the children have distinct ids, the mixture takes every live child exactly once,
in some order, with weight its record count over the total of the live children's. -/
theorem C16_distinct_ids {ns : List (Node F)} {as : List (Ans F)} {dist : List (ScoreDist F)}
    (hid : (ns.map (·.id)).Nodup) (h : WeightedMix (live ns as) dist) :
    ∃ order : List (Node F × Ans F), order.Perm (live ns as) ∧
      IsMixture (order.flatMap (fun p => p.2.1.map (fun s =>
        (Arith.div p.1.recordCount (sum ((live ns as).map (fun q => q.1.recordCount))), s)))) dist := by
  obtain ⟨order, hnd, hmem, hmix⟩ := h
  have hid' := live_ids_nodup (as := as) hid
  have hids : (order.filterMap (withId (live ns as))).map (fun p => p.1.id) = order := by
    have : ∀ l : List String, (∀ i ∈ l, i ∈ (live ns as).map (fun p => p.1.id)) →
        (l.filterMap (withId (live ns as))).map (fun p => p.1.id) = l := by
      intro l
      induction l with
      | nil => simp
      | cons i l ih =>
        intro hl
        obtain ⟨p, hp⟩ := withId_isSome.mpr (hl i (by simp))
        rw [List.filterMap_cons_some hp, List.map_cons, ih (fun j hj => hl j (by simp [hj])),
          ((withId_distinct hid').mp hp).2]
    exact this order (fun i hi => (hmem i).mp hi)
  refine ⟨order.filterMap (withId (live ns as)), ?_, ?_⟩
  · apply (List.perm_ext_iff_of_nodup ?_ ?_).mpr
    · intro p
      simp only [List.mem_filterMap]
      constructor
      · rintro ⟨i, -, hi⟩
        exact ((withId_distinct hid').mp hi).1
      · intro hp
        exact ⟨p.1.id, (hmem _).mpr (List.mem_map.mpr ⟨p, hp, rfl⟩), (withId_distinct hid').mpr ⟨hp, rfl⟩⟩
    · exact List.Nodup.of_map _ (hids.symm ▸ hnd)
    · exact List.Nodup.of_map _ hid'
  · have : order.flatMap (contributions (live ns as)) =
        (order.filterMap (withId (live ns as))).flatMap (fun p => p.2.1.map (fun s =>
        (Arith.div p.1.recordCount (sum ((live ns as).map (fun q => q.1.recordCount))), s))) := by
      clear hmem hids hnd hmix
      induction order with
      | nil => rfl
      | cons i l ih =>
        rw [List.flatMap_cons, ih]
        unfold contributions
        cases hw : withId (live ns as) i with
        | none => simp [List.filterMap_cons_none hw]
        | some p => simp [List.filterMap_cons_some hw]
    rw [← this]
    exact hmix

/-- A tree with two unknown children without ids. -/
def twins (ida idb : String) (s : MissingValueStrategy) : TreeDoc F64 :=
  Replay.doc s "1" (.mk "0" "" "" (Replay.num "10") [] [
    .mk ida "" "" (Replay.num "5") [⟨"will play", Replay.num "5", none, none⟩] []
      (some (Replay.sp "outlook" .equal "sunny")),
    .mk idb "" "" (Replay.num "5") [⟨"no play", Replay.num "5", none, none⟩] []
      (some (Replay.sp "outlook" .equal "rain"))] (some .true_))

/-- **C16** fails without distinct ids: with two live children that have no id, the first
one's label is not reported at all, and the second one's probability is not 1/2 of 1 but 1/2
of the whole. -/
theorem C16_absent_ids_drop_children :
    Replay.lookup (Replay.run (twins "" "" .weightedConfidence) []) "probability(will play)" = none ∧
    Replay.lookup (Replay.run (twins "a" "b" .weightedConfidence) []) "probability(will play)" =
      some (.f64 (Replay.num "0.5")) ∧
    Replay.lookup (Replay.run (twins "" "" .weightedConfidence) []) "probability(no play)" =
      some (.f64 (Replay.num "0.5")) := by decide +kernel

-- C16: the repository's own example: 0.9·40/50 + 0.4·10/50 = 0.8.
example : Replay.lookup (Replay.run (Replay.doc .weightedConfidence "1" Replay.golfCounts)
    [("outlook", .str "sunny")]) "probability(will play)" = some (.f64 (Replay.num "0.8")) := by
  decide +kernel

/-- **C17**, the answer of an aggregateNodes tree is one of the answers of its root allowed by
`AggregateAns`, whatever the map iteration order. -/
theorem C17_aggregate_nodes (h : newTreeModel dd td d = (.ok m, td')) (hp : AllPreds d.node)
    (hs : d.missingValueStrategy = .aggregateNodes)
    (hi : handleInput d.localTransformations row = (.ok (), row')) (o : MapOrd) :
    ∃ a, AggregateAns (nodeTest (treeTypes dd td d) row') (ownDist dd d) d.node a ∧
      (m.evaluate o row).res = report d.functionName (targetOf d.miningFields) a := by
  have hn := (newTreeModel_ok h).2.2.2.2.2.2.2.2
  have he := constructed_evaluate h hi o
  have hev : evalNode (docCtx dd td d) o row' m.root = evalAggregate (docCtx dd td d) row' o m.root := by
    simp [evalNode, docCtx, hs]
  obtain ⟨a, ha, hw⟩ := evalAggregate_spec row' o d.node hn hp
  rw [hev, ha] at he
  exact ⟨a, hw, he⟩

/-- A root with one child that is false for sunny and one unknown child. -/
def oneFalse : TreeDoc F64 :=
  Replay.doc .aggregateNodes "1" (.mk "0" "" "" (Replay.num "10") [] [
    .mk "a" "" "" (Replay.num "5") [⟨"will play", Replay.num "5", none, none⟩] []
      (some (Replay.sp "outlook" .equal "rain")),
    .mk "b" "" "" (Replay.num "5") [⟨"no play", Replay.num "5", none, none⟩] []
      (some (Replay.sp "humidity" .lessThan "80"))] (some .true_))

/-- The PMML rule that children which are false are left out is violated: the count of the
false child "a" is collected (its label gets probability 1/2). -/
theorem C17_false_children_are_counted :
    Replay.lookup (Replay.run oneFalse [("outlook", .str "sunny")]) "probability(will play)" =
      some (.f64 (Replay.num "0.5")) := by decide +kernel

-- C17: with outlook missing, both children of the root are unknown and their counts are merged.
example : (Replay.run (Replay.doc .aggregateNodes "1" Replay.golfCounts)
    [("temperature", .f64 (Replay.num "45")), ("humidity", .f64 (Replay.num "90"))]).isOk ∧
    Replay.lookup (Replay.run (Replay.doc .aggregateNodes "1" Replay.golfCounts)
      [("temperature", .f64 (Replay.num "45")), ("humidity", .f64 (Replay.num "90"))]) "whatIdo" =
      some (.str "may play") := by decide +kernel

end Gopmml.Props
