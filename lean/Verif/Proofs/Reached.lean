import Verif.Spec.Reached
import Verif.Proofs.Rewrite
import Verif.Props.Frame

/-!
# Evaluation depends only on the tests that are made
-/

namespace Gopmml
open Spec

variable {F : Type} [Arith F] [Lib F]

mutual
/-- The same as far as a compiled tree is looked at, with the one row and the other. -/
inductive CAlike (s : MissingValueStrategy) (types : FieldTypes) (row row' : Row F) : CNode F → CNode F → Prop
  | mk {id dc sd sc p p' cs cs'} : runTest types p row = runTest types p' row' → (cs = [] ↔ cs' = []) →
      (∀ r, runTest types p row = .ok r → goesOn s r = true → CAlikes s types row row' cs cs') →
      CAlike s types row row' (.mk id dc sd sc p cs) (.mk id dc sd sc p' cs')
inductive CAlikes (s : MissingValueStrategy) (types : FieldTypes) (row row' : Row F) :
    List (CNode F) → List (CNode F) → Prop
  | nil : CAlikes s types row row' [] []
  | stop {n n' ns ns'} : Thorough s = false → CAlike s types row row' n n' → (∀ r, runTest types n.pred row = .ok r → settles s r = true) →
      CAlikes s types row row' (n :: ns) (n' :: ns')
  | cons {n n' ns ns'} : CAlike s types row row' n n' → CAlikes s types row row' ns ns' →
      CAlikes s types row row' (n :: ns) (n' :: ns')
end

theorem evalNone_test {c : TreeCtx F} {row : Row F} (n : CNode F) {r : NodeRes F} (h : evalNone c row n = .ok r) :
    ∃ v, runTest c.types n.pred row = .ok v := by
  obtain ⟨id, dc, sd, sc, p, cs⟩ := n
  rw [evalNone] at h
  change ∃ v, runTest c.types p row = .ok v
  cases hr : runTest c.types p row with
  | error e => rw [hr] at h; cases h
  | ok v => exact ⟨v, rfl⟩

theorem evalNull_test {c : TreeCtx F} {row : Row F} (n : CNode F) {r : NodeRes F} (h : evalNull c row n = .ok r) :
    ∃ v, runTest c.types n.pred row = .ok v := by
  obtain ⟨id, dc, sd, sc, p, cs⟩ := n
  rw [evalNull] at h
  change ∃ v, runTest c.types p row = .ok v
  cases hr : runTest c.types p row with
  | error e => rw [hr] at h; cases h
  | ok v => exact ⟨v, rfl⟩

theorem evalLast_test {c : TreeCtx F} {row : Row F} (n : CNode F) {r : NodeRes F} (h : evalLast c row n = .ok r) :
    ∃ v, runTest c.types n.pred row = .ok v := by
  obtain ⟨id, dc, sd, sc, p, cs⟩ := n
  rw [evalLast] at h
  change ∃ v, runTest c.types p row = .ok v
  cases hr : runTest c.types p row with
  | error e => rw [hr] at h; cases h
  | ok v => exact ⟨v, rfl⟩

theorem evalDefault_test {c : TreeCtx F} {row : Row F} (n : CNode F) {r : NodeRes F} (h : evalDefault c row n = .ok r) :
    ∃ v, runTest c.types n.pred row = .ok v := by
  obtain ⟨id, dc, sd, sc, p, cs⟩ := n
  rw [evalDefault] at h
  change ∃ v, runTest c.types p row = .ok v
  cases hr : runTest c.types p row with
  | error e => rw [hr] at h; cases h
  | ok v => exact ⟨v, rfl⟩

theorem evalWeighted_test {c : TreeCtx F} {row : Row F} {o : MapOrd} (n : CNode F) {r : NodeRes F} (h : evalWeighted c row o n = .ok r) :
    ∃ v, runTest c.types n.pred row = .ok v := by
  obtain ⟨id, dc, sd, sc, p, cs⟩ := n
  rw [evalWeighted] at h
  change ∃ v, runTest c.types p row = .ok v
  cases hr : runTest c.types p row with
  | error e => rw [hr] at h; cases h
  | ok v => exact ⟨v, rfl⟩

theorem evalAggregate_test {c : TreeCtx F} {row : Row F} {o : MapOrd} (n : CNode F) {r : NodeRes F} (h : evalAggregate c row o n = .ok r) :
    ∃ v, runTest c.types n.pred row = .ok v := by
  obtain ⟨id, dc, sd, sc, p, cs⟩ := n
  rw [evalAggregate] at h
  change ∃ v, runTest c.types p row = .ok v
  cases hr : runTest c.types p row with
  | error e => rw [hr] at h; cases h
  | ok v => exact ⟨v, rfl⟩

theorem evalNone_true {c : TreeCtx F} {row : Row F} : (n : CNode F) → runTest c.types n.pred row = .ok .t →
    ∀ {r}, evalNone c row n = .ok r → r.2 = .t
  | .mk id dc sd sc p cs, h, r, hr => by
    change runTest c.types p row = _ at h
    rw [evalNone, h] at hr
    have hall : ∀ cs r, evalNoneChildren c row cs = .ok (some r) → r.2 = .t := by
      intro cs
      induction cs with
      | nil => intro r h; simp [evalNoneChildren] at h
      | cons n ns ih =>
        intro r h
        rw [evalNoneChildren] at h
        cases hn : evalNone c row n with
        | error e => rw [hn] at h; cases h
        | ok r1 =>
          rw [hn] at h
          change (if r1.2 = .t then pure (some r1) else evalNoneChildren c row ns) = _ at h
          split at h
          · cases h; assumption
          · exact ih r h
    change (do match ← evalNoneChildren c row cs with
      | some r => pure r
      | none => pure (outputScoreDist c (.mk id dc sd sc p cs), PredRes.t) : Res (NodeRes F)) = .ok r at hr
    cases hc : evalNoneChildren c row cs with
    | error e => rw [hc] at hr; cases hr
    | ok o =>
      rw [hc] at hr
      cases o with
      | none => cases hr; rfl
      | some r' => cases hr; exact hall cs _ hc

theorem evalNull_settled {c : TreeCtx F} {row : Row F} : (n : CNode F) → ∀ {v}, runTest c.types n.pred row = .ok v →
    v ≠ .f → ∀ {r}, evalNull c row n = .ok r → r.2 ≠ .f
  | .mk id dc sd sc p cs, v, h, ht, r, hr => by
    change runTest c.types p row = _ at h
    rw [evalNull, h] at hr
    have hall : ∀ cs r, evalNullChildren c row cs = .ok (some r) → r.2 ≠ .f := by
      intro cs
      induction cs with
      | nil => intro r h; simp [evalNullChildren] at h
      | cons n ns ih =>
        intro r h
        rw [evalNullChildren] at h
        cases hn : evalNull c row n with
        | error e => rw [hn] at h; cases h
        | ok r1 =>
          rw [hn] at h
          change (if r1.2 = .t then pure (some r1) else if r1.2 = .u then pure (some ([], r1.2)) else
            evalNullChildren c row ns) = _ at h
          split at h
          · cases h; simp [*]
          · split at h
            · cases h; simp [*]
            · exact ih r h
    cases v with
    | f => exact absurd rfl ht
    | u => cases hr; simp
    | t =>
      change (do match ← evalNullChildren c row cs with
        | some r => pure r
        | none => pure (outputScoreDist c (.mk id dc sd sc p cs), PredRes.t) : Res (NodeRes F)) = .ok r at hr
      cases hc : evalNullChildren c row cs with
      | error e => rw [hc] at hr; cases hr
      | ok o =>
        rw [hc] at hr
        cases o with
        | none => cases hr; simp
        | some r' => cases hr; exact hall cs _ hc

variable {c : TreeCtx F} {row row' : Row F} {s : MissingValueStrategy}

/-- What of a compiled node is the same. -/
theorem CAlike.parts {n n' : CNode F} (h : CAlike s c.types row row' n n') :
    n.id = n'.id ∧ n.score = n'.score ∧ runTest c.types n.pred row = runTest c.types n'.pred row' := by
  cases h with
  | mk h1 h2 h3 => exact ⟨rfl, rfl, h1⟩

omit [Lib F] in
theorem outputScoreDist_alike {id dc sd sc} {p p' : Option (Pred F)} {cs cs' : List (CNode F)}
    (hl : cs = [] ↔ cs' = []) :
    outputScoreDist c (.mk id dc sd sc p cs) = outputScoreDist c (.mk id dc sd sc p' cs') :=
  outputScoreDist_of_parts rfl rfl fun _ => hl

mutual
theorem evalNone_alike (hs : Thorough s = false) (hs' : s ≠ .nullPrediction) : (n : CNode F) → ∀ {n'},
    CAlike s c.types row row' n n' → evalNone c row n = evalNone c row' n'
  | .mk id dc sd sc p cs, n', h => by
    cases h with
    | mk h1 h2 h3 =>
      rw [evalNone, evalNone, ← h1]
      cases hr : runTest c.types p row with
      | error e => rfl
      | ok r =>
        cases r with
        | f => rfl
        | u => rfl
        | t => rw [evalNoneChildren_alike hs hs' cs (h3 .t hr rfl), outputScoreDist_alike h2]
theorem evalNoneChildren_alike (hs : Thorough s = false) (hs' : s ≠ .nullPrediction) : (cs : List (CNode F)) →
    ∀ {cs'}, CAlikes s c.types row row' cs cs' → evalNoneChildren c row cs = evalNoneChildren c row' cs'
  | [], _, h => by cases h; rfl
  | n :: ns, _, h => by
    cases h with
    | cons h1 h2 => rw [evalNoneChildren, evalNoneChildren, evalNone_alike hs hs' n h1, evalNoneChildren_alike hs hs' ns h2]
    | stop _ h1 h2 =>
      have ht : ∀ r, evalNone c row n = .ok r → r.2 = .t := by
        intro r hr
        obtain ⟨v, hv⟩ := evalNone_test n hr
        have h3 := h2 v hv
        obtain rfl : v = .t := by
          cases v with
          | t => rfl
          | f => simp [settles] at h3
          | u => simp [settles, hs'] at h3
        exact evalNone_true n hv hr
      rw [evalNoneChildren, evalNoneChildren, ← evalNone_alike hs hs' n h1]
      cases hr : evalNone c row n with
      | error e => rfl
      | ok r =>
        change (if r.2 = .t then _ else _) = (if r.2 = .t then _ else _)
        rw [if_pos (ht r hr), if_pos (ht r hr)]
end

mutual
theorem evalNull_alike (hs : s = .nullPrediction) : (n : CNode F) → ∀ {n'},
    CAlike s c.types row row' n n' → evalNull c row n = evalNull c row' n'
  | .mk id dc sd sc p cs, n', h => by
    cases h with
    | mk h1 h2 h3 =>
      rw [evalNull, evalNull, ← h1]
      cases hr : runTest c.types p row with
      | error e => rfl
      | ok r =>
        cases r with
        | f => rfl
        | u => rfl
        | t => rw [evalNullChildren_alike hs cs (h3 .t hr rfl), outputScoreDist_alike h2]
theorem evalNullChildren_alike (hs : s = .nullPrediction) : (cs : List (CNode F)) →
    ∀ {cs'}, CAlikes s c.types row row' cs cs' → evalNullChildren c row cs = evalNullChildren c row' cs'
  | [], _, h => by cases h; rfl
  | n :: ns, _, h => by
    cases h with
    | cons h1 h2 => rw [evalNullChildren, evalNullChildren, evalNull_alike hs n h1, evalNullChildren_alike hs ns h2]
    | stop _ h1 h2 =>
      have ht : ∀ r, evalNull c row n = .ok r → r.2 ≠ .f := by
        intro r hr
        obtain ⟨v, hv⟩ := evalNull_test n hr
        exact evalNull_settled n hv (by rintro rfl; have := h2 _ hv; simp [settles] at this) hr
      rw [evalNullChildren, evalNullChildren, ← evalNull_alike hs n h1]
      cases hr : evalNull c row n with
      | error e => rfl
      | ok r =>
        change (if r.2 = .t then _ else if r.2 = .u then _ else _) = (if r.2 = .t then _ else if r.2 = .u then _ else _)
        have := ht r hr
        cases h : r.2 with
        | f => exact absurd h this
        | t => rfl
        | u => rfl
end

mutual
theorem evalLast_alike (hs : s = .lastPrediction) : (n : CNode F) → ∀ {n'},
    CAlike s c.types row row' n n' → evalLast c row n = evalLast c row' n'
  | .mk id dc sd sc p cs, n', h => by
    cases h with
    | mk h1 h2 h3 =>
      rw [evalLast, evalLast, ← h1]
      cases hr : runTest c.types p row with
      | error e => rfl
      | ok r =>
        cases r with
        | f => rfl
        | u => rw [evalLastChildren_alike hs cs (h3 .u hr (by rw [hs]; rfl)), outputScoreDist_alike h2]
        | t => rw [evalLastChildren_alike hs cs (h3 .t hr (by rw [hs]; rfl)), outputScoreDist_alike h2]
theorem evalLastChildren_alike (hs : s = .lastPrediction) : (cs : List (CNode F)) →
    ∀ {cs'}, CAlikes s c.types row row' cs cs' → evalLastChildren c row cs = evalLastChildren c row' cs'
  | [], _, h => by cases h; rfl
  | n :: ns, _, h => by
    cases h with
    | cons h1 h2 =>
      rw [evalLastChildren, evalLastChildren, evalLast_alike hs n h1, evalLastChildren_alike hs ns h2]
    | stop h0 => subst hs; simp [Thorough] at h0
end

omit [Arith F] [Lib F] in
theorem not_thorough_of_settles {v : PredRes} (h : settles s v = true) : Thorough s = false := by
  cases v <;> cases s <;> simp_all [settles, Thorough]

/-- Under a thorough strategy all children are the same as far as they are looked at. -/
theorem CAlikes.all (hs : Thorough s = true) : {cs cs' : List (CNode F)} → CAlikes s c.types row row' cs cs' →
    List.Forall₂ (CAlike s c.types row row') cs cs'
  | [], _, h => by cases h; exact .nil
  | n :: ns, _, h => by
    cases h with
    | stop h0 => rw [hs] at h0; simp at h0
    | cons h1 h2 => exact .cons h1 (CAlikes.all hs h2)

theorem childScores_alike (hs : Thorough s = true) {cs cs' : List (CNode F)} (h : CAlikes s c.types row row' cs cs')
    (rs : List (NodeRes F)) : childScores cs rs = childScores cs' rs := by
  replace h := h.all hs
  unfold childScores
  generalize (∅ : GoMap (List (ScoreDist F))) = m
  induction h generalizing rs m with
  | nil => rfl
  | cons h1 _ ih =>
    cases rs with
    | nil => rfl
    | cons r rs => simp only [List.zip_cons_cons, List.foldl_cons, h1.parts.1, ih]

theorem weightedAgg_alike (hs : Thorough s = true) {cs cs' : List (CNode F)} (h : CAlikes s c.types row row' cs cs')
    (o : MapOrd) (rs : List (NodeRes F)) : weightedAgg o (liveChildren cs rs) = weightedAgg o (liveChildren cs' rs) := by
  refine weightedAgg_parts ?_
  replace h := h.all hs
  unfold liveParts liveChildren
  induction h generalizing rs with
  | nil => rfl
  | cons h1 _ ih =>
    cases rs with
    | nil => rfl
    | cons r rs =>
      simp only [List.zip_cons_cons, List.filter_cons]
      split
      · simp only [List.map_cons, h1.parts.1, h1.parts.2.1, ih]
      · exact ih rs

mutual
theorem evalDefault_alike (hs : s = .defaultChild) : (n : CNode F) → ∀ {n'},
    CAlike s c.types row row' n n' → evalDefault c row n = evalDefault c row' n'
  | .mk id dc sd sc p cs, n', h => by
    cases h with
    | mk h1 h2 h3 =>
      rw [evalDefault, evalDefault, ← h1]
      cases hr : runTest c.types p row with
      | error e => rfl
      | ok r =>
        cases r with
        | f => rfl
        | u => 
          have hc := h3 .u hr (by rw [hs]; rfl)
          simp only [evalDefaultChildren_alike hs cs hc, childScores_alike (hs ▸ rfl) hc]
          rw [outputScoreDist_alike h2]
        | t => 
          have hc := h3 .t hr (by rw [hs]; rfl)
          simp only [evalDefaultChildren_alike hs cs hc, childScores_alike (hs ▸ rfl) hc]
          rw [outputScoreDist_alike h2]
theorem evalDefaultChildren_alike (hs : s = .defaultChild) : (cs : List (CNode F)) →
    ∀ {cs'}, CAlikes s c.types row row' cs cs' → evalDefaultChildren c row cs = evalDefaultChildren c row' cs'
  | [], _, h => by cases h; rfl
  | n :: ns, _, h => by
    cases h with
    | cons h1 h2 =>
      rw [evalDefaultChildren, evalDefaultChildren, evalDefault_alike hs n h1, evalDefaultChildren_alike hs ns h2]
    | stop h0 => subst hs; simp [Thorough] at h0
end

mutual
theorem evalWeighted_alike (hs : s = .weightedConfidence) : (n : CNode F) → ∀ {n'} (o : MapOrd),
    CAlike s c.types row row' n n' → evalWeighted c row o n = evalWeighted c row' o n'
  | .mk id dc sd sc p cs, n', o, h => by
    cases h with
    | mk h1 h2 h3 =>
      rw [evalWeighted, evalWeighted, ← h1]
      cases hr : runTest c.types p row with
      | error e => rfl
      | ok r =>
        cases r with
        | f => rfl
        | u => 
          have hc := h3 .u hr (by rw [hs]; rfl)
          simp only [evalWeightedChildren_alike hs cs o 2 hc, weightedAgg_alike (hs ▸ rfl) hc]
          rw [outputScoreDist_alike h2]
        | t => 
          have hc := h3 .t hr (by rw [hs]; rfl)
          simp only [evalWeightedChildren_alike hs cs o 2 hc, weightedAgg_alike (hs ▸ rfl) hc]
          rw [outputScoreDist_alike h2]
theorem evalWeightedChildren_alike (hs : s = .weightedConfidence) : (cs : List (CNode F)) →
    ∀ {cs'} (o : MapOrd) (i : Nat), CAlikes s c.types row row' cs cs' → evalWeightedChildren c row o i cs = evalWeightedChildren c row' o i cs'
  | [], _, _, _, h => by cases h; rfl
  | n :: ns, _, o, i, h => by
    cases h with
    | cons h1 h2 =>
      rw [evalWeightedChildren, evalWeightedChildren, evalWeighted_alike hs n (o.at_ i) h1, evalWeightedChildren_alike hs ns o (i + 1) h2]
    | stop h0 => subst hs; simp [Thorough] at h0
end

mutual
theorem evalAggregate_alike (hs : s = .aggregateNodes) : (n : CNode F) → ∀ {n'} (o : MapOrd),
    CAlike s c.types row row' n n' → evalAggregate c row o n = evalAggregate c row' o n'
  | .mk id dc sd sc p cs, n', o, h => by
    cases h with
    | mk h1 h2 h3 =>
      rw [evalAggregate, evalAggregate, ← h1]
      cases hr : runTest c.types p row with
      | error e => rfl
      | ok r =>
        cases r with
        | f => rw [outputScoreDist_alike h2]; rfl
        | u => rw [evalAggregateChildren_alike hs cs o 1 (h3 .u hr (by rw [hs]; rfl)), outputScoreDist_alike h2]
        | t => rw [evalAggregateChildren_alike hs cs o 1 (h3 .t hr (by rw [hs]; rfl)), outputScoreDist_alike h2]
theorem evalAggregateChildren_alike (hs : s = .aggregateNodes) : (cs : List (CNode F)) →
    ∀ {cs'} (o : MapOrd) (i : Nat), CAlikes s c.types row row' cs cs' → evalAggregateChildren c row o i cs = evalAggregateChildren c row' o i cs'
  | [], _, _, _, h => by cases h; rfl
  | n :: ns, _, o, i, h => by
    cases h with
    | cons h1 h2 =>
      rw [evalAggregateChildren, evalAggregateChildren, evalAggregate_alike hs n (o.at_ i) h1, evalAggregateChildren_alike hs ns o (i + 1) h2]
    | stop h0 => subst hs; simp [Thorough] at h0
end

theorem evalNode_alike (o : MapOrd) {n n' : CNode F} (h : CAlike c.strategy c.types row row' n n') :
    evalNode c o row n = evalNode c o row' n' := by
  unfold evalNode
  cases hs : c.strategy with
  | nullPrediction => exact evalNull_alike hs n h
  | aggregateNodes => exact evalAggregate_alike hs n o h
  | weightedConfidence => exact evalWeighted_alike hs n o h
  | defaultChild => exact evalDefault_alike hs n h
  | lastPrediction => exact evalLast_alike hs n h
  | none => exact evalNone_alike (by rw [hs]; rfl) (by rw [hs]; simp) n h
  | other t => exact evalNone_alike (by rw [hs]; rfl) (by rw [hs]; simp) n h

/-! ## Documents -/

variable {types : FieldTypes}

theorem nodeTest_run {id dc score : String} {rc : F} {dists : List (ScoreDistribution F)} {nodes : List (Node F)}
    {p p' : Pred F} (hc : compilePredicate types p = .ok p') (row : Row F) :
    runTest types (some p') row = .ok (nodeTest types row (.mk id dc score rc dists nodes (some p))) := by
  rw [runTest_spec row hc]; rfl

omit [Arith F] [Lib F] in
theorem forall₂_nil_iff {α β : Type} {R : α → β → Prop} {l : List α} {l' : List β} (h : List.Forall₂ R l l') :
    l = [] ↔ l' = [] := by
  cases h <;> simp

/-- Rows that agree on the fields of the tests made. -/
theorem calike_of_agree (s : MissingValueStrategy) : (n : Node F) → ∀ {cn}, newNode types n = .ok cn →
    (∀ r ∈ reached s (nodeTest types row) n, ∀ p, r.pred = some p → ∀ f ∈ predFields p, row.get f = row'.get f) →
    CAlike s types row row' cn cn
  | .mk id dc score rc dists nodes pred, cn, h, hr => by
    obtain ⟨cs, pred', hcs, hp, rfl⟩ := newNode_ok h
    rw [reached] at hr
    have hsub : goesOn s (nodeTest types row (.mk id dc score rc dists nodes pred)) = true →
        CAlikes s types row row' cs cs := fun hg =>
      calikes_of_agree s nodes (newNodes_forall hcs) fun r hm => hr r (by simp [hg, hm])
    cases pred with
    | none =>
      subst hp
      exact .mk rfl Iff.rfl fun r hr _ => by cases hr
    | some p =>
      obtain ⟨p', hc, rfl⟩ := hp
      refine .mk (Props.C05_predicate_frame hc fun f hf => hr _ List.mem_cons_self p rfl f hf) Iff.rfl fun r hr hg => ?_
      rw [nodeTest_run (id := id) (dc := dc) (score := score) (rc := rc) (dists := dists) (nodes := nodes) hc row] at hr
      cases hr
      exact hsub hg
where
  calikes_of_agree (s : MissingValueStrategy) : (ns : List (Node F)) → ∀ {cs},
      List.Forall₂ (fun n cn => newNode types n = .ok cn) ns cs →
      (∀ r ∈ reached.reacheds s (nodeTest types row) ns, ∀ p, r.pred = some p → ∀ f ∈ predFields p,
        row.get f = row'.get f) → CAlikes s types row row' cs cs
    | [], _, h, _ => by cases h; exact .nil
    | n :: ns, _, h, hr => by
      cases h with
      | cons h1 h2 =>
        rw [reached.reacheds] at hr
        have ha := calike_of_agree s n h1 fun r hm => hr r (by simp [hm])
        by_cases hst : settles s (nodeTest types row n) = true
        · obtain ⟨id, dc, score, rc, dists, nodes, pred⟩ := n
          obtain ⟨cs, pred', hcs, hp, rfl⟩ := newNode_ok h1
          cases pred with
          | none =>
            subst hp
            exact .stop (not_thorough_of_settles hst) ha fun r hr => by cases hr
          | some p =>
            obtain ⟨p', hc, rfl⟩ := hp
            refine .stop (not_thorough_of_settles hst) ha fun r hr => ?_
            rw [show CNode.pred _ = some p' from rfl, nodeTest_run (id := id) (dc := dc) (score := score) (rc := rc)
              (dists := dists) (nodes := nodes) hc row] at hr
            cases hr
            exact hst
        · exact .cons ha (calikes_of_agree s ns h2 fun r hm => hr r (by simp [hst, hm]))

/-- Documents that differ at most where no test is made. -/
theorem calike_of_same (s : MissingValueStrategy) : (n : Node F) → ∀ {n' cn cn'}, newNode types n = .ok cn →
    newNode types n' = .ok cn' → SameReached s (nodeTest types row) n n' → CAlike s types row row cn cn'
  | .mk id dc score rc dists nodes pred, n', cn, cn', h, h', hr => by
    obtain ⟨cs, pred', hcs, hp, rfl⟩ := newNode_ok h
    cases hr with
    | @mk _ _ _ _ _ _ nodes' _ h1 h2 =>
      obtain ⟨cs', pred'', hcs', hp', rfl⟩ := newNode_ok h'
      have hl : cs = [] ↔ cs' = [] :=
        (forall₂_nil_iff (newNodes_forall hcs)).symm.trans (h1.trans (forall₂_nil_iff (newNodes_forall hcs')))
      cases pred with
      | none =>
        subst hp; subst hp'
        exact .mk rfl hl fun r hr _ => by cases hr
      | some p =>
        obtain ⟨p', hc, rfl⟩ := hp
        obtain ⟨p'', hc', rfl⟩ := hp'
        obtain rfl : p' = p'' := by rw [hc] at hc'; cases hc'; rfl
        refine .mk rfl hl fun r hr hg => ?_
        rw [nodeTest_run (id := id) (dc := dc) (score := score) (rc := rc) (dists := dists) (nodes := nodes) hc row] at hr
        cases hr
        exact calikes_of_same s nodes (newNodes_forall hcs) (newNodes_forall hcs') (h2 hg)
where
  calikes_of_same (s : MissingValueStrategy) : (ns : List (Node F)) → ∀ {ns' cs cs'},
      List.Forall₂ (fun n cn => newNode types n = .ok cn) ns cs →
      List.Forall₂ (fun n cn => newNode types n = .ok cn) ns' cs' →
      SameReacheds s (nodeTest types row) ns ns' → CAlikes s types row row cs cs'
    | [], _, _, _, h, h', hr => by cases hr; cases h; cases h'; exact .nil
    | n :: ns, _, _, _, h, h', hr => by
      cases h with
      | cons h1 h2 =>
      cases hr with
      | cons hr1 hr2 =>
        cases h' with
        | cons h1' h2' => exact .cons (calike_of_same s n h1 h1' hr1) (calikes_of_same s ns h2 h2' hr2)
      | stop hr1 hst =>
        cases h' with
        | cons h1' h2' =>
          have ha := calike_of_same s n h1 h1' hr1
          obtain ⟨id, dc, score, rc, dists, nodes, pred⟩ := n
          obtain ⟨cs, pred', hcs, hp, rfl⟩ := newNode_ok h1
          cases pred with
          | none =>
            subst hp
            exact .stop (not_thorough_of_settles hst) ha fun r hr => by cases hr
          | some p =>
            obtain ⟨p', hc, rfl⟩ := hp
            refine .stop (not_thorough_of_settles hst) ha fun r hr => ?_
            rw [show CNode.pred _ = some p' from rfl, nodeTest_run (id := id) (dc := dc) (score := score) (rc := rc)
              (dists := dists) (nodes := nodes) hc row] at hr
            cases hr
            exact hst

/-! ## Nil predicates -/

/-- Evaluation fails exactly if one of the nodes has no predicate, and then by calling a nil function. -/
def Verdict {α : Type} (l : List (Node F)) (x : Res α) : Prop :=
  ((∀ r ∈ l, r.pred ≠ none) ∧ ∃ a, x = .ok a) ∨ ((∃ r ∈ l, r.pred = none) ∧ x = panic .nilFuncCall)

omit [Arith F] [Lib F] in
theorem Verdict.pure {α : Type} (a : α) : Verdict ([] : List (Node F)) (.ok a : Res α) :=
  .inl ⟨by simp, a, rfl⟩

omit [Arith F] [Lib F] in
theorem Verdict.bind {α β : Type} {l l' : List (Node F)} {x : Res α} {f : α → Res β} (h : Verdict l x)
    (h' : ∀ a, x = .ok a → Verdict l' (f a)) : Verdict (l ++ l') (x >>= f) := by
  rcases h with ⟨h1, a, rfl⟩ | ⟨⟨r, h1, h2⟩, rfl⟩
  · rcases h' a rfl with ⟨h2, b, hb⟩ | ⟨⟨r, h2, h3⟩, hb⟩
    · exact .inl ⟨fun r hr => (List.mem_append.mp hr).elim (h1 r) (h2 r), b, hb⟩
    · exact .inr ⟨⟨r, List.mem_append_right _ h2, h3⟩, hb⟩
  · exact .inr ⟨⟨r, List.mem_append_left _ h1, h2⟩, rfl⟩

omit [Arith F] [Lib F] in
theorem Verdict.map {α β : Type} {l : List (Node F)} {x : Res α} {f : α → Res β} (h : Verdict l x)
    (h' : ∀ a, x = .ok a → ∃ b, f a = .ok b) : Verdict l (x >>= f) := by
  have := h.bind (l' := []) (f := f) fun a ha => by
    obtain ⟨b, hb⟩ := h' a ha
    rw [hb]; exact .pure b
  rwa [List.append_nil] at this

theorem test_verdict {id dc score : String} {rc : F} {dists : List (ScoreDistribution F)} {nodes : List (Node F)}
    {pred pred' : Option (Pred F)} (row : Row F)
    (hp : match pred with
      | none => pred' = none
      | some p => ∃ p', compilePredicate types p = .ok p' ∧ pred' = some p') :
    Verdict [.mk id dc score rc dists nodes pred] (runTest types pred' row) ∧
    ∀ r, runTest types pred' row = .ok r → nodeTest types row (.mk id dc score rc dists nodes pred) = r := by
  cases pred with
  | none =>
    subst hp
    exact ⟨.inr ⟨⟨_, List.mem_singleton.mpr rfl, rfl⟩, rfl⟩, fun r hr => by cases hr⟩
  | some p =>
    obtain ⟨p', hc, rfl⟩ := hp
    rw [nodeTest_run (id := id) (dc := dc) (score := score) (rc := rc) (dists := dists) (nodes := nodes) hc row]
    refine ⟨.inl ⟨fun r hr => ?_, _, rfl⟩, fun r hr => by cases hr; rfl⟩
    rw [List.mem_singleton.mp hr]
    simp [Node.pred]

theorem node_test {n : Node F} {cn : CNode F} (h : newNode types n = .ok cn) (row : Row F) :
    ∀ r, runTest types cn.pred row = .ok r → nodeTest types row n = r := by
  obtain ⟨id, dc, score, rc, dists, nodes, pred⟩ := n
  obtain ⟨cs, pred', hcs, hp, rfl⟩ := newNode_ok h
  exact (test_verdict row hp).2

mutual
theorem evalLast_verdict (hs : Thorough s = true) : (n : Node F) → ∀ {cn}, newNode c.types n = .ok cn →
    Verdict (reached s (nodeTest c.types row) n) (evalLast c row cn)
  | .mk id dc score rc dists nodes pred, cn, h => by
    obtain ⟨cs, pred', hcs, hp, rfl⟩ := newNode_ok h
    obtain ⟨h1, h2⟩ := test_verdict (id := id) (dc := dc) (score := score) (rc := rc) (dists := dists) (nodes := nodes) row hp
    rw [reached, evalLast, ← List.singleton_append]
    refine h1.bind fun r hr => ?_
    rw [h2 r hr]
    have ih := evalLastChildren_verdict hs nodes (newNodes_forall hcs)
    cases r with
    | f => exact .pure _
    | u =>
      rw [show goesOn s .u = true from hs, if_pos rfl, if_neg (by simp)]
      exact ih.map fun rs _ => by split_ifs <;> exact ⟨_, rfl⟩
    | t =>
      rw [show goesOn s .t = true from rfl, if_pos rfl, if_neg (by simp)]
      exact ih.map fun rs _ => by split_ifs <;> exact ⟨_, rfl⟩
theorem evalLastChildren_verdict (hs : Thorough s = true) : (ns : List (Node F)) → ∀ {cs},
    List.Forall₂ (fun n cn => newNode c.types n = .ok cn) ns cs →
    Verdict (reached.reacheds s (nodeTest c.types row) ns) (evalLastChildren c row cs)
  | [], _, h => by cases h; exact .pure _
  | n :: ns, _, h => by
    cases h with
    | cons h1 h2 =>
      rw [reached.reacheds, evalLastChildren]
      refine (evalLast_verdict hs n h1).bind fun r _ => ?_
      have : settles s (nodeTest c.types row n) = false := by
        rw [← Bool.not_eq_true]; intro h; rw [not_thorough_of_settles h] at hs; simp at hs
      rw [this, if_neg (by simp)]
      exact (evalLastChildren_verdict hs ns h2).map fun rs _ => ⟨_, rfl⟩
end

mutual
theorem evalDefault_verdict (hs : Thorough s = true) : (n : Node F) → ∀ {cn}, newNode c.types n = .ok cn →
    Verdict (reached s (nodeTest c.types row) n) (evalDefault c row cn)
  | .mk id dc score rc dists nodes pred, cn, h => by
    obtain ⟨cs, pred', hcs, hp, rfl⟩ := newNode_ok h
    obtain ⟨h1, h2⟩ := test_verdict (id := id) (dc := dc) (score := score) (rc := rc) (dists := dists) (nodes := nodes) row hp
    rw [reached, evalDefault, ← List.singleton_append]
    refine h1.bind fun r hr => ?_
    rw [h2 r hr]
    have ih := evalDefaultChildren_verdict hs nodes (newNodes_forall hcs)
    cases r with
    | f => exact .pure _
    | u =>
      rw [show goesOn s .u = true from hs, if_pos rfl, if_neg (by simp)]
      exact ih.map fun rs _ => by split_ifs <;> (try split) <;> exact ⟨_, rfl⟩
    | t =>
      rw [show goesOn s .t = true from rfl, if_pos rfl, if_neg (by simp)]
      exact ih.map fun rs _ => by split_ifs <;> (try split) <;> exact ⟨_, rfl⟩
theorem evalDefaultChildren_verdict (hs : Thorough s = true) : (ns : List (Node F)) → ∀ {cs},
    List.Forall₂ (fun n cn => newNode c.types n = .ok cn) ns cs →
    Verdict (reached.reacheds s (nodeTest c.types row) ns) (evalDefaultChildren c row cs)
  | [], _, h => by cases h; exact .pure _
  | n :: ns, _, h => by
    cases h with
    | cons h1 h2 =>
      rw [reached.reacheds, evalDefaultChildren]
      refine (evalDefault_verdict hs n h1).bind fun r _ => ?_
      have : settles s (nodeTest c.types row n) = false := by
        rw [← Bool.not_eq_true]; intro h; rw [not_thorough_of_settles h] at hs; simp at hs
      rw [this, if_neg (by simp)]
      exact (evalDefaultChildren_verdict hs ns h2).map fun rs _ => ⟨_, rfl⟩
end

mutual
theorem evalWeighted_verdict (hs : Thorough s = true) : (n : Node F) → ∀ {cn} (o : MapOrd), newNode c.types n = .ok cn →
    Verdict (reached s (nodeTest c.types row) n) (evalWeighted c row o cn)
  | .mk id dc score rc dists nodes pred, cn, o, h => by
    obtain ⟨cs, pred', hcs, hp, rfl⟩ := newNode_ok h
    obtain ⟨h1, h2⟩ := test_verdict (id := id) (dc := dc) (score := score) (rc := rc) (dists := dists) (nodes := nodes) row hp
    rw [reached, evalWeighted, ← List.singleton_append]
    refine h1.bind fun r hr => ?_
    rw [h2 r hr]
    have ih := evalWeightedChildren_verdict hs nodes o 2 (newNodes_forall hcs)
    cases r with
    | f => exact .pure _
    | u =>
      rw [show goesOn s .u = true from hs, if_pos rfl, if_neg (by simp)]
      exact ih.map fun rs _ => by split_ifs <;> exact ⟨_, rfl⟩
    | t =>
      rw [show goesOn s .t = true from rfl, if_pos rfl, if_neg (by simp)]
      exact ih.map fun rs _ => by split_ifs <;> exact ⟨_, rfl⟩
theorem evalWeightedChildren_verdict (hs : Thorough s = true) : (ns : List (Node F)) → ∀ {cs} (o : MapOrd) (i : Nat),
    List.Forall₂ (fun n cn => newNode c.types n = .ok cn) ns cs →
    Verdict (reached.reacheds s (nodeTest c.types row) ns) (evalWeightedChildren c row o i cs)
  | [], _, _, _, h => by cases h; exact .pure _
  | n :: ns, _, o, i, h => by
    cases h with
    | cons h1 h2 =>
      rw [reached.reacheds, evalWeightedChildren]
      refine (evalWeighted_verdict hs n (o.at_ i) h1).bind fun r _ => ?_
      have : settles s (nodeTest c.types row n) = false := by
        rw [← Bool.not_eq_true]; intro h; rw [not_thorough_of_settles h] at hs; simp at hs
      rw [this, if_neg (by simp)]
      exact (evalWeightedChildren_verdict hs ns o (i + 1) h2).map fun rs _ => ⟨_, rfl⟩
end

mutual
theorem evalAggregate_verdict (hs : Thorough s = true) : (n : Node F) → ∀ {cn} (o : MapOrd), newNode c.types n = .ok cn →
    Verdict (reached s (nodeTest c.types row) n) (evalAggregate c row o cn)
  | .mk id dc score rc dists nodes pred, cn, o, h => by
    obtain ⟨cs, pred', hcs, hp, rfl⟩ := newNode_ok h
    obtain ⟨h1, h2⟩ := test_verdict (id := id) (dc := dc) (score := score) (rc := rc) (dists := dists) (nodes := nodes) row hp
    rw [reached, evalAggregate, ← List.singleton_append]
    refine h1.bind fun r hr => ?_
    rw [h2 r hr]
    have ih := evalAggregateChildren_verdict hs nodes o 1 (newNodes_forall hcs)
    cases r with
    | f => exact .pure _
    | u =>
      rw [show goesOn s .u = true from hs, if_pos rfl, if_neg (by simp)]
      exact ih.map fun rs _ => by split_ifs <;> exact ⟨_, rfl⟩
    | t =>
      rw [show goesOn s .t = true from rfl, if_pos rfl, if_neg (by simp)]
      exact ih.map fun rs _ => by split_ifs <;> exact ⟨_, rfl⟩
theorem evalAggregateChildren_verdict (hs : Thorough s = true) : (ns : List (Node F)) → ∀ {cs} (o : MapOrd) (i : Nat),
    List.Forall₂ (fun n cn => newNode c.types n = .ok cn) ns cs →
    Verdict (reached.reacheds s (nodeTest c.types row) ns) (evalAggregateChildren c row o i cs)
  | [], _, _, _, h => by cases h; exact .pure _
  | n :: ns, _, o, i, h => by
    cases h with
    | cons h1 h2 =>
      rw [reached.reacheds, evalAggregateChildren]
      refine (evalAggregate_verdict hs n (o.at_ i) h1).bind fun r _ => ?_
      have : settles s (nodeTest c.types row n) = false := by
        rw [← Bool.not_eq_true]; intro h; rw [not_thorough_of_settles h] at hs; simp at hs
      rw [this, if_neg (by simp)]
      exact (evalAggregateChildren_verdict hs ns o (i + 1) h2).map fun rs _ => ⟨_, rfl⟩
end

theorem evalNone_not_true (n : CNode F) {v : PredRes} (h : runTest c.types n.pred row = .ok v) (hv : v ≠ .t) {r : NodeRes F}
    (hr : evalNone c row n = .ok r) : r.2 ≠ .t := by
  obtain ⟨id, dc, sd, sc, p, cs⟩ := n
  change runTest c.types p row = _ at h
  rw [evalNone, h] at hr
  cases v with
  | t => exact absurd rfl hv
  | f => cases hr; simp
  | u => cases hr; simp

theorem evalNull_false (n : CNode F) (h : runTest c.types n.pred row = .ok .f) {r : NodeRes F}
    (hr : evalNull c row n = .ok r) : r.2 = .f := by
  obtain ⟨id, dc, sd, sc, p, cs⟩ := n
  change runTest c.types p row = _ at h
  rw [evalNull, h] at hr
  cases hr; rfl

mutual
theorem evalNone_verdict (hs : Thorough s = false) (hs' : s ≠ .nullPrediction) : (n : Node F) → ∀ {cn},
    newNode c.types n = .ok cn → Verdict (reached s (nodeTest c.types row) n) (evalNone c row cn)
  | .mk id dc score rc dists nodes pred, cn, h => by
    obtain ⟨cs, pred', hcs, hp, rfl⟩ := newNode_ok h
    obtain ⟨h1, h2⟩ := test_verdict (id := id) (dc := dc) (score := score) (rc := rc) (dists := dists) (nodes := nodes) row hp
    rw [reached, evalNone, ← List.singleton_append]
    refine h1.bind fun r hr => ?_
    rw [h2 r hr]
    have ih := evalNoneChildren_verdict hs hs' nodes (newNodes_forall hcs)
    cases r with
    | f => exact .pure _
    | u => rw [show goesOn s .u = false from hs, if_neg (by simp)]; exact .pure _
    | t =>
      rw [show goesOn s .t = true from rfl, if_pos rfl, if_neg (by simp)]
      exact ih.map fun rs _ => by cases rs <;> exact ⟨_, rfl⟩
theorem evalNoneChildren_verdict (hs : Thorough s = false) (hs' : s ≠ .nullPrediction) : (ns : List (Node F)) → ∀ {cs},
    List.Forall₂ (fun n cn => newNode c.types n = .ok cn) ns cs →
    Verdict (reached.reacheds s (nodeTest c.types row) ns) (evalNoneChildren c row cs)
  | [], _, h => by cases h; exact .pure _
  | n :: ns, _, h => by
    cases h with
    | cons h1 h2 =>
      rw [reached.reacheds, evalNoneChildren]
      refine (evalNone_verdict hs hs' n h1).bind fun r hr => ?_
      obtain ⟨v, hv⟩ := evalNone_test _ hr
      have hnv := node_test h1 row v hv
      rw [hnv]
      cases v with
      | t =>
        rw [if_pos (evalNone_true _ hv hr), show settles s .t = true by simp [settles, hs], if_pos rfl]
        exact .pure _
      | f =>
        rw [if_neg (evalNone_not_true _ hv (by simp) hr), show settles s .f = false from rfl, if_neg (by simp)]
        exact evalNoneChildren_verdict hs hs' ns h2
      | u =>
        rw [if_neg (evalNone_not_true _ hv (by simp) hr), show settles s .u = false by simp [settles, hs'], if_neg (by simp)]
        exact evalNoneChildren_verdict hs hs' ns h2
end

mutual
theorem evalNull_verdict (hs : s = .nullPrediction) : (n : Node F) → ∀ {cn},
    newNode c.types n = .ok cn → Verdict (reached s (nodeTest c.types row) n) (evalNull c row cn)
  | .mk id dc score rc dists nodes pred, cn, h => by
    obtain ⟨cs, pred', hcs, hp, rfl⟩ := newNode_ok h
    obtain ⟨h1, h2⟩ := test_verdict (id := id) (dc := dc) (score := score) (rc := rc) (dists := dists) (nodes := nodes) row hp
    rw [reached, evalNull, ← List.singleton_append]
    refine h1.bind fun r hr => ?_
    rw [h2 r hr]
    have ih := evalNullChildren_verdict hs nodes (newNodes_forall hcs)
    cases r with
    | f => exact .pure _
    | u => rw [show goesOn s .u = false by rw [hs]; rfl, if_neg (by simp)]; exact .pure _
    | t =>
      rw [show goesOn s .t = true from rfl, if_pos rfl, if_neg (by simp)]
      exact ih.map fun rs _ => by cases rs <;> exact ⟨_, rfl⟩
theorem evalNullChildren_verdict (hs : s = .nullPrediction) : (ns : List (Node F)) → ∀ {cs},
    List.Forall₂ (fun n cn => newNode c.types n = .ok cn) ns cs →
    Verdict (reached.reacheds s (nodeTest c.types row) ns) (evalNullChildren c row cs)
  | [], _, h => by cases h; exact .pure _
  | n :: ns, _, h => by
    cases h with
    | cons h1 h2 =>
      rw [reached.reacheds, evalNullChildren]
      refine (evalNull_verdict hs n h1).bind fun r hr => ?_
      obtain ⟨v, hv⟩ := evalNull_test _ hr
      have hnv := node_test h1 row v hv
      rw [hnv]
      have hset : ∀ v, v ≠ .f → settles s v = true := by
        intro v hv; subst hs; cases v <;> first | rfl | exact absurd rfl hv
      by_cases hf : v = .f
      · subst hf
        rw [show settles s .f = false from rfl, if_neg (by simp), evalNull_false _ hv hr, if_neg (by simp), if_neg (by simp)]
        exact evalNullChildren_verdict hs ns h2
      · have := evalNull_settled _ hv hf hr
        rw [hset v hf, if_pos rfl]
        cases h : r.2 with
        | f => exact absurd h this
        | t => exact .pure _
        | u => exact .pure _
end

/-- A test is called only at the nodes reached, and at all of them. -/
theorem evalNode_verdict (o : MapOrd) {n : Node F} {cn : CNode F} (h : newNode c.types n = .ok cn) :
    Verdict (reached c.strategy (nodeTest c.types row) n) (evalNode c o row cn) := by
  unfold evalNode
  cases hs : c.strategy with
  | nullPrediction => exact evalNull_verdict rfl n h
  | aggregateNodes => exact evalAggregate_verdict rfl n o h
  | weightedConfidence => exact evalWeighted_verdict rfl n o h
  | defaultChild => exact evalDefault_verdict rfl n h
  | lastPrediction => exact evalLast_verdict rfl n h
  | none => exact evalNone_verdict rfl (by simp) n h
  | other t => exact evalNone_verdict rfl (by simp) n h

end Gopmml
