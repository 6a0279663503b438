import Verif.Spec.Rewrite
import Verif.Proofs.Counts
import Verif.Props.Construction

/-!
# Evaluation of rewritten trees
-/

namespace Gopmml
open Spec

variable {F : Type} [Arith F] [Lib F]

mutual
/-- Compiled nodes as related by `Simpler`, for the rows in `R`. -/
inductive CSimpler (types : FieldTypes) (s : MissingValueStrategy) (nt : NoTrueChildStrategy) (R : Row F → Prop) :
    CNode F → CNode F → Prop
  | mk {id dc sd sc p p' cs cs'} : (∀ row, R row → runTest types p row = runTest types p' row) →
      CSimplers types s nt R dc cs cs' → (nt = .returnNullPrediction → (cs = [] ↔ cs' = [])) →
      CSimpler types s nt R (.mk id dc sd sc p cs) (.mk id dc sd sc p' cs')
inductive CSimplers (types : FieldTypes) (s : MissingValueStrategy) (nt : NoTrueChildStrategy) (R : Row F → Prop) :
    String → List (CNode F) → List (CNode F) → Prop
  | nil {dc} : CSimplers types s nt R dc [] []
  | cons {dc n n' ns ns'} : CSimpler types s nt R n n' → CSimplers types s nt R dc ns ns' →
      CSimplers types s nt R dc (n :: ns) (n' :: ns')
  /-- A child that makes no difference may be missing. -/
  | drop {dc id dc' sd sc p cs ns ns'} :
      (∀ row, R row → ∃ v, runTest types p row = .ok v ∧ skips s dc id v = true) →
      CSimplers types s nt R dc ns ns' → CSimplers types s nt R dc (.mk id dc' sd sc p cs :: ns) ns'
  /-- What comes after a child that settles the answer may be missing. -/
  | stop {dc id dc' sd sc p cs n' ns} : CSimpler types s nt R (.mk id dc' sd sc p cs) n' →
      (∀ row, R row → ∃ v, runTest types p row = .ok v ∧ settles s v = true) →
      CSimplers types s nt R dc (.mk id dc' sd sc p cs :: ns) [n']
end

theorem skips_false {s : MissingValueStrategy} {dc id : String} (h1 : s ≠ .weightedConfidence)
    (h2 : s ≠ .aggregateNodes) (h3 : s = .defaultChild → id ≠ dc) : skips s dc id .f = true := by
  cases s <;> simp_all [skips]

variable {types : FieldTypes} {s : MissingValueStrategy} {nt : NoTrueChildStrategy} {R : Row F → Prop}

theorem compileTest_ok {p : Option (Pred F)} {types : FieldTypes} {id dc score : String} {rc : F}
    {dists : List (ScoreDistribution F)} {nodes : List (Node F)} {cs : List (CNode F)} {pred' : Option (Pred F)}
    (hn : newNodes types nodes = .ok cs)
    (hp : match p with
      | none => pred' = none
      | some p => ∃ p', compilePredicate types p = .ok p' ∧ pred' = some p') :
    newNode types (.mk id dc score rc dists nodes p) =
      .ok (.mk id dc (declaredDist dists) ⟨score, Arith.zero, Arith.zero, rc⟩ pred' cs) := by
  rw [newNode, hn]
  cases p with
  | none => simp only at hp; subst hp; simp [compileDists_eq]
  | some p => obtain ⟨p', hp, rfl⟩ := hp; simp [compileDists_eq, hp]

mutual
theorem newNode_simpler : (n : Node F) → ∀ {n'} {c : CNode F}, Simpler s nt n n' → newNode types n = .ok c →
    ∃ c', newNode types n' = .ok c' ∧ CSimpler types s nt R c c'
  | .mk id dc score rc ds ns p, n', c, h, hc => by
    cases h with
    | @mk _ _ _ _ _ _ ns' _ p' hp hs hl =>
      obtain ⟨cs, q, hcs, hq, rfl⟩ := newNode_ok hc
      obtain ⟨cs', hcs', hr, hne⟩ := newNodes_simpler ns hs hcs
      have key : ∃ q', (match (motive := Option (Pred F) → Prop) p' with
          | none => q' = none
          | some p => ∃ p1, compilePredicate types p = .ok p1 ∧ q' = some p1) ∧
          ∀ row, R row → runTest types q row = runTest types q' row := by
        cases hp with
        | none => subst hq; exact ⟨none, rfl, fun _ _ => rfl⟩
        | @some p p' hp =>
          obtain ⟨q1, hq1, rfl⟩ := hq
          have hok : ∃ q2, compilePredicate types p' = .ok q2 := by
            rw [Props.compilePredicate_ok_iff]
            have := (Props.compilePredicate_ok_iff p).mp ⟨q1, hq1⟩
            exact fun s hs => this s (hp.leaves hs)
          obtain ⟨q2, hq2⟩ := hok
          exact ⟨some q2, ⟨q2, hq2, rfl⟩, fun row _ => by rw [runTest_spec row hq1, runTest_spec row hq2, hp.value]⟩
      obtain ⟨q', hq', ht⟩ := key
      exact ⟨_, compileTest_ok hcs' hq', .mk ht hr fun h => by rw [← hne.1, ← hne.2]; exact hl h⟩
theorem newNodes_simpler : (ns : List (Node F)) → ∀ {dc ns'} {cs : List (CNode F)}, SimplerList s nt dc ns ns' →
    newNodes types ns = .ok cs →
    ∃ cs', newNodes types ns' = .ok cs' ∧ CSimplers types s nt R dc cs cs' ∧
      ((ns = [] ↔ cs = []) ∧ (ns' = [] ↔ cs' = []))
  | [], _, _, cs, h, hc => by
    cases h
    simp [newNodes] at hc
    subst hc
    exact ⟨[], by simp [newNodes], .nil, by simp, by simp⟩
  | n :: ns, dc, ns', cs, h, hc => by
    rw [newNodes] at hc
    simp only [bind_eq_ok] at hc
    obtain ⟨c1, h1, cs1, h2, hc⟩ := hc
    simp at hc
    subst hc
    cases h with
    | @cons _ _ n' _ ns'' hn hns =>
      obtain ⟨c', hc', hr⟩ := newNode_simpler n hn h1
      obtain ⟨cs', hcs', hrs, -⟩ := newNodes_simpler ns hns h2
      exact ⟨c' :: cs', by simp [newNodes, hc', hcs'], .cons hr hrs, by simp, by simp⟩
    | @drop _ id dc' score rc ds cs p _ _ hd hs1 hs2 hid hns =>
      obtain ⟨cs', hcs', hrs, -, hne⟩ := newNodes_simpler ns hns h2
      obtain ⟨cs2, q, -, ⟨q1, hq1, rfl⟩, rfl⟩ := newNode_ok h1
      exact ⟨cs', hcs', .drop (fun row _ => ⟨.f, by rw [runTest_spec row hq1, hd], skips_false hs1 hs2 hid⟩) hrs, by simp, hne⟩
end

omit [Lib F] in
theorem outputScoreDist_of_parts {c : TreeCtx F} {n n' : CNode F} (h1 : n.scoreDist = n'.scoreDist)
    (h2 : n.score = n'.score)
    (hl : c.noTrueChild = .returnNullPrediction → (n.children = [] ↔ n'.children = [])) :
    outputScoreDist c n = outputScoreDist c n' := by
  unfold outputScoreDist
  rw [h1, h2, if_congr (and_congr_left fun h => not_congr (hl h)) rfl rfl]

omit [Lib F] in
theorem outputScoreDist_simpler {c : TreeCtx F} (hnt : c.noTrueChild = nt) {id dc sd sc} {p p' : Option (Pred F)}
    {cs cs' : List (CNode F)} (hl : nt = .returnNullPrediction → (cs = [] ↔ cs' = [])) :
    outputScoreDist c (.mk id dc sd sc p cs) = outputScoreDist c (.mk id dc sd sc p' cs') :=
  outputScoreDist_of_parts rfl rfl fun h => hl (hnt ▸ h)

theorem evalNoneChildren_some {c : TreeCtx F} {row : Row F} {cs : List (CNode F)} {r : NodeRes F}
    (h : evalNoneChildren c row cs = .ok (some r)) : r.2 = .t := by
  induction cs with
  | nil => simp [evalNoneChildren] at h
  | cons n cs ih =>
    rw [evalNoneChildren, bind_eq_ok] at h
    obtain ⟨a, -, h⟩ := h
    by_cases ha : a.2 = .t
    · rw [if_pos ha] at h
      simp at h
      exact h ▸ ha
    · rw [if_neg ha] at h
      exact ih h

theorem evalNullChildren_some {c : TreeCtx F} {row : Row F} {cs : List (CNode F)} {r : NodeRes F}
    (h : evalNullChildren c row cs = .ok (some r)) : r.2 ≠ .f := by
  induction cs with
  | nil => simp [evalNullChildren] at h
  | cons n cs ih =>
    rw [evalNullChildren, bind_eq_ok] at h
    obtain ⟨a, -, h⟩ := h
    by_cases ha : a.2 = .t
    · rw [if_pos ha] at h
      simp at h
      rw [← h, ha]; simp
    · rw [if_neg ha] at h
      by_cases hb : a.2 = .u
      · rw [if_pos hb] at h
        simp at h
        rw [← h, hb]; simp
      · rw [if_neg hb] at h
        exact ih h

/-- Under none a child with a true test ends the loop. -/
theorem evalNoneChildren_stop {c : TreeCtx F} {row : Row F} {id dc sd sc p} {cs ns : List (CNode F)}
    (h : runTest c.types p row = .ok .t) :
    evalNoneChildren c row (.mk id dc sd sc p cs :: ns) = evalNoneChildren c row [.mk id dc sd sc p cs] := by
  rw [evalNoneChildren, evalNoneChildren, evalNone, h]
  cases hc : evalNoneChildren c row cs with
  | error e => rfl
  | ok r =>
    cases r with
    | none => rfl
    | some r => simp [evalNoneChildren_some hc]

/-- Under nullPrediction a child with a true or unknown test ends the loop. -/
theorem evalNullChildren_stop {c : TreeCtx F} {row : Row F} {id dc sd sc p} {cs ns : List (CNode F)} {v : PredRes}
    (h : runTest c.types p row = .ok v) (hv : v ≠ .f) :
    evalNullChildren c row (.mk id dc sd sc p cs :: ns) = evalNullChildren c row [.mk id dc sd sc p cs] := by
  rw [evalNullChildren, evalNullChildren, evalNull, h]
  cases v with
  | f => exact absurd rfl hv
  | u => rfl
  | t =>
    cases hc : evalNullChildren c row cs with
    | error e => rfl
    | ok r =>
      cases r with
      | none => rfl
      | some r =>
        have := evalNullChildren_some hc
        obtain ⟨d, v⟩ := r
        cases v <;> simp at this ⊢

mutual
theorem evalNone_simpler {c : TreeCtx F} (hty : c.types = types) (hnt : c.noTrueChild = nt)
    (hs : s ≠ .nullPrediction) {row : Row F} (hR : R row) :
    (n : CNode F) → ∀ {n'}, CSimpler types s nt R n n' → evalNone c row n = evalNone c row n'
  | .mk id dc sd sc p cs, n', h => by
    cases h with
    | mk ht h2 hl =>
      rw [evalNone, evalNone, hty, ht _ hR, evalNoneChildren_simpler hty hnt hs hR cs h2, outputScoreDist_simpler hnt hl]
theorem evalNoneChildren_simpler {c : TreeCtx F} (hty : c.types = types) (hnt : c.noTrueChild = nt)
    (hs : s ≠ .nullPrediction) {row : Row F} (hR : R row) :
    (cs : List (CNode F)) → ∀ {dc cs'}, CSimplers types s nt R dc cs cs' →
    evalNoneChildren c row cs = evalNoneChildren c row cs'
  | [], _, _, h => by cases h; rfl
  | n :: cs, _, _, h => by
    cases h with
    | cons h1 h2 =>
      rw [evalNoneChildren, evalNoneChildren, evalNone_simpler hty hnt hs hR n h1, evalNoneChildren_simpler hty hnt hs hR cs h2]
    | drop hd h2 =>
      obtain ⟨v, hv, hd⟩ := hd _ hR
      have hf : v = .f ∨ v = .u := by cases v <;> simp_all [skips]
      rw [evalNoneChildren, evalNone, hty, hv, evalNoneChildren_simpler hty hnt hs hR cs h2]
      simp [hf]
    | stop h1 ht =>
      obtain ⟨v, hv, ht⟩ := ht _ hR
      have hf : v = .t := by cases v <;> simp_all [settles]
      rw [evalNoneChildren_stop (by rw [hty, hv, hf])]
      rw [evalNoneChildren, evalNoneChildren, evalNone_simpler hty hnt hs hR _ h1]
      rfl
end

mutual
theorem evalNull_simpler {c : TreeCtx F} (hty : c.types = types) (hnt : c.noTrueChild = nt)
    (hs : s = .nullPrediction) {row : Row F} (hR : R row) :
    (n : CNode F) → ∀ {n'}, CSimpler types s nt R n n' → evalNull c row n = evalNull c row n'
  | .mk id dc sd sc p cs, n', h => by
    cases h with
    | mk ht h2 hl =>
      rw [evalNull, evalNull, hty, ht _ hR, evalNullChildren_simpler hty hnt hs hR cs h2, outputScoreDist_simpler hnt hl]
theorem evalNullChildren_simpler {c : TreeCtx F} (hty : c.types = types) (hnt : c.noTrueChild = nt)
    (hs : s = .nullPrediction) {row : Row F} (hR : R row) :
    (cs : List (CNode F)) → ∀ {dc cs'}, CSimplers types s nt R dc cs cs' →
    evalNullChildren c row cs = evalNullChildren c row cs'
  | [], _, _, h => by cases h; rfl
  | n :: cs, _, _, h => by
    cases h with
    | cons h1 h2 =>
      rw [evalNullChildren, evalNullChildren, evalNull_simpler hty hnt hs hR n h1, evalNullChildren_simpler hty hnt hs hR cs h2]
    | drop hd h2 =>
      obtain ⟨v, hv, hd⟩ := hd _ hR
      have hf : v = .f := by cases v <;> simp_all [skips]
      rw [evalNullChildren, evalNull, hty, hv, evalNullChildren_simpler hty hnt hs hR cs h2]
      simp [hf]
    | stop h1 ht =>
      obtain ⟨v, hv, ht⟩ := ht _ hR
      rw [evalNullChildren_stop (by rw [hty, hv]) (by cases v <;> simp_all [settles])]
      rw [evalNullChildren, evalNullChildren, evalNull_simpler hty hnt hs hR _ h1]
      rfl
end

/-- The results that are not false. -/
def notFalse (rs : List (NodeRes F)) : List (NodeRes F) := rs.filter fun r => r.2 ≠ .f

omit [Arith F] [Lib F] in
theorem unknownValues_notFalse (rs : List (NodeRes F)) : unknownValues rs = unknownValues (notFalse rs) := by
  unfold unknownValues notFalse
  induction rs with
  | nil => rfl
  | cons r rs ih =>
    obtain ⟨d, v⟩ := r
    cases v <;> simp [ih]

omit [Arith F] [Lib F] in
theorem trueDist_notFalse (rs : List (NodeRes F)) : trueDist rs = trueDist (notFalse rs) := by
  unfold trueDist notFalse
  generalize ([] : List (ScoreDist F)) = acc
  induction rs generalizing acc with
  | nil => rfl
  | cons r rs ih =>
    obtain ⟨d, v⟩ := r
    cases v <;> simp [ih]

mutual
theorem evalLast_simpler {c : TreeCtx F} (hty : c.types = types) (hnt : c.noTrueChild = nt)
    (hs : s = .lastPrediction) {row : Row F} (hR : R row) :
    (n : CNode F) → ∀ {n'}, CSimpler types s nt R n n' → evalLast c row n = evalLast c row n'
  | .mk id dc sd sc p cs, n', h => by
    cases h with
    | @mk _ _ _ _ _ p' _ cs' ht h2 hl =>
      rw [evalLast, evalLast, hty, ht _ hR, outputScoreDist_simpler hnt hl]
      cases runTest types p' row with
      | error e => rfl
      | ok r =>
        simp only [res_bind_ok]
        split_ifs
        · rfl
        · have := evalLastChildren_simpler hty hnt hs hR cs h2
          revert this
          generalize evalLastChildren c row cs = x
          generalize evalLastChildren c row cs' = y
          intro this
          cases this with
          | error e => rfl
          | ok h =>
            simp only [res_bind_ok]
            rw [unknownValues_notFalse, trueDist_notFalse, h, ← unknownValues_notFalse, ← trueDist_notFalse]
theorem evalLastChildren_simpler {c : TreeCtx F} (hty : c.types = types) (hnt : c.noTrueChild = nt)
    (hs : s = .lastPrediction) {row : Row F} (hR : R row) :
    (cs : List (CNode F)) → ∀ {dc cs'}, CSimplers types s nt R dc cs cs' →
    ResRel (fun rs rs' => notFalse rs = notFalse rs') (evalLastChildren c row cs) (evalLastChildren c row cs')
  | [], _, _, h => by cases h; exact .ok rfl
  | n :: cs, _, _, h => by
    cases h with
    | cons h1 h2 =>
      rw [evalLastChildren, evalLastChildren, evalLast_simpler hty hnt hs hR n h1]
      refine (ResRel.of_eq rfl).bind fun r r' hr => ?_
      subst hr
      refine (evalLastChildren_simpler hty hnt hs hR cs h2).bind fun rs rs' h => .ok ?_
      simp [notFalse, List.filter_cons] at h ⊢
      rw [h]
    | drop hd h2 =>
      obtain ⟨v, hv, hd⟩ := hd _ hR
      have hf : v = .f := by cases v <;> simp_all [skips]
      subst hf
      rw [evalLastChildren, evalLast, hty, hv]
      have := evalLastChildren_simpler hty hnt hs hR cs h2
      revert this
      generalize evalLastChildren c row cs = x
      generalize evalLastChildren c row _ = y
      intro this
      cases this with
      | error e => exact .error e
      | ok h => exact .ok (by simpa [notFalse, List.filter_cons] using h)
    | stop _ hf =>
      obtain ⟨v, -, hf⟩ := hf _ hR
      cases v <;> simp [settles, Thorough, hs] at hf
end

mutual
theorem evalDefault_simpler {c : TreeCtx F} (hty : c.types = types) (hnt : c.noTrueChild = nt)
    (hs : s = .defaultChild) {row : Row F} (hR : R row) :
    (n : CNode F) → ∀ {n'}, CSimpler types s nt R n n' → evalDefault c row n = evalDefault c row n'
  | .mk id dc sd sc p cs, n', h => by
    cases h with
    | @mk _ _ _ _ _ p' _ cs' ht h2 hl =>
      rw [evalDefault, evalDefault, hty, ht _ hR, outputScoreDist_simpler hnt hl]
      cases runTest types p' row with
      | error e => rfl
      | ok r =>
        simp only [res_bind_ok]
        split_ifs
        · rfl
        · have := evalDefaultChildren_simpler hty hnt hs hR cs h2
          revert this
          generalize evalDefaultChildren c row cs = x
          generalize evalDefaultChildren c row cs' = y
          intro this
          cases this with
          | error e => rfl
          | ok h =>
            simp only [res_bind_ok]
            have h' : (childScores cs _)[dc]? = (childScores cs' _)[dc]? := h.2 ∅ ∅ rfl
            rw [unknownValues_notFalse, trueDist_notFalse, h.1, ← unknownValues_notFalse, ← trueDist_notFalse, h']
theorem evalDefaultChildren_simpler {c : TreeCtx F} (hty : c.types = types) (hnt : c.noTrueChild = nt)
    (hs : s = .defaultChild) {row : Row F} (hR : R row) :
    (cs : List (CNode F)) → ∀ {dc cs'}, CSimplers types s nt R dc cs cs' →
    ResRel (fun rs rs' => notFalse rs = notFalse rs' ∧ ∀ m m' : GoMap (List (ScoreDist F)), m[dc]? = m'[dc]? →
        ((cs.zip rs).foldl (fun m p => m.insert p.1.id p.2.1) m)[dc]? =
        ((cs'.zip rs').foldl (fun m p => m.insert p.1.id p.2.1) m')[dc]?)
      (evalDefaultChildren c row cs) (evalDefaultChildren c row cs')
  | [], _, _, h => by cases h; exact .ok ⟨rfl, fun _ _ h => h⟩
  | n :: cs, dc, _, h => by
    cases h with
    | @cons _ _ n' _ _ h1 h2 =>
      rw [evalDefaultChildren, evalDefaultChildren, evalDefault_simpler hty hnt hs hR n h1]
      refine (ResRel.of_eq rfl).bind fun r r' hr => ?_
      subst hr
      refine (evalDefaultChildren_simpler hty hnt hs hR cs h2).bind fun rs rs' h => .ok ⟨?_, ?_⟩
      · have := h.1
        simp [notFalse, List.filter_cons] at this ⊢
        rw [this]
      · intro m m' hm
        have hid : n.id = n'.id := by cases h1; rfl
        simp only [List.zip_cons_cons, List.foldl_cons]
        refine h.2 _ _ ?_
        rw [GoMap.getElem?_insert, GoMap.getElem?_insert, hid, hm]
    | drop hd h2 =>
      obtain ⟨v, hv, hd⟩ := hd _ hR
      have hf : v = .f := by cases v <;> simp_all [skips]
      subst hf
      rw [evalDefaultChildren, evalDefault, hty, hv]
      have := evalDefaultChildren_simpler hty hnt hs hR cs h2
      revert this
      generalize evalDefaultChildren c row cs = x
      generalize evalDefaultChildren c row _ = y
      intro this
      cases this with
      | error e => exact .error e
      | ok h =>
        refine .ok ⟨by simpa [notFalse, List.filter_cons] using h.1, ?_⟩
        intro m m' hm
        simp only [List.zip_cons_cons, List.foldl_cons]
        refine h.2 _ _ ?_
        rw [GoMap.getElem?_insert, if_neg, hm]
        have h3 := hd
        simp only [skips, hs, bne_iff_ne, ne_eq] at h3
        exact h3
    | stop _ hf =>
      obtain ⟨v, -, hf⟩ := hf _ hR
      cases v <;> simp [settles, Thorough, hs] at hf
end

omit [Arith F] [Lib F] in
/-- What the weighted aggregation reads from a child. -/
def liveParts (live : List (CNode F × NodeRes F)) : List (String × ScoreDist F × NodeRes F) :=
  live.map fun p => (p.1.id, p.1.score, p.2)

omit [Lib F] in
theorem weightedAgg_parts {o : MapOrd} {l l' : List (CNode F × NodeRes F)} (h : liveParts l = liveParts l') :
    weightedAgg o l = weightedAgg o l' := by
  have e1 : ∀ l : List (CNode F × NodeRes F), liveScores l =
      (liveParts l).foldl (fun (m : GoMap (List (ScoreDist F))) p => m.insert p.1 p.2.2.1) ∅ := fun l => by
    rw [liveParts, List.foldl_map]; rfl
  have e2 : ∀ l : List (CNode F × NodeRes F), childRecordCounts l =
      (liveParts l).foldl (fun (m : GoMap F) p => m.insert p.1 p.2.1.recordCount) ∅ := fun l => by
    rw [liveParts, List.foldl_map]; rfl
  have e3 : ∀ l : List (CNode F × NodeRes F), totalRecordCount l =
      (liveParts l).foldl (fun t p => Arith.add t p.2.1.recordCount) Arith.zero := fun l => by
    rw [liveParts, List.foldl_map]; rfl
  unfold weightedAgg
  rw [e1, e2, e3, h, ← e1, ← e2, ← e3]

theorem res_bind_congr {α β : Type} (x : Res α) {f g : α → Res β} (h : ∀ a, f a = g a) : x >>= f = x >>= g := by
  cases x with
  | error e => rfl
  | ok a => exact h a

mutual
theorem evalWeighted_simpler {c : TreeCtx F} (hty : c.types = types) (hnt : c.noTrueChild = nt)
    (hs : s = .weightedConfidence) {row : Row F} (hR : R row) :
    (n : CNode F) → ∀ {n'} (o : MapOrd), CSimpler types s nt R n n' →
      evalWeighted c row o n = evalWeighted c row o n'
  | .mk id dc sd sc p cs, n', o, h => by
    cases h with
    | @mk _ _ _ _ _ p' _ cs' ht h2 hl =>
      have he := evalWeightedChildren_simpler hty hnt hs hR cs o 2 h2
      have ho := outputScoreDist_simpler hnt (c := c) (id := id) (dc := dc) (sd := sd) (sc := sc) (p := p) (p' := p') hl
      rw [evalWeighted, evalWeighted, hty, ht _ hR]
      refine res_bind_congr _ fun r => ?_
      by_cases hr : r = .f
      · rw [if_pos hr, if_pos hr]
      · rw [if_neg hr, if_neg hr, he.1]
        refine res_bind_congr _ fun rs => ?_
        rw [weightedAgg_parts (he.2 rs), ho]
theorem evalWeightedChildren_simpler {c : TreeCtx F} (hty : c.types = types) (hnt : c.noTrueChild = nt)
    (hs : s = .weightedConfidence) {row : Row F} (hR : R row) :
    (cs : List (CNode F)) → ∀ {dc cs'} (o : MapOrd) (i : Nat), CSimplers types s nt R dc cs cs' →
    evalWeightedChildren c row o i cs = evalWeightedChildren c row o i cs' ∧
      ∀ rs, liveParts (liveChildren cs rs) = liveParts (liveChildren cs' rs)
  | [], _, _, _, _, h => by cases h; exact ⟨rfl, fun _ => rfl⟩
  | n :: cs, _, _, o, i, h => by
    cases h with
    | @cons _ _ n' _ _ h1 h2 =>
      obtain ⟨e1, e2⟩ := evalWeightedChildren_simpler hty hnt hs hR cs o (i + 1) h2
      refine ⟨by rw [evalWeightedChildren, evalWeightedChildren, evalWeighted_simpler hty hnt hs hR n _ h1, e1], ?_⟩
      intro rs
      have hp : n.id = n'.id ∧ n.score = n'.score := by cases h1; exact ⟨rfl, rfl⟩
      cases rs with
      | nil => rfl
      | cons r rs =>
        have := e2 rs
        simp only [liveParts, liveChildren, List.zip_cons_cons, List.filter_cons] at this ⊢
        split_ifs
        · simp only [List.map_cons, this, hp]
        · exact this
    | drop hd _ =>
      obtain ⟨v, -, hd⟩ := hd _ hR
      cases v <;> simp [skips, hs] at hd
    | stop _ hf =>
      obtain ⟨v, -, hf⟩ := hf _ hR
      cases v <;> simp [settles, Thorough, hs] at hf
end

mutual
theorem evalAggregate_simpler {c : TreeCtx F} (hty : c.types = types) (hnt : c.noTrueChild = nt)
    (hs : s = .aggregateNodes) {row : Row F} (hR : R row) :
    (n : CNode F) → ∀ {n'} (o : MapOrd), CSimpler types s nt R n n' →
      evalAggregate c row o n = evalAggregate c row o n'
  | .mk id dc sd sc p cs, n', o, h => by
    cases h with
    | @mk _ _ _ _ _ p' _ cs' ht h2 hl =>
      rw [evalAggregate, evalAggregate, hty, ht _ hR, outputScoreDist_simpler hnt hl,
        evalAggregateChildren_simpler hty hnt hs hR cs o 1 h2]
theorem evalAggregateChildren_simpler {c : TreeCtx F} (hty : c.types = types) (hnt : c.noTrueChild = nt)
    (hs : s = .aggregateNodes) {row : Row F} (hR : R row) :
    (cs : List (CNode F)) → ∀ {dc cs'} (o : MapOrd) (i : Nat), CSimplers types s nt R dc cs cs' →
    evalAggregateChildren c row o i cs = evalAggregateChildren c row o i cs'
  | [], _, _, _, _, h => by cases h; rfl
  | n :: cs, _, _, o, i, h => by
    cases h with
    | cons h1 h2 =>
      rw [evalAggregateChildren, evalAggregateChildren, evalAggregate_simpler hty hnt hs hR n _ h1,
        evalAggregateChildren_simpler hty hnt hs hR cs o (i + 1) h2]
    | drop hd _ =>
      obtain ⟨v, -, hd⟩ := hd _ hR
      cases v <;> simp [skips, hs] at hd
    | stop _ hf =>
      obtain ⟨v, -, hf⟩ := hf _ hR
      cases v <;> simp [settles, Thorough, hs] at hf
end

/-- A simplified tree answers as the tree. -/
theorem evalNode_simpler {c : TreeCtx F} {o : MapOrd} {row : Row F} (hR : R row) {n n' : CNode F}
    (h : CSimpler c.types c.strategy c.noTrueChild R n n') : evalNode c o row n = evalNode c o row n' := by
  unfold evalNode
  cases hc : c.strategy with
  | nullPrediction => exact evalNull_simpler rfl rfl hc hR n h
  | aggregateNodes => exact evalAggregate_simpler rfl rfl hc hR n o h
  | weightedConfidence => exact evalWeighted_simpler rfl rfl hc hR n o h
  | defaultChild => exact evalDefault_simpler rfl rfl hc hR n h
  | lastPrediction => exact evalLast_simpler rfl rfl hc hR n h
  | none => exact evalNone_simpler rfl rfl (by simp [hc]) hR n h
  | other _ => exact evalNone_simpler rfl rfl (by simp [hc]) hR n h

end Gopmml
