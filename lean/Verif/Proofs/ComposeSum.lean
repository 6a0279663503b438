import Verif.Proofs.Compose

/-!
# Sums inside sums
-/

namespace Gopmml

open Spec

variable {F : Type} [Arith F] [Lib F] [Trans F]

/-- Every run of the segments that is allowed happens in some order. -/
theorem segsRun_order {ms : List (EModel F)} {row row' : Row F} {r : Res (List (Out F))}
    (h : SegsRun ms row r row') : ∀ fn i (sm : GoMap F), ∃ f : Nat → MapOrd, ∀ o : MapOrd,
      (∀ j, 2 * i ≤ j → o.at_ j = f j) → (sumSegments o fn i sm ms row).row = row' ∧
      (∀ e, r = .error e → (sumSegments o fn i sm ms row).res = .error e) ∧
      ∀ outs, r = .ok outs → ∃ sm', (sumSegments o fn i sm ms row).res = .ok sm' ∧
        ∀ k, sm'[k]? = (sm[k]?).map (fun x => (outs.filterMap (contribution fn k)).foldl Arith.add x) := by
  induction h with
  | nil =>
    intro fn i sm
    refine ⟨fun _ => .sorted, fun o _ => ⟨by simp only [sumSegments], by simp, ?_⟩⟩
    rintro outs ⟨⟩
    exact ⟨sm, by simp only [sumSegments], by simp⟩
  | @fail m ms row o1 e he =>
    intro fn i sm
    refine ⟨fun _ => o1, fun o ho => ?_⟩
    simp only [sumSegments]
    rw [ho _ (Nat.le_refl _), he]
    exact ⟨rfl, by rintro _ ⟨⟩; rfl, by simp⟩
  | @cons m ms row o1 out r row' he _ ih =>
    intro fn i sm
    obtain ⟨f, hf⟩ := ih fn (i + 1) (((MapOrd.sorted).range sm).foldl (addScore fn out) sm)
    refine ⟨fun j => if j = 2 * i then o1 else if j = 2 * i + 1 then .sorted else f j, fun o ho => ?_⟩
    have e1 : o.at_ (2 * i) = o1 := (ho _ (Nat.le_refl _)).trans (if_pos rfl)
    have e2 : o.at_ (2 * i + 1) = .sorted := by
      rw [ho _ (by omega)]; simp only; rw [if_neg (by omega), if_pos trivial]
    have e3 : ∀ j, 2 * (i + 1) ≤ j → o.at_ j = f j := fun j hj => by
      rw [ho _ (by omega)]; simp only; rw [if_neg (by omega), if_neg (by omega)]
    simp only [sumSegments]
    rw [e1, e2, he]
    obtain ⟨h1, h2, h3⟩ := hf o e3
    refine ⟨h1, ?_, ?_⟩
    · intro e hr
      cases r with
      | error e' => simp [Except.map] at hr; subst hr; exact h2 _ rfl
      | ok outs => simp [Except.map] at hr
    · intro outs hr
      cases r with
      | error e' => simp [Except.map] at hr
      | ok outs' =>
        simp [Except.map] at hr
        subst hr
        obtain ⟨sm', hs, hk⟩ := h3 outs' rfl
        refine ⟨sm', hs, fun k => ?_⟩
        rw [hk, addScore_getElem?, Option.map_map]
        congr 1
        funext x
        simp only [Function.comp, List.filterMap_cons]
        cases contribution fn k out <;> rfl

/-- What an ensemble makes of the outputs of its segments. -/
def SumAnswer (h : MiningHead F) (q : Res (List (Out F))) (r : Res (Out F)) : Prop :=
  (∀ e, q = .error e → r = .error e) ∧
  ∀ outs, q = .ok outs → ∃ out, r = .ok (some out) ∧
    ∀ k, out[k]? = if k ∈ ensembleKeys h then some (.f64 (ensembleSum h outs k)) else none

omit [Trans F] in
theorem sumAnswer_unique {h : MiningHead F} {q : Res (List (Out F))} {r r' : Res (Out F)} (h1 : SumAnswer h q r)
    (h2 : SumAnswer h q r') : r = r' := by
  cases q with
  | error e => rw [h1.1 e rfl, h2.1 e rfl]
  | ok outs =>
    obtain ⟨a, rfl, ha⟩ := h1.2 outs rfl
    obtain ⟨b, rfl, hb⟩ := h2.2 outs rfl
    have : a = b := Std.ExtTreeMap.ext_getElem? fun k => (ha k).trans (hb k).symm
    rw [this]

/-- The map with the given entries. -/
theorem goMap_exists {V : Type} (ks : List String) (f : String → V) :
    ∃ out : GoMap V, ∀ k, out[k]? = if k ∈ ks then some (f k) else none := by
  induction ks with
  | nil => exact ⟨∅, by simp⟩
  | cons x ks ih =>
    obtain ⟨out, ho⟩ := ih
    refine ⟨out.insert x (f x), fun k => ?_⟩
    rw [Std.ExtTreeMap.getElem?_insert, ho]
    by_cases hx : x = k
    · subst hx; simp
    · have : ¬ k = x := fun h => hx h.symm
      simp [hx, this]

omit [Trans F] in
theorem sumAnswer_exists (h : MiningHead F) (outs : List (Out F)) : ∃ out : GoMap (GoVal F),
    ∀ k, out[k]? = if k ∈ ensembleKeys h then some (.f64 (ensembleSum h outs k)) else none :=
  goMap_exists _ _

/-- The answers of a sum. -/
theorem sum_answers {dd : List DataField} {h : MiningHead F} {segs : List (SegDoc F)} {td td' : TD F}
    {s : MiningState F} {ms : List (EModel F)} (hM : newModel dd (.mining h segs) td = (.ok (.mining s ms), td'))
    (hm : effectiveMethod h.method = .sum) {row row' : Row F} {r : Res (Out F)} :
    Answers (.mining s ms) row r row' ↔ (∃ e, Prepared h row (.error e) row' ∧ r = .error e) ∨
      ∃ row2 q, Prepared h row (.ok ()) row2 ∧ SegsRun ms row2 q row' ∧ SumAnswer h q r := by
  obtain ⟨s', ms', hEq, hms, hh, ho, ht, -, hev⟩ := constructed_mining hM
  simp only [EModel.mining.injEq] at hEq
  obtain ⟨rfl, rfl⟩ := hEq
  have hmeth : s.head.method = .sum := by rw [hh]; exact hm
  have hfn : s.head.functionName = h.functionName := by rw [hh]
  have hfin : ∀ (o : MapOrd) (outs : List (Out F)) (sm : GoMap F),
      (∀ k, sm[k]? = ((initScores s)[k]?).map
        (fun x => (outs.filterMap (contribution h.functionName k)).foldl Arith.add x)) →
      ∀ k, (sumFinish o s sm)[k]? =
        if k ∈ ensembleKeys h then some (.f64 (ensembleSum h outs k)) else none := by
    intro o outs sm hk k
    unfold sumFinish
    rw [scoresToRow_getElem?, rescale_getElem?, hk, initScores_getElem?, ho, ht]
    · unfold ensembleKeys
      split_ifs with hmem <;> simp [ensembleSum, Spec.sum]
    · intro t htm
      rw [hk, initScores_getElem?]
      have : t.field ∈ s.outputFields.map (·.name) ++ s.targets.map (·.field) := by
        simp only [List.mem_append, List.mem_map]
        exact .inr ⟨t, htm, rfl⟩
      simp [this]
  have hrun : ∀ o row, (runMethod o s ms row).row = (sumSegments (o.at_ 1) h.functionName 0 (initScores s) ms row).row ∧
      (runMethod o s ms row).res = (sumSegments (o.at_ 1) h.functionName 0 (initScores s) ms row).res.map
        fun sm => some (sumFinish (o.at_ 2) s sm) := by
    intro o row; unfold runMethod; rw [hmeth, hfn]; exact ⟨rfl, rfl⟩
  have hans : ∀ (o : MapOrd) row q, (∀ e, q = .error e →
        (sumSegments (o.at_ 1) h.functionName 0 (initScores s) ms row).res = .error e) →
      (∀ outs, q = .ok outs → ∃ sm', (sumSegments (o.at_ 1) h.functionName 0 (initScores s) ms row).res = .ok sm' ∧
        ∀ k, sm'[k]? = ((initScores s)[k]?).map
          (fun x => (outs.filterMap (contribution h.functionName k)).foldl Arith.add x)) →
      SumAnswer h q (runMethod o s ms row).res := by
    intro o row q h1 h2
    rw [(hrun o row).2]
    constructor
    · intro e hq; rw [h1 e hq]; rfl
    · intro outs hq
      obtain ⟨sm, hs, hk⟩ := h2 outs hq
      exact ⟨_, by rw [hs]; rfl, hfin _ _ _ hk⟩
  constructor
  · rintro ⟨o, rfl, rfl⟩
    rcases hev o row with ⟨e, row2, hp, he⟩ | ⟨row2, hp, he⟩
    · rw [he]; exact .inl ⟨e, hp, rfl⟩
    · rw [he]
      obtain ⟨q, row', h1, h2, h3, h4⟩ := sumSegments_run ms (o.at_ 1) h.functionName 0 (initScores s) row2
      exact .inr ⟨row2, q, hp, by rw [(hrun o row2).1, h2]; exact h1, hans o row2 q h3 h4⟩
  · rintro (⟨e, hp, rfl⟩ | ⟨row2, q, hp, hc, hr⟩)
    · refine ⟨.sorted, ?_⟩
      rcases hev .sorted row with ⟨e', row2, hp', he⟩ | ⟨row2, hp', he⟩
      · obtain ⟨h1, h2⟩ := prepared_unique hp hp'
        simp only [Except.error.injEq] at h1
        rw [he, ← h1, ← h2]; exact ⟨rfl, rfl⟩
      · have := (prepared_unique hp hp').1; simp at this
    · obtain ⟨f, hf⟩ := segsRun_order hc h.functionName 0 (initScores s)
      obtain ⟨h1, h2, h3⟩ := hf (.glue f) fun j _ => rfl
      refine ⟨.glue fun _ => .glue f, ?_⟩
      rcases hev (.glue fun _ => .glue f) row with ⟨e', row3, hp', -⟩ | ⟨row3, hp', he⟩
      · have := (prepared_unique hp hp').1; simp at this
      · obtain ⟨-, rfl⟩ := prepared_unique hp hp'
        rw [he]
        exact ⟨sumAnswer_unique (hans _ _ q h2 h3) hr, ((hrun _ _).1).trans h1⟩

theorem segsRun_append {X Y : List (EModel F)} {row row' : Row F} {r : Res (List (Out F))} :
    SegsRun (X ++ Y) row r row' ↔ (∃ e, SegsRun X row (.error e) row' ∧ r = .error e) ∨
      ∃ outs row1 q, SegsRun X row (.ok outs) row1 ∧ SegsRun Y row1 q row' ∧ r = q.map (outs ++ ·) := by
  induction X generalizing row r with
  | nil =>
    constructor
    · intro h
      refine .inr ⟨[], row, r, .nil, h, ?_⟩
      cases r <;> rfl
    · rintro (⟨e, h, -⟩ | ⟨outs, row1, q, h, hq, rfl⟩)
      · cases h
      · cases h
        have : q.map (([] : List (Out F)) ++ ·) = q := by cases q <;> rfl
        rw [this]; exact hq
  | cons x X ih =>
    constructor
    · intro h
      rw [List.cons_append] at h
      cases h with
      | fail he => exact .inl ⟨_, .fail he, rfl⟩
      | cons he hr =>
        rcases ih.mp hr with ⟨e, h1, rfl⟩ | ⟨outs, row1, q, h1, h2, rfl⟩
        · exact .inl ⟨e, .cons (r := .error e) he h1, rfl⟩
        · refine .inr ⟨_ :: outs, row1, q, .cons (r := .ok outs) he h1, h2, ?_⟩
          cases q <;> rfl
    · rintro (⟨e, h, rfl⟩ | ⟨outs, row1, q, h, hq, rfl⟩)
      · generalize hx : (Except.error e : Res (List (Out F))) = z at h
        cases h with
        | fail he => rw [List.cons_append]; cases hx; exact .fail he
        | @cons _ _ _ _ out r1 _ he hr =>
          cases r1 with
          | ok outs => cases hx
          | error e' =>
            cases hx
            rw [List.cons_append]
            exact .cons (r := .error e) he (ih.mpr (.inl ⟨_, hr, rfl⟩))
      · generalize hx : (Except.ok outs : Res (List (Out F))) = z at h
        cases h with
        | fail he => cases hx
        | @cons _ _ _ _ out r1 _ he hr =>
          cases r1 with
          | error e' => cases hx
          | ok outs' =>
            cases hx
            rw [List.cons_append]
            have := SegsRun.cons he (ih.mpr (.inr ⟨_, _, _, hr, hq, rfl⟩))
            have e1 : (q.map (outs' ++ ·)).map (out :: ·) = q.map ((out :: outs') ++ ·) := by cases q <;> rfl
            exact e1 ▸ this

end Gopmml
