import Verif.Proofs.Document
import Verif.Proofs.Answer
import Verif.Props.Expressions
import Verif.Props.Regression
import Verif.Model.Samples

/-!
# Property C59: when Evaluate panics
-/

namespace Gopmml
open Spec

variable {F : Type} [Arith F] [Lib F]

omit [Arith F] [Lib F] in
theorem error_panic {α : Type} {e : Fault} {p : Panic} : (Except.error e : Res α) = panic p ↔ e = .panic p := by
  simp

/-- Storing derived fields panics on nil rows only, and nil rows stay nil. -/
theorem handleInput_panic (dfs : List (DerivedField F)) : ∀ row : Row F,
    ((handleInput dfs row).2 = none ↔ row = none) ∧
    ∀ p, (handleInput dfs row).1 = panic p → row = none ∧ p = .nilMapWrite := by
  induction dfs with
  | nil => intro row; simp [handleInput]
  | cons df dfs ih =>
    intro row
    simp only [handleInput]
    rcases Props.C34_no_panic row df.expr with ⟨v, hv⟩ | ⟨e, he⟩
    · rw [hv]
      cases row with
      | none =>
        simp only [Row.set, true_and]
        exact fun p hp => by simpa using hp.symm
      | some r =>
        simp only [Row.set]
        obtain ⟨h1, h2⟩ := ih (some (r.insert df.name (storeValue df.opType v)))
        exact ⟨by simpa using h1, fun p hp => by simpa using (h2 p hp).1⟩
    · rw [he]; simp

/-- Panics of preparing the row. -/
theorem prepared_panic {h : MiningHead F} {row : Row F} {r : Res Unit} {row' : Row F}
    (hp : Prepared h row r row') :
    (row' = none ↔ row = none) ∧ ∀ p, r = panic p → row = none ∧ p = .nilMapWrite := by
  cases hp with
  | row hi he =>
    rename_i row0 row1
    have := handleInput_panic h.localTransformations (some row1)
    rw [he] at this
    exact ⟨by simpa using this.1, fun p hp => by simpa using (this.2 p hp).1⟩
  | nilRow hn he =>
    have := handleInput_panic h.localTransformations (none : Row F)
    rw [he] at this
    exact this
  | nilPanic hk => exact ⟨Iff.rfl, fun p hp => ⟨rfl, by simpa using hp.symm⟩⟩

variable [Trans F]

/-- On rows that are not nil, only the panics `Q` occur; nil rows stay nil, and on them the write
to a nil map may occur as well. -/
def PanicsIn (Q : Panic → Prop) (m : EModel F) : Prop :=
  ∀ o row, ((EModel.evaluate o m row).row = none ↔ row = none) ∧
    ∀ p, (EModel.evaluate o m row).res = panic p → Q p ∨ (row = none ∧ p = .nilMapWrite)

theorem sumSegments_panic {Q : Panic → Prop} (ms : List (EModel F)) (ih : ∀ m ∈ ms, PanicsIn Q m) :
    ∀ o fn i sm row, ((sumSegments o fn i sm ms row).row = none ↔ row = none) ∧
      ∀ p, (sumSegments o fn i sm ms row).res = panic p → Q p ∨ (row = none ∧ p = .nilMapWrite) := by
  induction ms with
  | nil => intro o fn i sm row; simp [sumSegments]
  | cons m ms ihs =>
    intro o fn i sm row
    simp only [sumSegments]
    obtain ⟨h1, h2⟩ := ih m (by simp) (o.at_ (2 * i)) row
    cases he : (EModel.evaluate (o.at_ (2 * i)) m row).res with
    | error e => exact ⟨h1, fun p hp => h2 p (by rw [he, error_panic.mp hp])⟩
    | ok out =>
      obtain ⟨g1, g2⟩ := ihs (fun a ha => ih a (by simp [ha])) o fn (i + 1)
        (((o.at_ (2 * i + 1)).range sm).foldl (addScore fn out) sm)
        (EModel.evaluate (o.at_ (2 * i)) m row).row
      simp only
      rw [h1] at g1 g2
      exact ⟨g1, g2⟩

theorem chainSegments_panic {Q : Panic → Prop} (ms : List (EModel F)) (ih : ∀ m ∈ ms, PanicsIn Q m) :
    ∀ o i last row, ((chainSegments o i last ms row).row = none ↔ row = none) ∧
      ∀ p, (chainSegments o i last ms row).res = panic p → Q p ∨ (row = none ∧ p = .nilMapWrite) := by
  induction ms with
  | nil => intro o i last row; simp [chainSegments]
  | cons m ms ihs =>
    intro o i last row
    simp only [chainSegments]
    rcases writeAll_extended (o.at_ (2 * i)) (last.getD ∅) row with ⟨hn, -, hw⟩ | ⟨row1, hw, hx⟩
    · rw [hw]
      exact ⟨by simp [hn], fun p hp => .inr ⟨hn, by simpa using hp.symm⟩⟩
    · rw [hw]
      simp only
      obtain ⟨h1, h2⟩ := ih m (by simp) (o.at_ (2 * i + 1)) row1
      rw [← hx.1] at h1 h2
      cases he : (EModel.evaluate (o.at_ (2 * i + 1)) m row1).res with
      | error e => exact ⟨h1, fun p hp => h2 p (by rw [he]; exact hp)⟩
      | ok out =>
        obtain ⟨g1, g2⟩ := ihs (fun a ha => ih a (by simp [ha])) o (i + 1) out
          (EModel.evaluate (o.at_ (2 * i + 1)) m row1).row
        simp only
        rw [h1] at g1 g2
        exact ⟨g1, g2⟩

omit [Arith F] [Lib F] [Trans F] in
theorem map_panic {α β : Type} {x : Res α} {f : α → β} {p : Panic} : x.map f = panic p ↔ x = panic p := by
  cases x <;> simp [Except.map]

theorem runMethod_panic {Q : Panic → Prop} (ms : List (EModel F)) (ih : ∀ m ∈ ms, PanicsIn Q m)
    (o : MapOrd) (s : MiningState F) (row : Row F) :
    ((runMethod o s ms row).row = none ↔ row = none) ∧
      ∀ p, (runMethod o s ms row).res = panic p → Q p ∨ (row = none ∧ p = .nilMapWrite) := by
  unfold runMethod
  split
  · obtain ⟨g1, g2⟩ := sumSegments_panic ms ih (o.at_ 1) s.head.functionName 0 (initScores s) row
    exact ⟨g1, fun p hp => g2 p (map_panic.mp hp)⟩
  · obtain ⟨g1, g2⟩ := sumSegments_panic ms ih (o.at_ 1) s.head.functionName 0 (initScores s) row
    exact ⟨g1, fun p hp => g2 p (map_panic.mp hp)⟩
  · exact chainSegments_panic ms ih (o.at_ 1) 0 (some ∅) row
  · cases ms with
    | nil => simp [selectFirst]
    | cons m ms => exact ih m (by simp) (o.at_ 1) row
  · simp

/-- Panics of a constructed model, from those of its trees. -/
theorem newModel_panics {dd : List DataField} {Q : Panic → Prop} {e : ModelElem F} {td td' : TD F}
    {m : EModel F} (h : newModel dd e td = (.ok m, td'))
    (ht : ∀ d t td td', TreeIn d e → newTreeModel dd td d = (.ok t, td') → PanicsIn Q (.tree t)) :
    PanicsIn Q m := by
  revert ht
  refine newModel_ind (P := fun e m => (∀ d t td td', TreeIn d e → newTreeModel dd td d = (.ok t, td') →
    PanicsIn Q (.tree t)) → PanicsIn Q m) ?_ ?_ ?_ e h
  · intro d t td td' hn ht
    exact ht d t td td' .here hn
  · intro d _ o row
    refine ⟨by simp [EModel.evaluate], fun p hp => ?_⟩
    exact absurd hp (Props.C50_no_panic (dd := dd) (td := []) (td' := []) (by rw [newModel]) o row p)
  · intro h segs td td' s ms hn hf ht o row
    have hms : ∀ m ∈ ms, PanicsIn Q m := by
      intro m hm
      have key : ∀ {segs' : List (SegDoc F)} {ms' : List (EModel F)}, segs' ⊆ segs →
          List.Forall₂ (fun seg m => ∃ id ps e, seg = SegDoc.mk id ps [e] ∧
            ((∀ d t td td', TreeIn d e → newTreeModel dd td d = (.ok t, td') → PanicsIn Q (.tree t)) →
              PanicsIn Q m)) segs' ms' → ∀ m ∈ ms', PanicsIn Q m := by
        intro segs' ms' hsub hf
        induction hf with
        | nil => simp
        | cons hh _ ih =>
          obtain ⟨id, ps, e, rfl, hP⟩ := hh
          have hsub' := List.cons_subset.mp hsub
          refine List.forall_mem_cons.mpr ⟨hP ?_, ih hsub'.2⟩
          exact fun d t td td' hd => ht d t td td' (.segment hsub'.1 (by simp) hd)
      exact key (List.Subset.refl _) hf m hm
    obtain ⟨s', ms', heq, -, -, -, -, -, hev⟩ := constructed_mining hn
    simp only [EModel.mining.injEq] at heq
    obtain ⟨rfl, rfl⟩ := heq
    rcases hev o row with ⟨er, row2, hp, he⟩ | ⟨row2, hp, he⟩
    · have := prepared_panic hp
      rw [he]
      exact ⟨this.1, fun p hpp => .inr (this.2 p (error_panic.mpr (error_panic.mp hpp)))⟩
    · have h1 := (prepared_panic hp).1
      have h2 := runMethod_panic ms hms o s row2
      rw [h1] at h2
      rw [he]
      exact h2

/-- Panics of a constructed tree whose nodes all have predicates. -/
theorem newTree_panics {dd : List DataField} {td td' : TD F} {d : TreeDoc F} {t : TreeModel F}
    (h : newTreeModel dd td d = (.ok t, td')) (hp : AllPreds d.node) (o : MapOrd) (row : Row F) :
    ((EModel.evaluate o (.tree t) row).row = none ↔ row = none) ∧
    ∀ p, (EModel.evaluate o (.tree t) row).res = panic p →
      (row = none ∧ p = .nilMapWrite) ∨
      (p = .indexOutOfRange ∧ d.functionName = .regression ∧
        ∃ row', NodeAns dd d (nodeTest (treeTypes dd td d) row') d.node ([], .t)) := by
  obtain ⟨-, -, hv, hc, hk, hm, htf, hx, -⟩ := newTreeModel_ok h
  have he := evaluate_eq hv hc (by rw [hk]; exact keysOk_empty) o row
  have hi := handleInput_panic d.localTransformations row
  have hlt : t.model.localTransformations = d.localTransformations := by rw [hm]
  simp only [EModel.evaluate]
  refine ⟨by rw [he.1, hlt]; exact hi.1, fun p hpp => ?_⟩
  rcases hh : handleInput d.localTransformations row with ⟨e | ⟨⟨⟩⟩, row'⟩
  · rw [he.2.1, hlt, hh] at hpp
    exact .inl (hi.2 p (by rw [hh]; exact error_panic.mpr (error_panic.mp hpp)))
  · right
    obtain ⟨⟨dist, res⟩, ha, hr⟩ := evaluate_answer h hp hh o
    rw [hr] at hpp
    unfold report at hpp
    split_ifs at hpp with hres
    simp only [not_not] at hres
    subst hres
    split at hpp
    · simp at hpp
    · rename_i hf hd
      simp only at hd
      subst hd
      exact ⟨by simpa using hpp.symm, hf, row', ha⟩
    · split at hpp <;> simp at hpp
    · simp at hpp

end Gopmml

namespace Gopmml.Props
open Gopmml Spec

variable {F : Type} [Arith F] [Lib F] [Trans F]

/-- **C59**: a constructed model, nested to any depth, whose tree nodes all carry predicates, can
panic in two ways only: the write to a nil map when the caller's row is nil, and the index out of
range of a regression tree without a prediction. -/
theorem C59_panics {dd : List DataField} {e : ModelElem F} {td td' : TD F} {m : EModel F}
    (h : newModel dd e td = (.ok m, td')) (hp : ∀ d, TreeIn d e → AllPreds d.node)
    (o : MapOrd) (row : Row F) (p : Panic) (hr : (EModel.evaluate o m row).res = panic p) :
    (p = .nilMapWrite ∧ row = none) ∨
    (p = .indexOutOfRange ∧ ∃ d, TreeIn d e ∧ d.functionName = .regression) := by
  have := newModel_panics (Q := fun p => p = .indexOutOfRange ∧
    ∃ d, TreeIn d e ∧ d.functionName = .regression) h ?_ o row
  · rcases this.2 p hr with hq | ⟨h1, h2⟩
    · exact .inr hq
    · exact .inl ⟨h2, h1⟩
  · intro d t td td' hd hn o row
    obtain ⟨h1, h2⟩ := newTree_panics hn (hp d hd) o row
    refine ⟨h1, fun p hpp => ?_⟩
    rcases h2 p hpp with hq | ⟨hq, hf, -⟩
    · exact .inr hq
    · exact .inl ⟨hq, d, hd, hf⟩

/-- A regression tree in which every node the descent may stop at has a prediction: the strategy
does not pass on answers of children that do not hold, no node answers with the null prediction,
and every node lists a distribution or has a score that can be reported. -/
def AlwaysAnswers (dd : List DataField) (d : TreeDoc F) : Prop :=
  (d.missingValueStrategy = .none ∨ (∃ s, d.missingValueStrategy = .other s) ∨
    d.missingValueStrategy = .nullPrediction ∨ d.missingValueStrategy = .lastPrediction) ∧
  d.noTrueChildStrategy ≠ .returnNullPrediction ∧
  ∀ n, Sub n d.node → n.dists ≠ [] ∨ targetOf d.miningFields = "" ∨
    targetValues dd (targetOf d.miningFields) ≠ []

omit [Lib F] [Trans F] in
theorem ownDist_ne_nil {dd : List DataField} {d : TreeDoc F} (h : AlwaysAnswers dd d) {n : Node F}
    (hn : Sub n d.node) : ownDist dd d n ≠ [] := by
  obtain ⟨-, h1, h2⟩ := h
  unfold ownDist
  rw [if_neg (by simp [h1])]
  split_ifs with h3 h4
  · exact declaredDist_ne_nil.mpr h3
  · rcases h2 n hn with h | h | h
    · exact absurd h h3
    · exact absurd h h4
    · unfold oneHot; simpa using h
  · simp

omit [Arith F] [Lib F] [Trans F] in
theorem lastAns_ne_nil {T : Node F → PredRes} {own : Node F → List (ScoreDist F)} {n : Node F}
    (h : own n ≠ []) : lastAns T own n ≠ ([], .t) := by
  obtain ⟨id, dc, score, rc, dists, nodes, pred⟩ := n
  unfold lastAns
  split_ifs with h1 h2
  · simp
  · simp [h2.2]
  · simp [h]

/-- **C59**: when moreover every regression tree in the document always has a prediction to
answer with, Evaluate never panics on a row that is not nil. -/
theorem C59_no_panic {dd : List DataField} {e : ModelElem F} {td td' : TD F} {m : EModel F}
    (h : newModel dd e td = (.ok m, td')) (hp : ∀ d, TreeIn d e → AllPreds d.node)
    (ha : ∀ d, TreeIn d e → d.functionName = .regression → AlwaysAnswers dd d)
    (o : MapOrd) (r : GoMap (GoVal F)) (p : Panic) : (EModel.evaluate o m (some r)).res ≠ panic p := by
  intro hr
  have := newModel_panics (Q := fun _ => False) h ?_ o (some r)
  · simpa using this.2 p hr
  · intro d t td td' hd hn o row
    obtain ⟨h1, h2⟩ := newTree_panics hn (hp d hd) o row
    refine ⟨h1, fun p hpp => ?_⟩
    rcases h2 p hpp with hq | ⟨-, hf, row', hans⟩
    · exact .inr hq
    · exfalso
      have hA := ha d hd hf
      have hstep : ∀ {r : Node F}, FirstTrue (nodeTest (treeTypes dd td d) row') d.node r →
          ownDist dd d r ≠ [] := fun hr => ownDist_ne_nil hA (firstTrue_sub hr)
      unfold NodeAns at hans
      rcases hA.1 with hs | ⟨s, hs⟩ | hs | hs <;> rw [hs] at hans <;> simp only at hans
      · rcases hans with ⟨-, h⟩ | ⟨-, r, hr, h⟩
        · simp at h
        · exact hstep hr (by simpa using h.symm)
      · rcases hans with ⟨-, h⟩ | ⟨-, r, hr, h⟩
        · simp at h
        · exact hstep hr (by simpa using h.symm)
      · rcases hans with ⟨-, h⟩ | ⟨-, -, h⟩ | ⟨-, -, r, hr, h⟩
        · simp at h
        · simp at h
        · exact hstep hr (by simpa using h.symm)
      · exact lastAns_ne_nil (ownDist_ne_nil hA .refl) hans.symm

section
open Samples Replay

/-- The trees of the sample ensembles. -/
theorem nested_trees {d : TreeDoc F64} (h : TreeIn d nested) : ∃ lo hi, d = regTree lo hi := by
  unfold nested ensemble seg at h
  cases h with
  | segment hs he hd =>
    simp only [List.mem_cons, List.not_mem_nil, or_false, SegDoc.mk.injEq] at hs
    rcases hs with ⟨-, -, rfl⟩ | ⟨-, -, rfl⟩ <;> simp only [List.mem_singleton] at he <;> subst he
    · cases hd with
      | segment hs he hd =>
        simp only [List.mem_cons, List.not_mem_nil, or_false, SegDoc.mk.injEq] at hs
        rcases hs with ⟨-, -, rfl⟩ | ⟨-, -, rfl⟩ | ⟨-, -, rfl⟩ <;> simp only [List.mem_singleton] at he <;>
          subst he <;> cases hd <;> exact ⟨_, _, rfl⟩
    · cases hd; exact ⟨_, _, rfl⟩

-- C59: an ensemble inside an ensemble meets the hypotheses of `C59_no_panic`.
example : (∃ m td', newModel Samples.dd nested [] = (.ok m, td')) ∧
    (∀ d, TreeIn d nested → AllPreds d.node) ∧
    (∀ d, TreeIn d nested → d.functionName = .regression → AlwaysAnswers Samples.dd d) := by
  refine ⟨?_, ?_, ?_⟩
  · have : (newModel Samples.dd nested []).1.isOk := by decide +kernel
    rcases hn : newModel Samples.dd nested [] with ⟨_ | m, td'⟩
    · rw [hn] at this; simp [Except.isOk, Except.toBool] at this
    · exact ⟨m, td', rfl⟩
  · intro d hd r hr
    obtain ⟨lo, hi, rfl⟩ := nested_trees hd
    unfold regTree at hr
    cases hr with
    | refl => exact ⟨_, rfl⟩
    | child hc hr =>
      simp only [Node.nodes, List.mem_cons, List.not_mem_nil, or_false] at hc
      rcases hc with rfl | rfl <;> cases hr with
      | refl => exact ⟨_, rfl⟩
      | child hc _ => simp [Node.nodes] at hc
  · intro d hd _
    obtain ⟨lo, hi, rfl⟩ := nested_trees hd
    refine ⟨.inr (.inr (.inl rfl)), by simp [regTree], fun n _ => .inr (.inl ?_)⟩
    simp [regTree, targetOf, active]

-- C59: both panics occur: a nil row that needs a replacement, and a tree inside an ensemble that
-- answers with the null prediction.
example : (match newModel Samples.dd nested [] with
      | (.ok m, _) => some (EModel.evaluate .sorted m none).res
      | _ => none) = some (panic .nilMapWrite) ∧
    eval .sorted (.mining { Samples.head .sum with miningFields := [] }
      [seg (.tree { regTree "1" "10" with
        missingValueStrategy := .none, noTrueChildStrategy := .returnNullPrediction })]) [] =
      some (panic .indexOutOfRange) := by
  decide +kernel

end

end Gopmml.Props
