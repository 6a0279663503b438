import Verif.Proofs.Mining
import Verif.Spec.Compose

/-!
# Ensembles inside ensembles
-/

namespace Gopmml

open Spec

variable {F : Type} [Arith F] [Lib F] [Trans F]

/-- The oracle that asks `f i` inside the `i`-th activity. -/
def MapOrd.glue (f : Nat → MapOrd) : MapOrd where
  order := fun p => match p with
    | [] => fun l => l
    | i :: p => (f i).order p
  perm := fun p _ l => by
    cases p with
    | nil => exact .refl _
    | cons i p => exact (f i).perm p l

theorem MapOrd.glue_at (f : Nat → MapOrd) (i : Nat) : (MapOrd.glue f).at_ i = f i := rfl

omit [Arith F] [Lib F] [Trans F] in
theorem extended_unique {row row1 row2 : Row F} {out : GoMap (GoVal F)} (h1 : Extended row out row1)
    (h2 : Extended row out row2) : row1 = row2 := by
  obtain ⟨a1, -, c1⟩ := h1
  obtain ⟨a2, -, c2⟩ := h2
  cases row1 with
  | none => exact (a2.mp (a1.mpr rfl)).symm
  | some r1 =>
    cases row2 with
    | none => exact absurd (a1.mp (a2.mpr rfl)) (by simp)
    | some r2 =>
      congr 1
      apply Std.ExtTreeMap.ext_getElem?
      intro k
      exact (c1 k).trans (c2 k).symm

omit [Arith F] [Lib F] [Trans F] in
theorem extended_empty (row : Row F) : Extended row ∅ row :=
  ⟨Iff.rfl, fun _ => rfl, fun k => by simp⟩

/-- Every run of a chain that is allowed happens in some order. -/
theorem chainRun_order {ms : List (EModel F)} {last : Out F} {row row' : Row F} {r : Res (Out F)}
    (h : ChainRun last ms row r row') : ∀ i, ∃ f : Nat → MapOrd, ∀ o : MapOrd, (∀ j, 2 * i ≤ j → o.at_ j = f j) →
      (chainSegments o i last ms row).res = r ∧ (chainSegments o i last ms row).row = row' := by
  induction h with
  | nil => exact fun i => ⟨fun _ => .sorted, fun o _ => by simp [chainSegments]⟩
  | nilRow hne =>
    intro i
    refine ⟨fun _ => .sorted, fun o _ => ?_⟩
    simp only [chainSegments]
    rcases writeAll_extended (o.at_ (2 * i)) _ (none : Row F) with ⟨-, -, hw⟩ | ⟨row1, -, hx⟩
    · rw [hw]; exact ⟨rfl, rfl⟩
    · exact absurd (hx.2.1 rfl) hne
  | @fail last m ms row row1 o1 e hx he =>
    intro i
    refine ⟨fun _ => o1, fun o ho => ?_⟩
    simp only [chainSegments]
    rcases writeAll_extended (o.at_ (2 * i)) (last.getD ∅) row with ⟨hr, hne, -⟩ | ⟨row2, hw, hx'⟩
    · exact absurd (hx.2.1 hr) hne
    · rw [hw, extended_unique hx' hx, ho _ (by omega)]
      simp only
      rw [he]
      exact ⟨rfl, rfl⟩
  | @cons last m ms row row1 o1 out r row' hx he _ ih =>
    intro i
    obtain ⟨f, hf⟩ := ih (i + 1)
    refine ⟨fun j => if j = 2 * i + 1 then o1 else f j, fun o ho => ?_⟩
    simp only [chainSegments]
    rcases writeAll_extended (o.at_ (2 * i)) (last.getD ∅) row with ⟨hr, hne, -⟩ | ⟨row2, hw, hx'⟩
    · exact absurd (hx.2.1 hr) hne
    · rw [hw, extended_unique hx' hx, (ho (2 * i + 1) (by omega)).trans (if_pos rfl)]
      simp only
      rw [he]
      exact hf o fun j hj => (ho j (by omega)).trans (if_neg (by omega))

/-- The runs of a chain, exactly. -/
theorem chainRun_iff {ms : List (EModel F)} {last : Out F} {row row' : Row F} {r : Res (Out F)} :
    ChainRun last ms row r row' ↔
      ∃ o, (chainSegments o 0 last ms row).res = r ∧ (chainSegments o 0 last ms row).row = row' := by
  constructor
  · intro h
    obtain ⟨f, hf⟩ := chainRun_order h 0
    exact ⟨.glue f, hf _ fun j _ => rfl⟩
  · rintro ⟨o, rfl, rfl⟩
    exact chainSegments_run _ _ _ _ _

omit [Trans F] in
/-- An ensemble can be built from what its segments are built to. -/
theorem newMining_exists {dd : List DataField} {h : MiningHead F} {segs : List (SegDoc F)} {td td' : TD F}
    {ms : List (EModel F)} (hm : SupportedMethod h.method) (ho : SupportedOutputs h.outputs)
    (hs : SegModels dd segs (td ++ h.localTransformations) ms td') :
    ∃ s, newModel dd (.mining h segs) td = (.ok (.mining s ms), td') := by
  rw [newModel]
  rcases mining_validate (MiningState.init dd h segs) with ⟨-, -, hv⟩ | ⟨hn, -⟩
  · rw [hv]
    simp only [MiningState.init]
    rw [hs.compile]
    exact ⟨_, rfl⟩
  · exact absurd ⟨hm, ho⟩ hn

omit [Trans F] in
theorem newMining_supported {dd : List DataField} {h : MiningHead F} {segs : List (SegDoc F)} {td td' : TD F}
    {M : EModel F} (hM : newModel dd (.mining h segs) td = (.ok M, td')) :
    SupportedMethod h.method ∧ SupportedOutputs h.outputs := by
  rw [newModel] at hM
  rcases mining_validate (MiningState.init dd h segs) with ⟨a, b, -⟩ | ⟨-, e, s', hv⟩
  · exact ⟨a, b⟩
  · rw [hv] at hM; simp at hM

/-- The answers of a chain. -/
theorem chain_answers {dd : List DataField} {h : MiningHead F} {segs : List (SegDoc F)} {td td' : TD F}
    {s : MiningState F} {ms : List (EModel F)} (hM : newModel dd (.mining h segs) td = (.ok (.mining s ms), td'))
    (hm : h.method = .modelChain) {row row' : Row F} {r : Res (Out F)} :
    Answers (.mining s ms) row r row' ↔ (∃ e, Prepared h row (.error e) row' ∧ r = .error e) ∨
      ∃ row2, Prepared h row (.ok ()) row2 ∧ ChainRun (some ∅) ms row2 r row' := by
  obtain ⟨s', ms', hEq, hms, hh, -, -, -, hev⟩ := constructed_mining hM
  simp only [EModel.mining.injEq] at hEq
  obtain ⟨rfl, rfl⟩ := hEq
  have hmeth : s.head.method = .modelChain := by rw [hh]; simp [hm, effectiveMethod]
  have hrun : ∀ o row, runMethod o s ms row = ⟨(chainSegments (o.at_ 1) 0 (some ∅) ms row).res,
      (chainSegments (o.at_ 1) 0 (some ∅) ms row).row, .mining s (chainSegments (o.at_ 1) 0 (some ∅) ms row).model⟩ := by
    intro o row; unfold runMethod; rw [hmeth]
  constructor
  · rintro ⟨o, rfl, rfl⟩
    rcases hev o row with ⟨e, row2, hp, he⟩ | ⟨row2, hp, he⟩
    · rw [he]; exact .inl ⟨e, hp, rfl⟩
    · rw [he, hrun]; exact .inr ⟨row2, hp, chainSegments_run _ _ _ _ _⟩
  · rintro (⟨e, hp, rfl⟩ | ⟨row2, hp, hc⟩)
    · refine ⟨.sorted, ?_⟩
      rcases hev .sorted row with ⟨e', row2, hp', he⟩ | ⟨row2, hp', he⟩
      · obtain ⟨h1, h2⟩ := prepared_unique hp hp'
        simp only [Except.error.injEq] at h1
        rw [he, ← h1, ← h2]; exact ⟨rfl, rfl⟩
      · have := (prepared_unique hp hp').1; simp at this
    · obtain ⟨o, h1, h2⟩ := chainRun_iff.mp hc
      refine ⟨.glue fun _ => o, ?_⟩
      rcases hev (.glue fun _ => o) row with ⟨e', row3, hp', -⟩ | ⟨row3, hp', he⟩
      · have := (prepared_unique hp hp').1; simp at this
      · obtain ⟨-, rfl⟩ := prepared_unique hp hp'
        rw [he, hrun]; exact ⟨h1, h2⟩

/-- The answers of an ensemble that selects its first segment. -/
theorem select_answers {dd : List DataField} {h : MiningHead F} {segs : List (SegDoc F)} {td td' : TD F}
    {s : MiningState F} {m : EModel F} {ms : List (EModel F)}
    (hM : newModel dd (.mining h segs) td = (.ok (.mining s (m :: ms)), td'))
    (hm : h.method = .selectFirst) {row row' : Row F} {r : Res (Out F)} :
    Answers (.mining s (m :: ms)) row r row' ↔ (∃ e, Prepared h row (.error e) row' ∧ r = .error e) ∨
      ∃ row2, Prepared h row (.ok ()) row2 ∧ Answers m row2 r row' := by
  obtain ⟨s', ms', hEq, hms, hh, -, -, -, hev⟩ := constructed_mining hM
  simp only [EModel.mining.injEq] at hEq
  obtain ⟨rfl, rfl⟩ := hEq
  have hmeth : s.head.method = .selectFirst := by rw [hh]; simp [hm, effectiveMethod]
  have hrun : ∀ o row, (runMethod o s (m :: ms) row).res = (EModel.evaluate (o.at_ 1) m row).res ∧
      (runMethod o s (m :: ms) row).row = (EModel.evaluate (o.at_ 1) m row).row := by
    intro o row; unfold runMethod; rw [hmeth]; simp [selectFirst]
  constructor
  · rintro ⟨o, rfl, rfl⟩
    rcases hev o row with ⟨e, row2, hp, he⟩ | ⟨row2, hp, he⟩
    · rw [he]; exact .inl ⟨e, hp, rfl⟩
    · rw [he, (hrun _ _).1, (hrun _ _).2]; exact .inr ⟨row2, hp, _, rfl, rfl⟩
  · rintro (⟨e, hp, rfl⟩ | ⟨row2, hp, o, rfl, rfl⟩)
    · refine ⟨.sorted, ?_⟩
      rcases hev .sorted row with ⟨e', row2, hp', he⟩ | ⟨row2, hp', he⟩
      · obtain ⟨h1, h2⟩ := prepared_unique hp hp'
        simp only [Except.error.injEq] at h1
        rw [he, ← h1, ← h2]; exact ⟨rfl, rfl⟩
      · have := (prepared_unique hp hp').1; simp at this
    · refine ⟨.glue fun _ => o, ?_⟩
      rcases hev (.glue fun _ => o) row with ⟨e', row3, hp', -⟩ | ⟨row3, hp', he⟩
      · have := (prepared_unique hp hp').1; simp at this
      · obtain ⟨-, rfl⟩ := prepared_unique hp hp'
        rw [he, (hrun _ _).1, (hrun _ _).2]; exact ⟨rfl, rfl⟩

/-- An ensemble without segments that selects its first segment. -/
theorem select_nothing {dd : List DataField} {h : MiningHead F} {segs : List (SegDoc F)} {td td' : TD F}
    {s : MiningState F} (hM : newModel dd (.mining h segs) td = (.ok (.mining s []), td'))
    (hm : h.method = .selectFirst) {row row' : Row F} {r : Res (Out F)} :
    Answers (.mining s []) row r row' ↔ (∃ e, Prepared h row (.error e) row' ∧ r = .error e) ∨
      Prepared h row (.ok ()) row' ∧ r = fail .noSegments := by
  obtain ⟨s', ms', hEq, hms, hh, -, -, -, hev⟩ := constructed_mining hM
  simp only [EModel.mining.injEq] at hEq
  obtain ⟨rfl, rfl⟩ := hEq
  have hmeth : s.head.method = .selectFirst := by rw [hh]; simp [hm, effectiveMethod]
  have hrun : ∀ o row, (runMethod o s [] row).res = fail .noSegments ∧ (runMethod o s [] row).row = row := by
    intro o row; unfold runMethod; rw [hmeth]; simp [selectFirst]
  constructor
  · rintro ⟨o, rfl, rfl⟩
    rcases hev o row with ⟨e, row2, hp, he⟩ | ⟨row2, hp, he⟩
    · rw [he]; exact .inl ⟨e, hp, rfl⟩
    · rw [he, (hrun _ _).1, (hrun _ _).2]; exact .inr ⟨hp, rfl⟩
  · rintro (⟨e, hp, rfl⟩ | ⟨hp, rfl⟩)
    all_goals
      refine ⟨.sorted, ?_⟩
      rcases hev .sorted row with ⟨e', row2, hp', he⟩ | ⟨row2, hp', he⟩
      all_goals obtain ⟨h1, h2⟩ := prepared_unique hp hp'
    · simp only [Except.error.injEq] at h1
      rw [he, ← h1, ← h2]; exact ⟨rfl, rfl⟩
    · simp at h1
    · simp at h1
    · rw [he, (hrun _ _).1, (hrun _ _).2, h2]; exact ⟨rfl, rfl⟩

omit [Arith F] [Lib F] [Trans F] in
theorem neutral_replacement {h : MiningHead F} (hn : Neutral h) (k : String) :
    replacement h.miningFields k = none := by
  unfold replacement
  have : h.miningFields.filter (fun f => f.name = k ∧ f.missingValueReplacement.isSome) = [] := by
    rw [List.filter_eq_nil_iff]
    intro f hf
    simp [hn.replacement f hf]
  rw [this]; rfl

omit [Trans F] in
/-- A neutral ensemble hands on the row as it is. -/
theorem neutral_prepared {h : MiningHead F} (hn : Neutral h) {row row2 : Row F} {r : Res Unit} :
    Prepared h row r row2 ↔ r = .ok () ∧ row2 = row := by
  have key : Prepared h row (.ok ()) row := by
    cases row with
    | none => exact .nilRow (neutral_replacement hn) (by rw [hn.derived, handleInput])
    | some q =>
      exact .row (row1 := q) (fun k => by rw [neutral_replacement hn]) (by rw [hn.derived, handleInput])
  constructor
  · exact fun h => (prepared_unique h key)
  · rintro ⟨rfl, rfl⟩; exact key

omit [Trans F] in
theorem segModels_append {dd : List DataField} {A B : List (SegDoc F)} {td td' : TD F} {ms : List (EModel F)} :
    SegModels dd (A ++ B) td ms td' ↔ ∃ ma mb td1, ms = ma ++ mb ∧ SegModels dd A td ma td1 ∧ SegModels dd B td1 mb td' := by
  induction A generalizing td ms with
  | nil =>
    constructor
    · intro h; exact ⟨[], ms, td, rfl, .nil, h⟩
    · rintro ⟨ma, mb, td1, rfl, h1, h2⟩; cases h1; exact h2
  | cons a A ih =>
    constructor
    · intro h
      cases h with
      | cons hm hs =>
        obtain ⟨ma, mb, td1, rfl, h1, h2⟩ := ih.mp hs
        exact ⟨_ :: ma, mb, td1, rfl, .cons hm h1, h2⟩
    · rintro ⟨ma, mb, td1, rfl, h1, h2⟩
      cases h1 with
      | cons hm hs => exact .cons hm (ih.mpr ⟨_, _, _, rfl, hs, h2⟩)

/-- A chain within a chain, at any place. -/
theorem chainRun_flatten {N b : EModel F} {B C : List (EModel F)}
    (hN : ∀ row r row', Answers N row r row' ↔ ChainRun (some ∅) (b :: B) row r row') :
    ∀ (A : List (EModel F)) (last : Out F) (row row' : Row F) (r : Res (Out F)),
      ChainRun last (A ++ N :: C) row r row' ↔ ChainRun last (A ++ (b :: B) ++ C) row r row' := by
  -- what follows the inner chain starts from its last output
  have app : ∀ (X : List (EModel F)) (last : Out F) (row row' : Row F) (r : Res (Out F)),
      ChainRun last (X ++ C) row r row' ↔ (∃ e, ChainRun last X row (.error e) row' ∧ r = .error e) ∨
        ∃ out row1, ChainRun last X row (.ok out) row1 ∧ ChainRun out C row1 r row' := by
    intro X
    induction X with
    | nil =>
      intro last row row' r
      constructor
      · intro h; exact .inr ⟨_, _, .nil, h⟩
      · rintro (⟨e, h, -⟩ | ⟨out, row1, h, hc⟩)
        · cases h
        · cases h; exact hc
    | cons x X ih =>
      intro last row row' r
      constructor
      · intro h
        cases h with
        | nilRow hne => exact .inl ⟨_, .nilRow hne, rfl⟩
        | fail hx he => exact .inl ⟨_, .fail hx he, rfl⟩
        | cons hx he hr =>
          rcases (ih _ _ _ _).mp hr with ⟨e, h1, rfl⟩ | ⟨out, row1, h1, h2⟩
          · exact .inl ⟨_, .cons hx he h1, rfl⟩
          · exact .inr ⟨_, _, .cons hx he h1, h2⟩
      · rintro (⟨e, h, rfl⟩ | ⟨out, row1, h, hc⟩)
        · cases h with
          | nilRow hne => exact .nilRow hne
          | fail hx he => exact .fail hx he
          | cons hx he hr => exact .cons hx he ((ih _ _ _ _).mpr (.inl ⟨_, hr, rfl⟩))
        · cases h with
          | cons hx he hr => exact .cons hx he ((ih _ _ _ _).mpr (.inr ⟨_, _, hr, hc⟩))
  -- the first of the inner chain finds the row as the outer chain has extended it
  have first : ∀ (last : Out F) (row row1 row' : Row F) (r : Res (Out F)), Extended row (last.getD ∅) row1 →
      (ChainRun (some ∅) (b :: B) row1 r row' ↔ ChainRun last (b :: B) row r row') := by
    intro last row row1 row' r hx
    constructor
    · intro h
      cases h with
      | nilRow hne => simp at hne
      | fail hx' he =>
        rw [extended_unique hx' (extended_empty row1)] at he ⊢
        exact .fail hx he
      | cons hx' he hr =>
        rw [extended_unique hx' (extended_empty row1)] at he hr
        exact .cons hx he hr
    · intro h
      cases h with
      | nilRow hne => exact absurd (hx.2.1 rfl) hne
      | fail hx' he =>
        rw [extended_unique hx' hx] at he ⊢
        exact .fail (extended_empty row1) he
      | cons hx' he hr =>
        rw [extended_unique hx' hx] at he hr
        exact .cons (extended_empty row1) he hr
  intro A
  induction A with
  | nil =>
    intro last row row' r
    rw [List.nil_append, List.nil_append, app]
    constructor
    · intro h
      cases h with
      | nilRow hne => exact .inl ⟨_, .nilRow hne, rfl⟩
      | @fail _ _ _ _ row1 o e hx he => exact .inl ⟨_, (first _ _ _ _ _ hx).mp ((hN _ _ _).mp ⟨o, he, rfl⟩), rfl⟩
      | @cons _ _ _ _ row1 o out _ _ hx he hr =>
        exact .inr ⟨_, _, (first _ _ _ _ _ hx).mp ((hN _ _ _).mp ⟨o, he, rfl⟩), hr⟩
    · rintro (⟨e, h, rfl⟩ | ⟨out, row1, h, hc⟩)
      · by_cases hr : row = none ∧ last.getD ∅ ≠ ∅
        · obtain ⟨rfl, hne⟩ := hr
          cases h with
          | nilRow _ => exact .nilRow hne
          | fail hx he => exact absurd (hx.2.1 rfl) hne
          | cons hx he hr => exact absurd (hx.2.1 rfl) hne
        · rcases writeAll_extended .sorted (last.getD ∅) row with ⟨h1, h2, -⟩ | ⟨row1, -, hx⟩
          · exact absurd ⟨h1, h2⟩ hr
          · obtain ⟨o, h1, h2⟩ := (hN _ _ _).mpr ((first _ _ _ _ _ hx).mpr h)
            rw [← h2]; exact .fail hx h1
      · rcases writeAll_extended .sorted (last.getD ∅) row with ⟨rfl, hne, -⟩ | ⟨row2, -, hx⟩
        · cases h with
          | cons hx he hr => exact absurd (hx.2.1 rfl) hne
        · obtain ⟨o, h1, h2⟩ := (hN _ _ _).mpr ((first _ _ _ _ _ hx).mpr h)
          rw [← h2] at hc; exact .cons hx h1 hc
  | cons a A ih =>
    intro last row row' r
    constructor
    · intro h
      cases h with
      | nilRow hne => exact .nilRow hne
      | fail hx he => exact .fail hx he
      | cons hx he hr => exact .cons hx he ((ih _ _ _ _).mp hr)
    · intro h
      cases h with
      | nilRow hne => exact .nilRow hne
      | fail hx he => exact .fail hx he
      | cons hx he hr => exact .cons hx he ((ih _ _ _ _).mpr hr)

end Gopmml
