import Verif.Proofs.ComposeMore
import Verif.Proofs.ComposeSum
import Verif.Proofs.Real
import Verif.Props.Mining
import Verif.Model.Samples

/-!
# C76: ensembles compose
-/

namespace Gopmml.Props

open Spec

variable {F : Type} [Arith F] [Lib F] [Trans F]

omit [Trans F] in
theorem neutral_models {dd : List DataField} {h : MiningHead F} {segs : List (SegDoc F)} {td td' : TD F}
    {s : MiningState F} {ms : List (EModel F)} (hn : Neutral h)
    (hM : newModel dd (.mining h segs) td = (.ok (.mining s ms), td')) : SegModels dd segs td ms td' := by
  obtain ⟨s', ms', hEq, -, -, -, -, -, -, -, -, hms⟩ := newMining_ok hM
  simp only [EModel.mining.injEq] at hEq
  obtain ⟨-, rfl⟩ := hEq
  have := compileSegments_models segs hms
  rwa [hn.derived, List.append_nil] at this

omit [Trans F] in
theorem neutral_build {dd : List DataField} {h : MiningHead F} {segs : List (SegDoc F)} {td td' : TD F}
    {ms : List (EModel F)} (hn : Neutral h) (hm : SupportedMethod h.method) (hs : SegModels dd segs td ms td') :
    ∃ s, newModel dd (.mining h segs) td = (.ok (.mining s ms), td') :=
  newMining_exists hm hn.outputs (by rwa [hn.derived, List.append_nil])

omit [Trans F] in
theorem newMining_shape {dd : List DataField} {h : MiningHead F} {segs : List (SegDoc F)} {td td' : TD F}
    {M : EModel F} (hM : newModel dd (.mining h segs) td = (.ok M, td')) :
    ∃ s ms, M = .mining s ms ∧ SegModels dd segs (td ++ h.localTransformations) ms td' := by
  obtain ⟨s, ms, rfl, -, -, -, -, -, -, -, -, hms⟩ := newMining_ok hM
  exact ⟨s, ms, rfl, compileSegments_models segs hms⟩

/-- Passing a row through a neutral chain, or a neutral selection, of one segment. -/
theorem one_alike {dd : List DataField} {h : MiningHead F} {segs : List (SegDoc F)} {td td' : TD F}
    {s : MiningState F} {m : EModel F} (hn : Neutral h) (hm : h.method = .modelChain ∨ h.method = .selectFirst)
    (hM : newModel dd (.mining h segs) td = (.ok (.mining s [m]), td')) : Inter (.mining s [m]) m := by
  intro row r row'
  rcases hm with hm | hm
  · rw [chain_answers hM hm]
    constructor
    · rintro (⟨e, hp, -⟩ | ⟨row2, hp, hc⟩)
      · have := ((neutral_prepared hn).mp hp).1; simp at this
      · obtain ⟨-, rfl⟩ := (neutral_prepared hn).mp hp
        cases hc with
        | nilRow hne => simp at hne
        | fail hx he => rw [extended_unique hx (extended_empty _)] at he ⊢; exact ⟨_, he, rfl⟩
        | cons hx he hr =>
          rw [extended_unique hx (extended_empty _)] at he hr
          cases hr
          exact ⟨_, he, rfl⟩
    · rintro ⟨o, rfl, rfl⟩
      refine .inr ⟨row, (neutral_prepared hn).mpr ⟨rfl, rfl⟩, ?_⟩
      cases he : (EModel.evaluate o m row).res with
      | error e => exact .fail (extended_empty _) he
      | ok out => exact .cons (extended_empty _) he .nil
  · rw [select_answers hM hm]
    constructor
    · rintro (⟨e, hp, -⟩ | ⟨row2, hp, hc⟩)
      · have := ((neutral_prepared hn).mp hp).1; simp at this
      · obtain ⟨-, rfl⟩ := (neutral_prepared hn).mp hp
        exact hc
    · exact fun hc => .inr ⟨row, (neutral_prepared hn).mpr ⟨rfl, rfl⟩, hc⟩

/-- **C76** (one segment): a chain, or a selection of the first, with a single segment and nothing else to
do is as good as the segment's model itself. -/
theorem C76_one {h : MiningHead F} (hn : Neutral h) (hm : h.method = .modelChain ∨ h.method = .selectFirst)
    (id : String) (ps : List (Pred F)) (e : ModelElem F) : InterDocs (.mining h [.mk id ps [e]]) e := by
  have hs : SupportedMethod h.method := by rcases hm with hm | hm <;> simp [hm, SupportedMethod]
  intro dd td td'
  constructor
  · intro M hM
    obtain ⟨s, ms, rfl, -⟩ := newMining_shape hM
    have hms := neutral_models hn hM
    cases hms with
    | cons hm' hr =>
      cases hr
      exact ⟨_, hm', one_alike hn hm hM⟩
  · intro m hm'
    obtain ⟨s, hM⟩ := neutral_build hn hs (.cons (id := id) (ps := ps) hm' .nil)
    exact ⟨_, hM, one_alike hn hm hM⟩

omit [Trans F] in
/-- The evaluators of segments among which there is a neutral ensemble. -/
theorem nested_models {dd : List DataField} {h : MiningHead F} (hn : Neutral h) (hm : SupportedMethod h.method)
    {A B C : List (SegDoc F)} {id : String} {ps : List (Pred F)} {td td' : TD F} :
    (∀ ms, SegModels dd (A ++ .mk id ps [.mining h B] :: C) td ms td' → ∃ ma mb mc s td1 td2,
      ms = ma ++ .mining s mb :: mc ∧ ma.length = A.length ∧ mb.length = B.length ∧
      newModel dd (.mining h B) td1 = (.ok (.mining s mb), td2) ∧
      SegModels dd (A ++ B ++ C) td (ma ++ mb ++ mc) td') ∧
    (∀ ms, SegModels dd (A ++ B ++ C) td ms td' → ∃ ma mb mc s td1 td2,
      ms = ma ++ mb ++ mc ∧ ma.length = A.length ∧ mb.length = B.length ∧
      newModel dd (.mining h B) td1 = (.ok (.mining s mb), td2) ∧
      SegModels dd (A ++ .mk id ps [.mining h B] :: C) td (ma ++ .mining s mb :: mc) td') := by
  constructor
  · intro ms hms
    obtain ⟨ma, mb, td1, rfl, h1, h2⟩ := segModels_append.mp hms
    cases h2 with
    | @cons _ _ _ _ _ td2 _ m mc hM hr =>
      obtain ⟨s, mb, rfl, -⟩ := newMining_shape hM
      have hb := neutral_models hn hM
      refine ⟨ma, mb, mc, s, td1, td2, rfl, h1.length_eq, hb.length_eq, hM, ?_⟩
      exact segModels_append.mpr ⟨_, _, _, rfl, segModels_append.mpr ⟨_, _, _, rfl, h1, hb⟩, hr⟩
  · intro ms hms
    obtain ⟨mab, mc, td2, rfl, h1, hr⟩ := segModels_append.mp hms
    obtain ⟨ma, mb, td1, rfl, h1, hb⟩ := segModels_append.mp h1
    obtain ⟨s, hM⟩ := neutral_build hn hm hb
    exact ⟨ma, mb, mc, s, td1, td2, rfl, h1.length_eq, hb.length_eq, hM,
      segModels_append.mpr ⟨_, _, _, rfl, h1, .cons hM hr⟩⟩

/-- **C76** (chains): a neutral chain inside a chain can be opened, at any place. -/
theorem C76_chain {h h' : MiningHead F} (hm : h.method = .modelChain) (hn : Neutral h')
    (hm' : h'.method = .modelChain) (A B C : List (SegDoc F)) (hB : B ≠ []) (id : String) (ps : List (Pred F)) :
    InterDocs (.mining h (A ++ .mk id ps [.mining h' B] :: C)) (.mining h (A ++ B ++ C)) := by
  have hs' : SupportedMethod h'.method := by simp [hm', SupportedMethod]
  intro dd td td'
  have key : ∀ {s s1 s2 : MiningState F} {ma mb mc : List (EModel F)} {td1 td2 : TD F},
      mb.length = B.length → newModel dd (.mining h' B) td1 = (.ok (.mining s mb), td2) →
      newModel dd (.mining h (A ++ .mk id ps [.mining h' B] :: C)) td =
        (.ok (.mining s1 (ma ++ .mining s mb :: mc)), td') →
      newModel dd (.mining h (A ++ B ++ C)) td = (.ok (.mining s2 (ma ++ mb ++ mc)), td') →
      Inter (.mining s1 (ma ++ .mining s mb :: mc)) (.mining s2 (ma ++ mb ++ mc)) := by
    intro s s1 s2 ma mb mc td1 td2 hl hN h1 h2 row r row'
    obtain ⟨b, mb, rfl⟩ : ∃ b mb', mb = b :: mb' := by
      cases mb with
      | nil => exact absurd (List.length_eq_zero_iff.mp hl.symm) hB
      | cons b mb' => exact ⟨b, mb', rfl⟩
    have hN' : ∀ row r row', Answers (.mining s (b :: mb)) row r row' ↔ ChainRun (some ∅) (b :: mb) row r row' := by
      intro row r row'
      rw [chain_answers hN hm']
      constructor
      · rintro (⟨e, hp, -⟩ | ⟨row2, hp, hc⟩)
        · have := ((neutral_prepared hn).mp hp).1; simp at this
        · obtain ⟨-, rfl⟩ := (neutral_prepared hn).mp hp
          exact hc
      · exact fun hc => .inr ⟨row, (neutral_prepared hn).mpr ⟨rfl, rfl⟩, hc⟩
    rw [chain_answers h1 hm, chain_answers h2 hm]
    constructor
    · rintro (hp | ⟨row2, hp, hc⟩)
      · exact .inl hp
      · exact .inr ⟨row2, hp, (chainRun_flatten hN' _ _ _ _ _).mp hc⟩
    · rintro (hp | ⟨row2, hp, hc⟩)
      · exact .inl hp
      · exact .inr ⟨row2, hp, (chainRun_flatten hN' _ _ _ _ _).mpr hc⟩
  constructor
  · intro M hM
    obtain ⟨s1, ms, rfl, hms⟩ := newMining_shape hM
    obtain ⟨ma, mb, mc, s, td1, td2, rfl, -, hl, hN, hms'⟩ := (nested_models hn hs').1 _ hms
    obtain ⟨s2, hM'⟩ := newMining_exists (newMining_supported hM).1 (newMining_supported hM).2 hms'
    exact ⟨_, hM', key hl hN hM hM'⟩
  · intro M hM
    obtain ⟨s2, ms, rfl, hms⟩ := newMining_shape hM
    obtain ⟨ma, mb, mc, s, td1, td2, rfl, -, hl, hN, hms'⟩ := (nested_models (id := id) (ps := ps) hn hs').2 _ hms
    obtain ⟨s1, hM'⟩ := newMining_exists (newMining_supported hM).1 (newMining_supported hM).2 hms'
    exact ⟨_, hM', key hl hN hM' hM⟩

/-- **C76** (selections): a neutral selection at the head of a selection can be opened. -/
theorem C76_select {h h' : MiningHead F} (hm : h.method = .selectFirst) (hn : Neutral h')
    (hm' : h'.method = .selectFirst) (B C : List (SegDoc F)) (hB : B ≠ []) (id : String) (ps : List (Pred F)) :
    InterDocs (.mining h (.mk id ps [.mining h' B] :: C)) (.mining h (B ++ C)) := by
  have hs' : SupportedMethod h'.method := by simp [hm', SupportedMethod]
  intro dd td td'
  have key : ∀ {s s1 s2 : MiningState F} {mb mc : List (EModel F)} {td1 td2 : TD F},
      mb.length = B.length → newModel dd (.mining h' B) td1 = (.ok (.mining s mb), td2) →
      newModel dd (.mining h (.mk id ps [.mining h' B] :: C)) td = (.ok (.mining s1 (.mining s mb :: mc)), td') →
      newModel dd (.mining h (B ++ C)) td = (.ok (.mining s2 (mb ++ mc)), td') →
      Inter (.mining s1 (.mining s mb :: mc)) (.mining s2 (mb ++ mc)) := by
    intro s s1 s2 mb mc td1 td2 hl hN h1 h2 row r row'
    obtain ⟨b, mb, rfl⟩ : ∃ b mb', mb = b :: mb' := by
      cases mb with
      | nil => exact absurd (List.length_eq_zero_iff.mp hl.symm) hB
      | cons b mb' => exact ⟨b, mb', rfl⟩
    rw [List.cons_append] at h2 ⊢
    rw [select_answers h1 hm, select_answers h2 hm]
    have hN' : ∀ row, Answers (.mining s (b :: mb)) row r row' ↔ Answers b row r row' := by
      intro row
      rw [select_answers hN hm']
      constructor
      · rintro (⟨e, hp, -⟩ | ⟨row2, hp, hc⟩)
        · have := ((neutral_prepared hn).mp hp).1; simp at this
        · obtain ⟨-, rfl⟩ := (neutral_prepared hn).mp hp
          exact hc
      · exact fun hc => .inr ⟨row, (neutral_prepared hn).mpr ⟨rfl, rfl⟩, hc⟩
    simp only [hN']
  constructor
  · intro M hM
    obtain ⟨s1, ms, rfl, hms⟩ := newMining_shape hM
    obtain ⟨ma, mb, mc, s, td1, td2, rfl, ha, hl, hN, hms'⟩ :=
      (nested_models (A := []) hn hs').1 _ hms
    obtain rfl := List.length_eq_zero_iff.mp ha
    obtain ⟨s2, hM'⟩ := newMining_exists (newMining_supported hM).1 (newMining_supported hM).2 hms'
    exact ⟨_, hM', key hl hN hM hM'⟩
  · intro M hM
    obtain ⟨s2, ms, rfl, hms⟩ := newMining_shape hM
    obtain ⟨ma, mb, mc, s, td1, td2, rfl, ha, hl, hN, hms'⟩ :=
      (nested_models (A := []) (id := id) (ps := ps) hn hs').2 _ hms
    obtain rfl := List.length_eq_zero_iff.mp ha
    obtain ⟨s1, hM'⟩ := newMining_exists (newMining_supported hM).1 (newMining_supported hM).2 hms'
    exact ⟨_, hM', key hl hN hM' hM⟩

/-- Segments with models that cannot be told apart. -/
def SegInter (a b : SegDoc F) : Prop :=
  ∃ id ps id' ps' e e', a = .mk id ps [e] ∧ b = .mk id' ps' [e'] ∧ InterDocs e e'

theorem segs_alike {dd : List DataField} {segs segs' : List (SegDoc F)} (h : List.Forall₂ SegInter segs segs') :
    ∀ {td td' : TD F} {ms}, SegModels dd segs td ms td' → ∃ ms', SegModels dd segs' td ms' td' ∧ List.Forall₂ Inter ms ms' := by
  induction h with
  | nil => intro td td' ms hms; cases hms; exact ⟨[], .nil, .nil⟩
  | cons hd _ ih =>
    intro td td' ms hms
    obtain ⟨id, ps, id', ps', e, e', rfl, rfl, ha⟩ := hd
    cases hms with
    | cons hm hr =>
      obtain ⟨m', hm', hal⟩ := (ha _ _ _).1 _ hm
      obtain ⟨ms', hms', hr'⟩ := ih hr
      exact ⟨_ :: ms', .cons hm' hms', .cons hal hr'⟩

theorem SegInter.symm {a b : SegDoc F} (h : SegInter a b) : SegInter b a := by
  obtain ⟨id, ps, id', ps', e, e', rfl, rfl, ha⟩ := h
  refine ⟨id', ps', id, ps, e', e, rfl, rfl, fun dd td td' => ⟨fun m hm => ?_, fun m hm => ?_⟩⟩
  · obtain ⟨m', h1, h2⟩ := (ha dd td td').2 m hm; exact ⟨m', h1, h2.symm⟩
  · obtain ⟨m', h1, h2⟩ := (ha dd td td').1 m hm; exact ⟨m', h1, h2.symm⟩

omit [Trans F] in
theorem newMining_state {dd : List DataField} {h : MiningHead F} {segs segs' : List (SegDoc F)} {td td1 td2 : TD F}
    {s s' : MiningState F} {ms ms' : List (EModel F)}
    (h1 : newModel dd (.mining h segs) td = (.ok (.mining s ms), td1))
    (h2 : newModel dd (.mining h segs') td = (.ok (.mining s' ms'), td2)) :
    s' = { s with segments := segs' } ∧ s.segments = segs := by
  rw [newModel] at h1 h2
  rcases mining_validate (MiningState.init dd h segs) with ⟨-, -, hv⟩ | ⟨-, e, s', hv⟩ <;> rw [hv] at h1
  · rcases mining_validate (MiningState.init dd h segs') with ⟨-, -, hv'⟩ | ⟨-, e, s', hv'⟩ <;> rw [hv'] at h2
    · simp only [MiningState.init] at h1 h2
      split at h1
      · simp at h1
      split at h2
      · simp at h2
      simp only [Prod.mk.injEq, Except.ok.injEq, EModel.mining.injEq] at h1 h2
      obtain ⟨⟨rfl, -⟩, -⟩ := h1
      obtain ⟨⟨rfl, -⟩, -⟩ := h2
      exact ⟨rfl, rfl⟩
    · simp at h2
  · simp at h1

/-- **C76** (inside): models that cannot be told apart can be exchanged inside an ensemble of any method;
identifiers and predicates of segments do not matter. -/
theorem C76_inside {segs segs' : List (SegDoc F)} (hs : List.Forall₂ SegInter segs segs') (h : MiningHead F) :
    InterDocs (.mining h segs) (.mining h segs') := by
  have key : ∀ {segs segs' : List (SegDoc F)}, List.Forall₂ SegInter segs segs' → ∀ dd (td td' : TD F) M,
      newModel dd (.mining h segs) td = (.ok M, td') → ∃ M', newModel dd (.mining h segs') td = (.ok M', td') ∧ Inter M M' := by
    intro segs segs' hs dd td td' M hM
    obtain ⟨s, ms, rfl, hms⟩ := newMining_shape hM
    obtain ⟨ms', hms', hal⟩ := segs_alike hs hms
    obtain ⟨s', hM'⟩ := newMining_exists (newMining_supported hM).1 (newMining_supported hM).2 hms'
    refine ⟨_, hM', ?_⟩
    obtain ⟨e1, e2⟩ := newMining_state hM hM'
    obtain ⟨e3, e4⟩ := newMining_state hM' hM
    have hl : segs.length = segs'.length := hs.length_eq
    have c1 : List.Forall₂ Covered ms ms' := hal.imp fun _ _ h row r row' => (h row r row').mp
    have c2 : List.Forall₂ Covered ms' ms := hal.flip.imp fun _ _ h row r row' => (h row r row').mpr
    have t1 := mining_covered s (segs := segs') (by rw [e2, hl]) c1
    have t2 := mining_covered s' (segs := segs) (by rw [e4, hl]) c2
    rw [← e1] at t1
    rw [← e3] at t2
    exact fun row r row' => ⟨t1 row r row', t2 row r row'⟩
  intro dd td td'
  refine ⟨key hs dd td td', fun M hM => ?_⟩
  obtain ⟨M', h1, h2⟩ := key (hs.flip.imp fun _ _ h => SegInter.symm h) dd td td' M hM
  exact ⟨M', h1, h2.symm⟩

omit [Lib F] [Trans F] in
theorem rescaled_plain {ts : List (Target F)} (h : ∀ t ∈ ts, t.rescaleFactor = none ∧ t.rescaleConstant = none)
    (x : F) : rescaled x ts = x := by
  induction ts with
  | nil => rfl
  | cons t ts ih =>
    obtain ⟨h1, h2⟩ := h t (by simp)
    simp only [rescaled, h1, h2]
    exact ih fun t ht => h t (by simp [ht])

/-- The parts of the sum that come from a list of outputs. -/
theorem ensembleSum_congr [Lib ℝ] {h : MiningHead ℝ} {X Y : List (Out ℝ)} {k : String}
    (hk : (X.filterMap (contribution h.functionName k)).sum = (Y.filterMap (contribution h.functionName k)).sum) :
    ensembleSum h X k = ensembleSum h Y k := by
  simp only [ensembleSum, Real'.sum_eq, hk]

/-- Sums inside sums, with the models in hand. -/
theorem sum_flatten [Lib ℝ] [Trans ℝ] {h h' : MiningHead ℝ} (hf : h'.functionName = h.functionName)
    (hk : ∀ k ∈ ensembleKeys h, (if h.functionName = .classification then k else "score") ∈ ensembleKeys h')
    (ht : ∀ t ∈ h'.targets, t.rescaleFactor = none ∧ t.rescaleConstant = none)
    {N : EModel ℝ} {B : List (EModel ℝ)}
    (hN : ∀ row r row', Answers N row r row' ↔ ∃ q, SegsRun B row q row' ∧ SumAnswer h' q r)
    (A C : List (EModel ℝ)) (row row' : Row ℝ) (r : Res (Out ℝ)) :
    (∃ q, SegsRun (A ++ N :: C) row q row' ∧ SumAnswer h q r) ↔
      ∃ q, SegsRun (A ++ B ++ C) row q row' ∧ SumAnswer h q r := by
  have sums : ∀ (oa ob oc : List (Out ℝ)) (out : GoMap (GoVal ℝ)),
      (∀ k, out[k]? = if k ∈ ensembleKeys h' then some (.f64 (ensembleSum h' ob k)) else none) →
      ∀ k ∈ ensembleKeys h, ensembleSum h (oa ++ some out :: oc) k = ensembleSum h (oa ++ ob ++ oc) k := by
    intro oa ob oc out ho k hkm
    apply ensembleSum_congr
    have hc : contribution h.functionName k (some out) =
        some (ob.filterMap (contribution h.functionName k)).sum := by
      have hmem := hk k hkm
      simp only [contribution, Option.bind_some]
      rw [ho, if_pos hmem]
      simp only [Option.map_some, GoVal.float64, ensembleSum]
      rw [rescaled_plain (fun t htm => ht t (List.mem_of_mem_filter htm)), Real'.sum_eq, hf]
      congr 2
      congr 1
      funext o
      by_cases hcl : h.functionName = .classification <;> simp [contribution, hcl]
    simp only [List.filterMap_append, List.filterMap_cons, hc, List.sum_append, List.sum_cons]
    ring
  have swap : ∀ (oa ob : List (Out ℝ)) (out : GoMap (GoVal ℝ)) (qc : Res (List (Out ℝ))),
      (∀ k, out[k]? = if k ∈ ensembleKeys h' then some (.f64 (ensembleSum h' ob k)) else none) →
      (SumAnswer h ((qc.map (some out :: ·)).map (oa ++ ·)) r ↔ SumAnswer h (qc.map ((oa ++ ob) ++ ·)) r) := by
    intro oa ob out qc ho
    cases qc with
    | error e => exact Iff.rfl
    | ok oc =>
      have := sums oa ob oc out ho
      constructor
      · rintro ⟨-, h2⟩
        obtain ⟨a, ha, hka⟩ := h2 _ rfl
        refine ⟨by rintro _ ⟨⟩, ?_⟩
        rintro _ ⟨⟩
        refine ⟨a, ha, fun k => ?_⟩
        rw [hka k]
        split_ifs with hm
        · rw [this k hm]
        · rfl
      · rintro ⟨-, h2⟩
        obtain ⟨a, ha, hka⟩ := h2 _ rfl
        refine ⟨by rintro _ ⟨⟩, ?_⟩
        rintro _ ⟨⟩
        refine ⟨a, ha, fun k => ?_⟩
        rw [hka k]
        split_ifs with hm
        · rw [this k hm]
        · rfl
  constructor
  · rintro ⟨q, hq, hr⟩
    rcases segsRun_append.mp hq with ⟨e, h1, rfl⟩ | ⟨oa, row1, q1, h1, h2, rfl⟩
    · exact ⟨_, segsRun_append.mpr (.inl ⟨e, segsRun_append.mpr (.inl ⟨e, h1, rfl⟩), rfl⟩), hr⟩
    · cases h2 with
      | @fail _ _ _ o e he =>
        obtain ⟨qb, hb, hs⟩ := (hN _ _ _).mp ⟨o, he, rfl⟩
        cases qb with
        | ok ob => obtain ⟨out, h3, -⟩ := hs.2 ob rfl; cases h3
        | error e' =>
          have := hs.1 e' rfl
          cases this
          exact ⟨_, segsRun_append.mpr (.inl ⟨e, segsRun_append.mpr (.inr ⟨oa, row1, _, h1, hb, rfl⟩), rfl⟩), hr⟩
      | @cons _ _ _ o out qc _ he hc =>
        obtain ⟨qb, hb, hs⟩ := (hN _ _ _).mp ⟨o, he, rfl⟩
        cases qb with
        | error e' => have := hs.1 e' rfl; cases this
        | ok ob =>
          obtain ⟨out, h3, ho⟩ := hs.2 ob rfl
          cases h3
          refine ⟨_, segsRun_append.mpr (.inr ⟨oa ++ ob, _, qc,
            segsRun_append.mpr (.inr ⟨oa, row1, _, h1, hb, rfl⟩), hc, rfl⟩), (swap oa ob out qc ho).mp hr⟩
  · rintro ⟨q, hq, hr⟩
    rcases segsRun_append.mp hq with ⟨e, h1, rfl⟩ | ⟨oab, row2, qc, h1, hc, rfl⟩
    · rcases segsRun_append.mp h1 with ⟨e', h4, h2⟩ | ⟨oa, row1, q1, h4, hb, h2⟩
      · cases h2
        exact ⟨_, segsRun_append.mpr (.inl ⟨e, h4, rfl⟩), hr⟩
      · cases q1 with
        | ok ob => cases h2
        | error e' =>
          cases h2
          obtain ⟨o, he, rfl⟩ := (hN row1 (.error e) row').mpr ⟨_, hb, by rintro _ ⟨⟩; rfl, by rintro _ ⟨⟩⟩
          exact ⟨_, segsRun_append.mpr (.inr ⟨oa, row1, _, h4, .fail he, rfl⟩), hr⟩
    · rcases segsRun_append.mp h1 with ⟨e', h4, h2⟩ | ⟨oa, row1, q1, h4, hb, h2⟩
      · cases h2
      · cases q1 with
        | error e' => cases h2
        | ok ob =>
          cases h2
          obtain ⟨out, ho⟩ := sumAnswer_exists h' ob
          obtain ⟨o, he, rfl⟩ := (hN row1 (.ok (some out)) row2).mpr
            ⟨_, hb, by rintro _ ⟨⟩, by rintro _ ⟨⟩; exact ⟨out, rfl, ho⟩⟩
          exact ⟨_, segsRun_append.mpr (.inr ⟨oa, row1, _, h4, .cons he hc, rfl⟩), (swap oa ob out qc ho).mpr hr⟩

/-- **C76** (sums): over the real numbers a neutral sum inside a sum can be opened, at any place, provided
that it reports what the outer one looks for: the same entries in a classification, and otherwise an entry
called "score". -/
theorem C76_sum [Lib ℝ] [Trans ℝ] {h h' : MiningHead ℝ} (hm : usesMethod h .sum) (hn : Neutral h')
    (hm' : usesMethod h' .sum) (hf : h'.functionName = h.functionName)
    (hk : ∀ k ∈ ensembleKeys h, (if h.functionName = .classification then k else "score") ∈ ensembleKeys h')
    (ht : ∀ t ∈ h'.targets, t.rescaleFactor = none ∧ t.rescaleConstant = none)
    (A B C : List (SegDoc ℝ)) (id : String) (ps : List (Pred ℝ)) :
    InterDocs (.mining h (A ++ .mk id ps [.mining h' B] :: C)) (.mining h (A ++ B ++ C)) := by
  have hs' : SupportedMethod h'.method := by
    have : effectiveMethod h'.method = .sum := hm'
    revert this; cases h'.method <;> simp [effectiveMethod, SupportedMethod]
  intro dd td td'
  have key : ∀ {s s1 s2 : MiningState ℝ} {ma mb mc : List (EModel ℝ)} {td1 td2 : TD ℝ},
      newModel dd (.mining h' B) td1 = (.ok (.mining s mb), td2) →
      newModel dd (.mining h (A ++ .mk id ps [.mining h' B] :: C)) td =
        (.ok (.mining s1 (ma ++ .mining s mb :: mc)), td') →
      newModel dd (.mining h (A ++ B ++ C)) td = (.ok (.mining s2 (ma ++ mb ++ mc)), td') →
      Inter (.mining s1 (ma ++ .mining s mb :: mc)) (.mining s2 (ma ++ mb ++ mc)) := by
    intro s s1 s2 ma mb mc td1 td2 hN h1 h2 row r row'
    have hN' : ∀ row r row', Answers (.mining s mb) row r row' ↔ ∃ q, SegsRun mb row q row' ∧ SumAnswer h' q r := by
      intro row r row'
      rw [sum_answers hN hm']
      constructor
      · rintro (⟨e, hp, -⟩ | ⟨row2, q, hp, hc⟩)
        · have := ((neutral_prepared hn).mp hp).1; simp at this
        · obtain ⟨-, rfl⟩ := (neutral_prepared hn).mp hp
          exact ⟨q, hc⟩
      · exact fun ⟨q, hc⟩ => .inr ⟨row, q, (neutral_prepared hn).mpr ⟨rfl, rfl⟩, hc⟩
    rw [sum_answers h1 hm, sum_answers h2 hm]
    have hfl := fun row => sum_flatten hf hk ht hN' ma mc row row' r
    constructor
    · rintro (hp | ⟨row2, q, hp, hc⟩)
      · exact .inl hp
      · obtain ⟨q', hc'⟩ := (hfl row2).mp ⟨q, hc⟩
        exact .inr ⟨row2, q', hp, hc'⟩
    · rintro (hp | ⟨row2, q, hp, hc⟩)
      · exact .inl hp
      · obtain ⟨q', hc'⟩ := (hfl row2).mpr ⟨q, hc⟩
        exact .inr ⟨row2, q', hp, hc'⟩
  constructor
  · intro M hM
    obtain ⟨s1, ms, rfl, hms⟩ := newMining_shape hM
    obtain ⟨ma, mb, mc, s, td1, td2, rfl, -, hl, hN, hms'⟩ := (nested_models hn hs').1 _ hms
    obtain ⟨s2, hM'⟩ := newMining_exists (newMining_supported hM).1 (newMining_supported hM).2 hms'
    exact ⟨_, hM', key hN hM hM'⟩
  · intro M hM
    obtain ⟨s2, ms, rfl, hms⟩ := newMining_shape hM
    obtain ⟨ma, mb, mc, s, td1, td2, rfl, -, hl, hN, hms'⟩ := (nested_models (id := id) (ps := ps) hn hs').2 _ hms
    obtain ⟨s1, hM'⟩ := newMining_exists (newMining_supported hM).1 (newMining_supported hM).2 hms'
    exact ⟨_, hM', key hN hM' hM⟩

/-- What a sum or an average answers has no entries but those it reports. -/
theorem ensemble_keys {dd : List DataField} {h : MiningHead F} {segs : List (SegDoc F)} {td td' : TD F}
    {M : EModel F} (hM : newModel dd (.mining h segs) td = (.ok M, td')) (hm : usesMethod h .sum ∨ usesMethod h .average)
    {o : MapOrd} {row : Row F} {out : Out F} (he : (EModel.evaluate o M row).res = .ok out) {k : String}
    (hk : k ∉ ensembleKeys h) : out.bind (·[k]?) = none := by
  obtain ⟨s, ms, rfl, -, -, -, -, -, hev⟩ := constructed_mining hM
  rcases hev o row with ⟨e, row3, hp', he'⟩ | ⟨row3, hp, -⟩
  · rw [he'] at he; simp at he
  rcases hm with hm | hm
  · obtain ⟨ms', r, row', -, -, -, h1, h2⟩ := C36_sum hM hm hp o
    cases r with
    | error e => rw [h1 e rfl] at he; simp at he
    | ok outs =>
      obtain ⟨a, ha, hka⟩ := h2 outs rfl
      rw [ha] at he; cases he
      rw [Option.bind_some, hka, if_neg hk]
  · obtain ⟨ms', r, row', -, -, -, h1, h2⟩ := C37_average hM hm hp o
    cases r with
    | error e => rw [h1 e rfl] at he; simp at he
    | ok outs =>
      obtain ⟨a, ha, hka⟩ := h2 outs rfl
      rw [ha] at he; cases he
      rw [Option.bind_some, hka, if_neg hk]

theorem SegsRun.outs_mem {ms : List (EModel F)} {row row' : Row F} {outs : List (Out F)}
    (h : SegsRun ms row (.ok outs) row') : ∀ out ∈ outs, ∃ m ∈ ms, ∃ o row1, (EModel.evaluate o m row1).res = .ok out := by
  generalize hr : (Except.ok outs : Res (List (Out F))) = r at h
  induction h generalizing outs with
  | nil => cases hr; simp
  | fail _ => cases hr
  | @cons m ms row o out r row' he _ ih =>
    cases r with
    | error e => cases hr
    | ok outs' =>
      cases hr
      intro x hx
      rcases List.mem_cons.mp hx with rfl | hx
      · exact ⟨m, by simp, o, _, he⟩
      · obtain ⟨m', hm', h'⟩ := ih rfl x hx
        exact ⟨m', by simp [hm'], h'⟩

/-- **C76** (what is lost): a regression that sums ensembles which are themselves sums or averages answers
with rescaled zeros, whatever the row and whatever the inner ensembles say, unless they report an entry
called "score": the outer one looks for that name only. -/
theorem C76_nested_lost {dd : List DataField} {h : MiningHead F} {segs : List (SegDoc F)} {td td' : TD F}
    {M : EModel F} (hM : newModel dd (.mining h segs) td = (.ok M, td')) (hm : usesMethod h .sum)
    (hf : h.functionName ≠ .classification)
    (hs : ∀ sd ∈ segs, ∃ id ps h' B, sd = .mk id ps [.mining h' B] ∧
      (usesMethod h' .sum ∨ usesMethod h' .average) ∧ "score" ∉ ensembleKeys h')
    {o : MapOrd} {row : Row F} {out : Out F} (he : (EModel.evaluate o M row).res = .ok out) :
    ∃ a, out = some a ∧ ∀ k, a[k]? = if k ∈ ensembleKeys h then
      some (.f64 (rescaled Arith.zero (h.targets.filter (fun t => t.field = k)))) else none := by
  obtain ⟨s, ms, rfl, -, -, -, -, -, hev⟩ := constructed_mining hM
  rcases hev o row with ⟨e, row3, hp', he'⟩ | ⟨row3, hp, -⟩
  · rw [he'] at he; simp at he
  obtain ⟨ms', r, row', hms, hrun, -, h1, h2⟩ := C36_sum hM hm hp o
  cases r with
  | error e => rw [h1 e rfl] at he; simp at he
  | ok outs =>
    obtain ⟨a, ha, hka⟩ := h2 outs rfl
    rw [ha] at he; cases he
    refine ⟨a, rfl, fun k => ?_⟩
    have hnone : outs.filterMap (contribution h.functionName k) = [] := by
      rw [List.filterMap_eq_nil_iff]
      intro x hx
      obtain ⟨m, hmm, o1, row1, he1⟩ := SegsRun.outs_mem hrun x hx
      have : ∃ sd ∈ segs, ∃ id ps e td1 td2, sd = .mk id ps [e] ∧ newModel dd e td1 = (.ok m, td2) := by
        clear hrun hka ha h1 h2 hev hM hp
        generalize td ++ h.localTransformations = td0 at hms
        induction hms with
        | nil => simp at hmm
        | cons hb _ ih =>
          rcases List.mem_cons.mp hmm with rfl | hmm
          · exact ⟨_, List.mem_cons_self .., _, _, _, _, _, rfl, hb⟩
          · obtain ⟨sd, hsd, h'⟩ := ih (fun sd hsd => hs sd (List.mem_cons_of_mem _ hsd)) hmm
            exact ⟨sd, List.mem_cons_of_mem _ hsd, h'⟩
      obtain ⟨sd, hsd, id, ps, e, td1, td2, rfl, hb⟩ := this
      obtain ⟨id', ps', h', B, heq, hm', hns⟩ := hs _ hsd
      simp only [SegDoc.mk.injEq, List.cons.injEq, and_true] at heq
      obtain ⟨-, -, rfl⟩ := heq
      simp only [contribution, if_neg hf, Option.map_eq_none_iff]
      exact ensemble_keys hb hm' he1 hns
    rw [hka k]
    simp only [ensembleSum, hnone, Spec.sum, List.foldl_nil]

section Examples
open Replay Samples

-- One segment, chained: the answers are the tree's own; the row is left alone.
example : Neutral { head .modelChain with miningFields := [active "x"] } where
  replacement := by simp [active]
  derived := rfl
  outputs := by simp [head]

def bareHead (m : MultipleModelMethod) : MiningHead F64 := { head m with miningFields := [active "x"], targets := [] }

example : eval .sorted (.mining (bareHead .modelChain) [seg (.tree (regTree "1" "10"))]) [("x", .int .int 7)] =
      some (.ok (some (mk [("score", .f64 (num "10"))]))) ∧
    eval .sorted (.tree (regTree "1" "10")) [("x", .int .int 7)] =
      some (.ok (some (mk [("score", .f64 (num "10"))]))) ∧
    -- a chain in a chain, opened
    eval .sorted (.mining (bareHead .modelChain) [seg (ensemble .sum), seg (.mining (bareHead .modelChain)
      [seg (.tree (regTree "1" "10")), seg (.tree (regTree "2" "20"))])]) [] =
    eval .sorted (.mining (bareHead .modelChain) [seg (ensemble .sum), seg (.tree (regTree "1" "10")),
      seg (.tree (regTree "2" "20"))]) [] ∧
    -- a selection in a selection
    eval .sorted (.mining (bareHead .selectFirst) [seg (.mining (bareHead .selectFirst)
      [seg (.tree (regTree "1" "10")), seg (.tree (regTree "2" "20"))]), seg (ensemble .sum)]) [("x", .int .int 3)] =
    some (.ok (some (mk [("score", .f64 (num "1"))]))) := by
  decide +kernel

/-- The outer sum adds up "score", the inner sums report "y". -/
def lost : ModelElem F64 := .mining (head .sum) [seg (ensemble .sum), seg (ensemble .average)]

-- 0 * 2 + 1 rather than 2 * 141 + ... : the inner answers are dropped without a word.
example : eval .sorted lost [("x", .int .int 7)] = some (.ok (some (mk [("y", .f64 (num "1"))]))) ∧
    eval .sorted lost [("x", .int .int 1)] = some (.ok (some (mk [("y", .f64 (num "1"))]))) := by
  decide +kernel

/-- The remedy: an inner target called "score". -/
def kept : ModelElem F64 := .mining (head .sum)
  [seg (.mining { bareHead .sum with targets := [⟨"score", none, none⟩] }
    [seg (.tree (regTree "1" "10")), seg (.tree (regTree "2" "20"))]), seg (.tree (regTree "4" "40"))]

example : eval .sorted kept [("x", .int .int 7)] = some (.ok (some (mk [("y", .f64 (num "141"))]))) := by
  decide +kernel

end Examples

end Gopmml.Props
