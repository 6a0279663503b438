import Verif.Props.Mining
import Verif.Proofs.Shared

/-!
# Input rows, construction and recompilation of ensembles (C41, C43, C44)
-/

namespace Gopmml.Props
open Gopmml Spec

variable {F : Type}

/-! ## C41 -/

omit F in
theorem Row.get_set_ne {F : Type} {row row' : Row F} {x k : String} {v : GoVal F} (h : row.set x v = .ok row')
    (hk : x ≠ k) : row'.get k = row.get k ∧ (row' = none ↔ row = none) := by
  cases row with
  | none => simp [Row.set] at h
  | some m =>
    simp [Row.set] at h
    subst h
    simp [Row.get, GoMap.getElem?_insert, hk]

section
variable [Arith F] [Lib F]

theorem handleInput_frame (k : String) : (dfs : List (DerivedField F)) → (∀ df ∈ dfs, df.name ≠ k) →
    (row : Row F) → (handleInput dfs row).2.get k = row.get k ∧ ((handleInput dfs row).2 = none ↔ row = none)
  | [], _, row => by simp [handleInput]
  | df :: dfs, h, row => by
    simp only [handleInput]
    cases handleExpression row df.expr with
    | error e => exact ⟨rfl, Iff.rfl⟩
    | ok v =>
      simp only
      cases hs : row.set df.name (storeValue df.opType v) with
      | error e => exact ⟨rfl, Iff.rfl⟩
      | ok row' =>
        have h1 := Row.get_set_ne hs (h df (by simp))
        have h2 := handleInput_frame k dfs (fun d hd => h d (by simp [hd])) row'
        exact ⟨h2.1.trans h1.1, h2.2.trans h1.2⟩

end

theorem imputeLoop_frame (k : String) : (es : List (String × GoVal F)) → (∀ kv ∈ es, kv.1 ≠ k) →
    (row : Row F) → (imputeLoop es row).2.get k = row.get k ∧ ((imputeLoop es row).2 = none ↔ row = none)
  | [], _, row => by simp [imputeLoop]
  | (x, d) :: es, h, row => by
    have ih := fun row => imputeLoop_frame k es (fun d hd => h d (by simp [hd])) row
    rw [imputeLoop]
    split
    · cases hs : row.set x d with
      | error e => exact ⟨rfl, Iff.rfl⟩
      | ok row' =>
        have h1 := Row.get_set_ne hs (h (x, d) (by simp))
        have h2 := ih row'
        exact ⟨h2.1.trans h1.1, h2.2.trans h1.2⟩
    · exact ih row

theorem writeAll_frame (k : String) : (es : List (String × GoVal F)) → (∀ kv ∈ es, kv.1 ≠ k) →
    (row : Row F) → (writeAll es row).2.get k = row.get k ∧ ((writeAll es row).2 = none ↔ row = none)
  | [], _, row => by simp [writeAll]
  | (x, d) :: es, h, row => by
    rw [writeAll]
    cases hs : row.set x d with
    | error e => exact ⟨rfl, Iff.rfl⟩
    | ok row' =>
      have h1 := Row.get_set_ne hs (h (x, d) (by simp))
      have h2 := writeAll_frame k es (fun d hd => h d (by simp [hd])) row'
      exact ⟨h2.1.trans h1.1, h2.2.trans h1.2⟩

variable [Arith F] [Lib F] [Trans F]

/-- `k` is a key of some row the model can return. -/
def Returns (m : EModel F) (k : String) : Prop :=
  ∃ o row out, (EModel.evaluate o m row).res = .ok (some out) ∧ (out[k]?).isSome

/-- The keys of the caller's row a model may write. -/
inductive Writes : EModel F → String → Prop
  | treeDerived {m : TreeModel F} {df} : df ∈ m.model.localTransformations → Writes (.tree m) df.name
  | replacement {s ms k} : (s.defaultValues[k]?).isSome → Writes (.mining s ms) k
  | derived {s ms df} : df ∈ s.head.localTransformations → Writes (.mining s ms) df.name
  | segment {s ms m k} : m ∈ ms → Writes m k → Writes (.mining s ms) k
  | chained {s ms m k} : s.head.method = .modelChain → m ∈ ms → Returns m k → Writes (.mining s ms) k

/-- The row is left alone at `k`, and a nil row stays nil. -/
def Keeps (k : String) (before after : Row F) : Prop :=
  after.get k = before.get k ∧ (after = none ↔ before = none)

omit [Arith F] [Lib F] [Trans F] in
theorem Keeps.trans {k : String} {a b c : Row F} (h1 : Keeps k a b) (h2 : Keeps k b c) : Keeps k a c :=
  ⟨h2.1.trans h1.1, h2.2.trans h1.2⟩

theorem sumSegments_frame {k : String} (ms : List (EModel F))
    (ih : ∀ m ∈ ms, ∀ o row, Keeps k row (EModel.evaluate o m row).row) :
    ∀ o fn i sm row, Keeps k row (sumSegments o fn i sm ms row).row := by
  induction ms with
  | nil => intro o fn i sm row; simp only [sumSegments]; exact ⟨rfl, Iff.rfl⟩
  | cons m ms ihs =>
    intro o fn i sm row
    simp only [sumSegments]
    have h1 := ih m (by simp) (o.at_ (2 * i)) row
    cases (EModel.evaluate (o.at_ (2 * i)) m row).res with
    | error e => exact h1
    | ok out => exact h1.trans (ihs (fun a ha => ih a (by simp [ha])) _ _ _ _ _)

theorem chainSegments_frame {k : String} (ms : List (EModel F))
    (ih : ∀ m ∈ ms, ∀ o row, Keeps k row (EModel.evaluate o m row).row) (hr : ∀ m ∈ ms, ¬ Returns m k) :
    ∀ o i last row, (last.getD ∅)[k]? = none → Keeps k row (chainSegments o i last ms row).row := by
  induction ms with
  | nil => intro o i last row _; simp only [chainSegments]; exact ⟨rfl, Iff.rfl⟩
  | cons m ms ihs =>
    intro o i last row hl
    simp only [chainSegments]
    have h0 : Keeps k row (writeAll ((o.at_ (2 * i)).range (last.getD ∅)) row).2 := by
      refine writeAll_frame k _ ?_ row
      rintro ⟨x, v⟩ hx rfl
      rw [MapOrd.mem_range] at hx
      simp only at hx hl
      rw [hl] at hx; simp at hx
    rcases hw : writeAll ((o.at_ (2 * i)).range (last.getD ∅)) row with ⟨e | ⟨⟨⟩⟩, row1⟩ <;> rw [hw] at h0
    · exact h0
    · have h1 := ih m (by simp) (o.at_ (2 * i + 1)) row1
      simp only
      cases he : (EModel.evaluate (o.at_ (2 * i + 1)) m row1).res with
      | error e => exact h0.trans h1
      | ok out =>
        refine (h0.trans h1).trans (ihs (fun a ha => ih a (by simp [ha])) (fun a ha => hr a (by simp [ha])) _ _ _ _ ?_)
        cases out with
        | none => simp
        | some out =>
          simp only [Option.getD_some]
          cases hk : out[k]? with
          | none => rfl
          | some v => exact absurd ⟨_, _, out, he, by simp [hk]⟩ (hr m (by simp))

/-- **C41**: in any state, nested to any depth, on any row and in any map order, Evaluate leaves
every key alone that is not a replacement field, a local derived field or, below a model chain, a
key some segment returns.  Nil rows stay nil. -/
theorem C41_frame (m : EModel F) (k : String) : ¬ Writes m k → ∀ o row,
    Keeps k row (EModel.evaluate o m row).row := by
  induction m using EModel.ind with
  | ht m =>
    intro hw o row
    simp only [EModel.evaluate, TreeModel.evaluate]
    by_cases hv : m.validated = true
    swap
    · rw [if_pos hv]; exact ⟨rfl, Iff.rfl⟩
    by_cases hc : m.compiled = true
    swap
    · rw [if_neg (by simp [hv]), if_pos hc]; exact ⟨rfl, Iff.rfl⟩
    · rw [if_neg (by simp [hv]), if_neg (by simp [hc])]
      have h0 := handleInput_frame k m.model.localTransformations
        (fun df hd he => hw (he ▸ .treeDerived hd)) row
      rcases hi : handleInput m.model.localTransformations row with ⟨e | ⟨⟨⟩⟩, row1⟩ <;> rw [hi] at h0
      · exact h0
      · simp only
        cases evalNode m.ctx o row1 m.root <;> exact h0
  | hr d => intro _ o row; simp only [EModel.evaluate]; exact ⟨rfl, Iff.rfl⟩
  | hm s ms ih =>
    intro hw o row
    have ih' : ∀ m ∈ ms, ∀ o row, Keeps k row (EModel.evaluate o m row).row :=
      fun m hm => ih m hm (fun h => hw (.segment hm h))
    simp only [EModel.evaluate]
    by_cases hv : s.validated = true
    swap
    · rw [if_pos hv]; exact ⟨rfl, Iff.rfl⟩
    by_cases hc : s.compiled = true
    swap
    · rw [if_neg (by simp [hv]), if_pos hc]; exact ⟨rfl, Iff.rfl⟩
    · rw [if_neg (by simp [hv]), if_neg (by simp [hc])]
      have h0 : Keeps k row (imputeLoop ((o.at_ 0).range s.defaultValues) row).2 := by
        refine imputeLoop_frame k _ ?_ row
        rintro ⟨x, v⟩ hx rfl
        rw [MapOrd.mem_range] at hx
        exact hw (.replacement (by simp only at hx ⊢; rw [hx]; rfl))
      rcases hi : imputeLoop ((o.at_ 0).range s.defaultValues) row with ⟨e | ⟨⟨⟩⟩, row1⟩ <;> rw [hi] at h0
      · exact h0
      · simp only
        have h1 := h0.trans (handleInput_frame k s.head.localTransformations
          (fun df hd he => hw (he ▸ .derived hd)) row1)
        rcases hi : handleInput s.head.localTransformations row1 with ⟨e | ⟨⟨⟩⟩, row2⟩ <;> rw [hi] at h1
        · exact h1
        · simp only
          cases hm : s.head.method with
          | average => exact h1.trans (sumSegments_frame ms ih' _ _ _ _ _)
          | sum => exact h1.trans (sumSegments_frame ms ih' _ _ _ _ _)
          | modelChain =>
            exact h1.trans (chainSegments_frame ms ih' (fun m hmm hr => hw (.chained hm hmm hr)) _ _ _ _ (by simp))
          | selectFirst =>
            cases ms with
            | nil => simp only [selectFirst]; exact h1
            | cons m ms => simp only [selectFirst]; exact h1.trans (ih' m (by simp) _ _)
          | empty => exact h1
          | other t => exact h1

/-- What a document may write: as `Writes`, said of the document. -/
inductive DocWrites : ModelElem F → String → Prop
  | treeDerived {d : TreeDoc F} {df} : df ∈ d.localTransformations → DocWrites (.tree d) df.name
  | replacement {h : MiningHead F} {segs f} : f ∈ h.miningFields → f.missingValueReplacement.isSome →
      DocWrites (.mining h segs) f.name
  | derived {h : MiningHead F} {segs df} : df ∈ h.localTransformations → DocWrites (.mining h segs) df.name
  | segment {h segs id ps e k} : SegDoc.mk id ps [e] ∈ segs → DocWrites e k → DocWrites (.mining h segs) k
  | chained {h segs id ps e k dd td m td'} : h.method = .modelChain → SegDoc.mk id ps [e] ∈ segs →
      newModel dd e td = (.ok m, td') → Returns m k → DocWrites (.mining h segs) k

omit [Trans F] in
theorem segModels_mem {dd : List DataField} {segs : List (SegDoc F)} {td td' : TD F} {ms : List (EModel F)}
    (h : SegModels dd segs td ms td') {m : EModel F} (hm : m ∈ ms) :
    ∃ id ps e td1 td2, SegDoc.mk id ps [e] ∈ segs ∧ newModel dd e td1 = (.ok m, td2) := by
  induction h with
  | nil => simp at hm
  | cons h1 _ ih =>
    rcases List.mem_cons.mp hm with rfl | hm
    · exact ⟨_, _, _, _, _, List.mem_cons_self, h1⟩
    · obtain ⟨id, ps, e, td1, td2, hs, hn⟩ := ih hm
      exact ⟨id, ps, e, td1, td2, by simp [hs], hn⟩

theorem writes_doc {dd : List DataField} {m : EModel F} {k : String} (h : Writes m k) :
    ∀ {e : ModelElem F} {td td' : TD F}, newModel dd e td = (.ok m, td') → DocWrites e k := by
  induction h with
  | treeDerived hd =>
    intro e td td' hn
    cases e with
    | tree d =>
      rw [newModel] at hn
      rcases ht : newTreeModel dd td d with ⟨_ | t, td1⟩ <;> rw [ht] at hn
      · simp at hn
      · simp at hn; obtain ⟨rfl, -⟩ := hn
        rw [(newTreeModel_ok ht).2.2.2.2.2.1] at hd
        exact .treeDerived hd
    | regression d => simp [newModel] at hn
    | mining h segs => obtain ⟨s, ms, h, -⟩ := newMining_ok hn; simp at h
    | other k => simp [newModel] at hn
  | replacement hr =>
    rename_i s ms k
    intro e td td' hn
    cases e with
    | tree d =>
      rw [newModel] at hn
      rcases ht : newTreeModel dd td d with ⟨_ | t, td1⟩ <;> rw [ht] at hn <;> simp at hn
    | regression d => simp [newModel] at hn
    | mining h segs =>
      obtain ⟨s', ms', he, -, -, -, -, -, hd, -⟩ := newMining_ok hn
      simp at he; obtain ⟨rfl, rfl⟩ := he
      rw [hd, buildDefaults_getElem?] at hr
      have hrep : (Spec.replacement h.miningFields k).isSome := by
        cases hx : Spec.replacement h.miningFields k with
        | none => rw [hx] at hr; simp at hr
        | some t => rfl
      unfold Spec.replacement at hrep
      cases hl : (h.miningFields.filter (fun f => decide (f.name = k ∧ f.missingValueReplacement.isSome))).getLast? with
      | none => rw [hl] at hrep; simp at hrep
      | some f =>
        have := List.mem_of_getLast? hl
        simp only [List.mem_filter, decide_eq_true_eq] at this
        obtain ⟨hf, rfl, hs⟩ := this
        exact .replacement hf hs
    | other k => simp [newModel] at hn
  | derived hd =>
    intro e td td' hn
    cases e with
    | tree d =>
      rw [newModel] at hn
      rcases ht : newTreeModel dd td d with ⟨_ | t, td1⟩ <;> rw [ht] at hn <;> simp at hn
    | regression d => simp [newModel] at hn
    | mining h segs =>
      obtain ⟨s', ms', he, -, -, -, hh, -⟩ := newMining_ok hn
      simp at he; obtain ⟨rfl, rfl⟩ := he
      rw [hh] at hd
      exact .derived hd
    | other k => simp [newModel] at hn
  | segment hm _ ih =>
    intro e td td' hn
    cases e with
    | tree d =>
      rw [newModel] at hn
      rcases ht : newTreeModel dd td d with ⟨_ | t, td1⟩ <;> rw [ht] at hn <;> simp at hn
    | regression d => simp [newModel] at hn
    | mining h segs =>
      obtain ⟨s', ms', he, -, -, -, -, -, -, -, -, hc⟩ := newMining_ok hn
      simp at he; obtain ⟨rfl, rfl⟩ := he
      obtain ⟨id, ps, e, td1, td2, hs, hn'⟩ := segModels_mem (compileSegments_models segs hc) hm
      exact .segment hs (ih hn')
    | other k => simp [newModel] at hn
  | chained hmeth hm hr =>
    intro e td td' hn
    cases e with
    | tree d =>
      rw [newModel] at hn
      rcases ht : newTreeModel dd td d with ⟨_ | t, td1⟩ <;> rw [ht] at hn <;> simp at hn
    | regression d => simp [newModel] at hn
    | mining h segs =>
      obtain ⟨s', ms', he, -, -, -, hh, -, -, -, -, hc⟩ := newMining_ok hn
      simp at he; obtain ⟨rfl, rfl⟩ := he
      obtain ⟨id, ps, e, td1, td2, hs, hn'⟩ := segModels_mem (compileSegments_models segs hc) hm
      rw [hh] at hmeth
      have : h.method = .modelChain := by
        cases hm : h.method <;> simp [effectiveMethod, hm] at hmeth ⊢
      exact .chained this hs hn' hr
    | other k => simp [newModel] at hn

/-- **C41**, said of documents: evaluating a constructed model keeps every key of the caller's row
the document does not declare as written. -/
theorem C41_document {dd : List DataField} {e : ModelElem F} {td td' : TD F} {m : EModel F}
    (h : newModel dd e td = (.ok m, td')) {k : String} (hk : ¬ DocWrites e k) (o : MapOrd) (row : Row F) :
    (EModel.evaluate o m row).row.get k = row.get k :=
  (C41_frame m k (fun hw => hk (writes_doc hw h)) o row).1

/-- **C41**: regression models change nothing. -/
theorem C41_regression (d : RegressionDoc F) (o : MapOrd) (row : Row F) :
    (EModel.evaluate o (.regression d) row).row = row := by simp only [EModel.evaluate]

/-! ## C43 -/

mutual
/-- The documents NewModel accepts, and the transformation dictionary it leaves. -/
inductive Accepts (dd : List DataField) : ModelElem F → TD F → TD F → Prop
  | tree {d td} : AcceptableTree dd td d → Accepts dd (.tree d) td (td ++ d.localTransformations)
  | regression {d td} : Accepts dd (.regression d) td td
  | mining {h segs td td'} : SupportedMethod h.method → SupportedOutputs h.outputs →
      AcceptsSegs dd segs (td ++ h.localTransformations) td' → Accepts dd (.mining h segs) td td'
inductive AcceptsSegs (dd : List DataField) : List (SegDoc F) → TD F → TD F → Prop
  | nil {td} : AcceptsSegs dd [] td td
  | cons {id ps e segs td td1 td2} : Accepts dd e td td1 → AcceptsSegs dd segs td1 td2 →
      AcceptsSegs dd (.mk id ps [e] :: segs) td td2
end

omit [Trans F] in
mutual
theorem newModel_accepts (dd : List DataField) : (e : ModelElem F) → (td td' : TD F) →
    ((∃ m, newModel dd e td = (.ok m, td')) ↔ Accepts dd e td td') ∧
    ((∃ m, (newModel dd e td).1 = .ok m) ∨ ∃ err, (newModel dd e td).1 = fail err)
  | .tree d, td, td' => by
    rw [newModel]
    obtain ⟨h1, h2, h3⟩ := C08_construction dd td d
    rcases ht : newTreeModel dd td d with ⟨err | t, td1⟩
    · constructor
      · constructor
        · rintro ⟨m, h⟩; simp at h
        · rintro ⟨hacc⟩
          obtain ⟨m, td2, h⟩ := h1.mpr hacc
          rw [ht] at h; simp at h
      · right
        have hna : ¬ AcceptableTree dd td d := by
          intro hacc
          obtain ⟨m, td2, h⟩ := h1.mpr hacc
          rw [ht] at h; simp at h
        obtain ⟨e, td2, h⟩ := h2 hna
        rw [ht] at h; simp at h
        exact ⟨e, by rw [h.1]⟩
    · obtain ⟨-, htd, -⟩ := newTreeModel_ok ht
      have hacc := h1.mp ⟨t, td1, ht⟩
      refine ⟨⟨?_, ?_⟩, .inl ⟨_, rfl⟩⟩
      · rintro ⟨m, h⟩
        simp at h
        rw [← h.2, htd]
        exact .tree hacc
      · rintro ⟨_⟩
        exact ⟨_, by rw [htd]⟩
  | .regression d, td, td' => by
    rw [newModel]
    refine ⟨⟨?_, ?_⟩, .inl ⟨_, rfl⟩⟩
    · rintro ⟨m, h⟩; simp at h; rw [h.2]; exact .regression
    · rintro ⟨⟩; exact ⟨_, rfl⟩
  | .mining h segs, td, td' => by
    have ih := fun td' => compileSegments_accepts dd segs (td ++ h.localTransformations) td'
    rw [newModel]
    rcases mining_validate (MiningState.init dd h segs) with ⟨hm, ho, hv⟩ | ⟨hn, e, s', hv⟩
    · rw [hv]
      simp only [MiningState.init]
      rcases hc : compileSegments dd segs (td ++ h.localTransformations) with ⟨err | ⟨⟨⟩⟩, ms, td2⟩
      · refine ⟨⟨?_, ?_⟩, .inr ?_⟩
        · rintro ⟨m, h⟩; simp at h
        · rintro (_ | _ | ⟨-, -, hs⟩)
          obtain ⟨ms', h⟩ := (ih td').1.mpr hs
          rw [hc] at h; simp at h
        · rcases (ih td').2 with h | ⟨err', h⟩
          · rw [hc] at h; simp at h
          · rw [hc] at h; exact ⟨err', by simpa using h⟩
      · refine ⟨⟨?_, ?_⟩, .inl ⟨_, rfl⟩⟩
        · rintro ⟨m, h⟩
          simp at h
          rw [← h.2]
          exact .mining hm ho ((ih td2).1.mp ⟨ms, hc⟩)
        · rintro (_ | _ | ⟨-, -, hs⟩)
          obtain ⟨ms', h⟩ := (ih td').1.mpr hs
          rw [hc] at h; simp at h
          exact ⟨_, by rw [h.2]⟩
    · rw [hv]
      refine ⟨⟨?_, ?_⟩, .inr ⟨e, rfl⟩⟩
      · rintro ⟨m, h⟩; simp at h
      · rintro (_ | _ | ⟨hm, ho, hs⟩)
        exact absurd ⟨hm, ho⟩ hn
  | .other k, td, td' => by
    rw [newModel]
    refine ⟨⟨?_, ?_⟩, .inr ⟨_, rfl⟩⟩
    · rintro ⟨m, h⟩; simp at h
    · rintro ⟨⟩
theorem compileSegments_accepts (dd : List DataField) : (segs : List (SegDoc F)) → (td td' : TD F) →
    ((∃ ms, compileSegments dd segs td = (.ok (), ms, td')) ↔ AcceptsSegs dd segs td td') ∧
    ((compileSegments dd segs td).1 = .ok () ∨ ∃ err, (compileSegments dd segs td).1 = fail err)
  | [], td, td' => by
    rw [compileSegments]
    refine ⟨⟨?_, ?_⟩, .inl rfl⟩
    · rintro ⟨ms, h⟩; simp at h; rw [h.2]; exact .nil
    · rintro ⟨⟩; exact ⟨_, rfl⟩
  | .mk id ps [] :: segs, td, td' => by
    simp only [compileSegments]
    refine ⟨⟨?_, ?_⟩, .inr ⟨_, rfl⟩⟩
    · rintro ⟨ms, h⟩; simp at h
    · rintro ⟨⟩
  | .mk id ps (e :: e' :: es) :: segs, td, td' => by
    simp only [compileSegments]
    refine ⟨⟨?_, ?_⟩, .inr ⟨_, rfl⟩⟩
    · rintro ⟨ms, h⟩; simp at h
    · rintro ⟨⟩
  | .mk id ps [e] :: segs, td, td' => by
    have ih1 := fun td' => newModel_accepts dd e td td'
    have ih2 := fun td td' => compileSegments_accepts dd segs td td'
    rw [compileSegments]
    rcases hm : newModel dd e td with ⟨err | m, td1⟩
    · refine ⟨⟨?_, ?_⟩, .inr ?_⟩
      · rintro ⟨ms, h⟩; simp at h
      · rintro (_ | ⟨ha, hs⟩)
        obtain ⟨m, h⟩ := (ih1 _).1.mpr ha
        rw [hm] at h; simp at h
      · rcases (ih1 td').2 with ⟨m, h⟩ | ⟨err', h⟩
        · rw [hm] at h; simp at h
        · rw [hm] at h; exact ⟨err', by simpa using h⟩
    · refine ⟨⟨?_, ?_⟩, ?_⟩
      · rintro ⟨ms, h⟩
        simp at h
        refine .cons ((ih1 td1).1.mp ⟨m, hm⟩) ((ih2 td1 td').1.mp ⟨(compileSegments dd segs td1).2.1, ?_⟩)
        rw [← h.1, ← h.2.2]
      · rintro (_ | ⟨ha, hs⟩)
        obtain ⟨m', h⟩ := (ih1 _).1.mpr ha
        rw [hm] at h; simp at h
        obtain ⟨rfl, rfl⟩ := h
        obtain ⟨ms', h'⟩ := (ih2 _ _).1.mpr hs
        exact ⟨_, by simp only [h']; rfl⟩
      · exact (ih2 td1 td').2
end

omit [Trans F] in
/-- **C43**: NewModel succeeds exactly on supported documents, nested to any depth, leaves exactly
the dictionary extended by every local transformation on the way, and otherwise returns an error
(it never panics). -/
theorem C43_construction (dd : List DataField) (e : ModelElem F) (td : TD F) :
    (∀ td', (∃ m, newModel dd e td = (.ok m, td')) ↔ Accepts dd e td td') ∧
    ((¬ ∃ td', Accepts dd e td td') → ∃ err td', newModel dd e td = (fail err, td')) := by
  refine ⟨fun td' => (newModel_accepts dd e td td').1, fun hn => ?_⟩
  rcases (newModel_accepts dd e td []).2 with ⟨m, h⟩ | ⟨err, h⟩
  · exact absurd ⟨_, ((newModel_accepts dd e td (newModel dd e td).2).1.mp ⟨m, by rw [← h]⟩)⟩ hn
  · exact ⟨err, _, by rw [← h]⟩

/-! ## C44 -/

omit [Trans F] in
/-- **C44**: recompiling a constructed ensemble appends a second evaluator per segment, built with
the dictionary as it then is, after the evaluators already there; these see the constants that the
new ones have stored in the document. -/
theorem C44_recompile {dd : List DataField} {h : MiningHead F} {segs : List (SegDoc F)} {td td' td2 td3 : TD F}
    {M : EModel F} (hM : newModel dd (.mining h segs) td = (.ok M, td')) {ms2 : List (EModel F)}
    (h2 : SegModels dd segs (td2 ++ h.localTransformations) ms2 td3) :
    ∃ s ms, M = .mining s ms ∧ SegModels dd segs (td ++ h.localTransformations) ms td' ∧
      M.compile td2 = (.ok (), .mining s (syncSegs (storeSegs dd segs (td2 ++ h.localTransformations))
        (storeSegs dd segs (td2 ++ h.localTransformations)) ms ++ ms2), td3) := by
  rw [newModel] at hM
  rcases mining_validate (MiningState.init dd h segs) with ⟨hm, ho, hv⟩ | ⟨hn, e, s', hv⟩
  · rw [hv] at hM
    simp only [MiningState.init] at hM
    rcases hc : compileSegments dd segs (td ++ h.localTransformations) with ⟨err | ⟨⟨⟩⟩, ms, tdx⟩ <;>
      rw [hc] at hM
    · simp at hM
    · simp at hM
      obtain ⟨rfl, rfl⟩ := hM
      refine ⟨_, ms, rfl, compileSegments_models segs hc, ?_⟩
      simp only [EModel.compile, compileMining, MiningState.prepare]
      rw [h2.compile]
      have ht : ∀ fs : List MiningField, ∀ t t' : String, findTarget (findTarget t fs) fs = findTarget t fs ∧
          (findTarget t fs = t ∨ ∀ u, findTarget u fs = findTarget t fs) := by
        intro fs t _
        have hlast : ∀ fs : List MiningField, ∀ t, findTarget t fs = t ∧ (∀ u, findTarget u fs = u) ∨
            ∀ u, findTarget u fs = findTarget t fs := by
          intro fs
          induction fs with
          | nil => intro t; left; exact ⟨rfl, fun _ => rfl⟩
          | cons f fs ih =>
            intro t
            simp only [findTarget, List.foldl_cons] at ih ⊢
            by_cases hf : f.usageType = .target
            · simp only [hf, if_true]; right; intro _; trivial
            · simp only [hf, if_false]; exact ih t
        rcases hlast fs t with ⟨a, b⟩ | a
        · exact ⟨by rw [b], .inl a⟩
        · exact ⟨a _, .inr a⟩
      simp only [(ht _ "" "").1]
  · rw [hv] at hM; simp at hM

/-- No derived fields anywhere in the document. -/
inductive NoDerived : ModelElem F → Prop
  | tree {d : TreeDoc F} : d.localTransformations = [] → NoDerived (.tree d)
  | regression (d : RegressionDoc F) : NoDerived (.regression d)
  | mining {h : MiningHead F} {segs : List (SegDoc F)} : h.localTransformations = [] →
      (∀ id ps e, SegDoc.mk id ps [e] ∈ segs → NoDerived e) → NoDerived (.mining h segs)

omit [Trans F] [Arith F] in
theorem accepts_noDerived {dd : List DataField} {e : ModelElem F} (hn : NoDerived e) :
    ∀ {td td' : TD F}, Accepts dd e td td' → td' = td := by
  induction hn with
  | tree hl => rintro td _ ⟨⟩; rw [hl]; simp
  | regression => rintro td _ ⟨⟩; rfl
  | mining hl hs ih =>
    rename_i h segs
    rintro td td' (_ | _ | ⟨-, -, ha⟩)
    rw [hl, List.append_nil] at ha
    have key : ∀ segs' : List (SegDoc F), (∀ s ∈ segs', s ∈ segs) → ∀ {td td'}, AcceptsSegs dd segs' td td' → td' = td := by
      intro segs'
      induction segs' with
      | nil => rintro - td _ ⟨⟩; rfl
      | cons s l ihl =>
        rintro hsub td td2 (_ | ⟨ha, hb⟩)
        rw [ihl (fun s hs => hsub s (by simp [hs])) hb]
        exact ih _ _ _ (hsub _ List.mem_cons_self) ha
    exact key segs (fun _ h => h) ha

omit [Trans F] in
/-- The model and the dictionary after `n` further calls of Compile. -/
def recompiled (M : EModel F) (td : TD F) : Nat → EModel F × TD F
  | 0 => (M, td)
  | n + 1 =>
    let p := recompiled M td n
    ((p.1.compile p.2).2.1, (p.1.compile p.2).2.2)

omit [Trans F] in
/-- **C44**: without derived fields, `n` recompilations leave `n + 1` copies of the evaluators. -/
theorem C44_copies {dd : List DataField} {h : MiningHead F} {segs : List (SegDoc F)} {td td' : TD F}
    {M : EModel F} (hM : newModel dd (.mining h segs) td = (.ok M, td')) (hn : NoDerived (.mining h segs)) :
    ∃ s ms, M = .mining s ms ∧ SegModels dd segs td ms td ∧
      ∀ n, recompiled M td' n = (.mining s (List.replicate (n + 1) ms).flatten, td) := by
  have htd : td' = td := accepts_noDerived hn ((C43_construction dd _ td).1 td' |>.mp ⟨M, hM⟩)
  have hl : h.localTransformations = [] := by cases hn; assumption
  obtain ⟨s, ms, rfl, hv, hc, hdd, hh, hs, hd, ho, ht, hcs⟩ := newMining_ok hM
  have hms := compileSegments_models segs hcs
  rw [hl, List.append_nil, htd] at hms
  refine ⟨s, ms, rfl, hms, ?_⟩
  obtain ⟨s', ms', he, -, hcomp⟩ := C44_recompile hM (td2 := td) (by rw [hl, List.append_nil]; exact hms)
  simp at he
  obtain ⟨rfl, rfl⟩ := he
  have hdd' : s.dd = dd := hdd
  have hcs' : compileSegments dd segs td = (.ok (), ms, td) := hms.compile
  have hself : syncSegs (storeSegs dd segs td) (storeSegs dd segs td) ms = ms := by
    have := syncSegs_rounds hcs' 1
    simpa using this
  have hstep : ∀ n, compileMining s (List.replicate (n + 1) ms).flatten td =
      (.ok (), .mining s ((List.replicate (n + 1) ms).flatten ++ ms), td) := by
    intro n
    rw [hl, List.append_nil, hself] at hcomp
    have hlt : s.head.localTransformations = [] := by rw [hh]; exact hl
    simp only [EModel.compile, compileMining, hlt, List.append_nil, hdd', hs, hcs', hself] at hcomp
    simp only [compileMining, hlt, List.append_nil, hdd', hs, hcs', syncSegs_rounds hcs']
    simp at hcomp ⊢
    exact hcomp
  intro n
  induction n with
  | zero => simp [recompiled, htd]
  | succ n ih =>
    rw [recompiled, ih]
    simp only [EModel.compile, hstep]
    rw [List.replicate_succ' (n := n + 1), List.flatten_append]
    simp

/-- **C44**: what a sum ensemble without derived fields answers after `n` recompilations: the sum
over `n + 1` rounds of its segments, rescaled once. -/
theorem C44_sum_effect {dd : List DataField} {h : MiningHead F} {segs : List (SegDoc F)} {td td' : TD F}
    {M : EModel F} (hM : newModel dd (.mining h segs) td = (.ok M, td')) (hn : NoDerived (.mining h segs))
    (hm : usesMethod h .sum) {row row2 : Row F} (hp : Prepared h row (.ok ()) row2) (o : MapOrd) (n : Nat) :
    ∃ ms r row', SegModels dd segs td ms td ∧ SegsRun (List.replicate (n + 1) ms).flatten row2 r row' ∧
      (∀ e, r = .error e → (EModel.evaluate o (recompiled M td' n).1 row).res = .error e) ∧
      ∀ outs, r = .ok outs → ∃ out, (EModel.evaluate o (recompiled M td' n).1 row).res = .ok (some out) ∧
        ∀ k, out[k]? = if k ∈ ensembleKeys h then some (.f64 (ensembleSum h outs k)) else none := by
  obtain ⟨s, ms, rfl, hms, hrec⟩ := C44_copies hM hn
  obtain ⟨s', ms', he, hv, hc, hdd, hh, hs, hd, ho, ht, hcs⟩ := newMining_ok hM
  simp at he
  obtain ⟨rfl, rfl⟩ := he
  rw [hrec]
  have hfs : s.head.miningFields = h.miningFields := by rw [hh]
  have hlt : s.head.localTransformations = h.localTransformations := by rw [hh]
  have hfn : s.head.functionName = h.functionName := by rw [hh]
  have hmeth : s.head.method = .sum := by rw [hh]; exact hm
  obtain ⟨r, row', h1, h2, h3, h4⟩ := sum_run (List.replicate (n + 1) ms).flatten ho ht (o.at_ 1) (o.at_ 2) row2
  refine ⟨ms, r, row', hms, h1, ?_⟩
  rcases mining_evaluate hv hc (by rw [hd, hfs]) rfl o row (ms := (List.replicate (n + 1) ms).flatten) with
    ⟨e, row3, hp', he⟩ | ⟨row3, hp', he⟩
  · have := (prepared_unique hp (prepared_congr hfs.symm hlt.symm hp')).1; simp at this
  obtain ⟨-, rfl⟩ := prepared_unique hp (prepared_congr hfs.symm hlt.symm hp')
  rw [he]
  unfold runMethod
  rw [hmeth]
  simp only [hfn]
  refine ⟨?_, ?_⟩
  · intro e hr; rw [h3 e hr]; rfl
  · intro outs hr
    obtain ⟨sm, hs, hk⟩ := h4 outs hr
    exact ⟨_, by rw [hs]; rfl, hk⟩

theorem segsRun_unique {ms : List (EModel F)} (hd : ∀ m ∈ ms, ∀ o o' row,
      EModel.evaluate o m row = EModel.evaluate o' m row) {row row1 row2 : Row F} {r1 r2 : Res (List (Out F))}
    (h1 : SegsRun ms row r1 row1) (h2 : SegsRun ms row r2 row2) : r1 = r2 ∧ row1 = row2 := by
  induction h1 generalizing r2 row2 with
  | nil => cases h2; exact ⟨rfl, rfl⟩
  | fail h =>
    rename_i m ms row o e
    cases h2 with
    | fail h' =>
      rename_i o' e'
      rw [hd m (by simp) o' o] at h' ⊢
      rw [h] at h'; simp at h'; rw [h']; exact ⟨rfl, rfl⟩
    | cons h' _ => rw [hd m (by simp) _ o, h] at h'; simp at h'
  | cons h _ ih =>
    rename_i m ms row o out r row' _
    cases h2 with
    | fail h' => rw [hd m (by simp) _ o, h] at h'; simp at h'
    | cons h' h'' =>
      rw [hd m (by simp) _ o] at h' h''
      rw [h] at h'; simp at h'; subst h'
      obtain ⟨rfl, rfl⟩ := ih (fun a ha => hd a (by simp [ha])) h''
      exact ⟨rfl, rfl⟩

theorem segsRun_append {ms ms' : List (EModel F)} {row row1 row2 : Row F} {outs outs' : List (Out F)}
    (h1 : SegsRun ms row (.ok outs) row1) (h2 : SegsRun ms' row1 (.ok outs') row2) :
    SegsRun (ms ++ ms') row (.ok (outs ++ outs')) row2 := by
  generalize hr : (Except.ok outs : Res (List (Out F))) = r at h1
  induction h1 generalizing outs with
  | nil => simp at hr; subst hr; exact h2
  | fail => simp at hr
  | cons h _ ih =>
    rename_i r' _ _
    cases r' with
    | error e => simp [Except.map] at hr
    | ok l =>
      simp [Except.map] at hr
      subst hr
      exact .cons h (ih h2 rfl)

/-- **C44**, in exact arithmetic: for an ensemble without derived fields whose trees do not mix
distributions, when its segments leave the row alone, `n` recompilations multiply every entry that
is not rescaled by `n + 1`. -/
theorem C44_exact_multiple [Lib ℝ] {dd : List DataField} {h : MiningHead ℝ} {segs : List (SegDoc ℝ)} {td td' : TD ℝ}
    {M : EModel ℝ} (hM : newModel dd (.mining h segs) td = (.ok M, td')) (hn : NoDerived (.mining h segs))
    (hx : NoMixingDoc (.mining h segs)) (hm : usesMethod h .sum) {row row2 : Row ℝ}
    (hp : Prepared h row (.ok ()) row2) {ms : List (EModel ℝ)} (hms : SegModels dd segs td ms td)
    {outs : List (Out ℝ)} (hrun : SegsRun ms row2 (.ok outs) row2) {k : String}
    (hk : k ∈ ensembleKeys h) (hr : h.targets.filter (fun t => t.field = k) = [] ∨
      ∀ t ∈ h.targets, t.rescaleFactor = none ∧ t.rescaleConstant = none)
    (o : MapOrd) (n : Nat) :
    ∃ out x y, (EModel.evaluate o M row).res = .ok (some x) ∧ x[k]? = some (.f64 out) ∧
      (EModel.evaluate o (recompiled M td' n).1 row).res = .ok (some y) ∧
      y[k]? = some (.f64 ((n + 1) * out)) := by
  have hdet : ∀ m ∈ ms, ∀ o o' row, EModel.evaluate o m row = EModel.evaluate o' m row := by
    cases hx with
    | mining hx => exact fun m hm o o' row => C25_order (compileSegments_noMixing dd segs hx hms.compile m hm) o o' row
  have hres : ∀ x : ℝ, rescaled x (h.targets.filter (fun t => t.field = k)) = x := by
    intro x
    rcases hr with hr | hr
    · rw [hr]; rfl
    · have : ∀ ts : List (Target ℝ), (∀ t ∈ ts, t.rescaleFactor = none ∧ t.rescaleConstant = none) →
          rescaled x ts = x := by
        intro ts
        induction ts with
        | nil => intros; rfl
        | cons t ts ih =>
          intro ht
          obtain ⟨a, b⟩ := ht t (by simp)
          unfold rescaled
          simp only [a, b]
          exact ih (fun u hu => ht u (by simp [hu]))
      exact this _ (fun t ht => hr t (List.mem_filter.mp ht).1)
  have key : ∀ n, ∃ y, (EModel.evaluate o (recompiled M td' n).1 row).res = .ok (some y) ∧
      y[k]? = some (.f64 ((n + 1) * (outs.filterMap (contribution h.functionName k)).sum)) := by
    intro n
    obtain ⟨ms', r, row', hms', hrun', -, hok⟩ := C44_sum_effect hM hn hm hp o n
    have hmm : ms' = ms := by
      have := hms'.compile.symm.trans hms.compile
      simp at this; exact this
    subst hmm
    have hrep : ∀ n, SegsRun (List.replicate n ms').flatten row2 (.ok (List.replicate n outs).flatten) row2 := by
      intro n
      induction n with
      | zero => exact .nil
      | succ n ih =>
        rw [List.replicate_succ, List.replicate_succ, List.flatten_cons, List.flatten_cons]
        exact segsRun_append hrun ih
    have hd' : ∀ m ∈ (List.replicate (n + 1) ms').flatten, ∀ o o' row,
        EModel.evaluate o m row = EModel.evaluate o' m row := by
      intro m hm
      obtain ⟨l, hl, hm⟩ := List.mem_flatten.mp hm
      rw [List.eq_of_mem_replicate hl] at hm
      exact hdet m hm
    obtain ⟨hr1, -⟩ := segsRun_unique hd' hrun' (hrep (n + 1))
    obtain ⟨y, hy, hyk⟩ := hok _ hr1
    refine ⟨y, hy, ?_⟩
    rw [hyk, if_pos hk]
    unfold ensembleSum
    rw [hres, Real'.sum_eq]
    congr 2
    have hf : ∀ n : ℕ, (((List.replicate n outs).flatten).filterMap (contribution h.functionName k)).sum =
        n * (outs.filterMap (contribution h.functionName k)).sum := by
      intro n
      induction n with
      | zero => simp
      | succ n ih =>
        rw [List.replicate_succ, List.flatten_cons, List.filterMap_append, List.sum_append, ih]
        push_cast; ring
    rw [hf]
    push_cast; ring
  obtain ⟨x, hx1, hx2⟩ := key 0
  obtain ⟨y, hy1, hy2⟩ := key n
  refine ⟨_, x, y, hx1, ?_, hy1, hy2⟩
  rw [hx2]; simp

section Examples
open Samples Replay

-- C41: x is replaced, "score" is written by the chain, c is neither and kept; a sum of the same
-- trees does not write "score".
example : evalRow .sorted (.mining { head .modelChain with targets := [] }
      [seg (.tree (regTree "1" "10")), seg (.tree (regTree "2" "20"))]) [("c", .str "u")] =
        some (some (mk [("c", .str "u"), ("x", .str "3"), ("score", .f64 (num "1"))])) ∧
    evalRow .sorted (ensemble .sum) [("c", .str "u")] = some (some (mk [("c", .str "u"), ("x", .str "3")])) := by
  decide +kernel
example : ¬ DocWrites (ensemble .sum) "c" := by
  have htree : ∀ lo hi k, ¬ DocWrites (.tree (regTree lo hi)) k := by
    rintro lo hi k ⟨hd⟩
    simp [regTree] at hd
  have key : ∀ e k, DocWrites e k → e = ensemble .sum → k = "x" := by
    intro e k h he
    unfold ensemble at he
    cases h with
    | treeDerived hd => simp at he
    | replacement hf hr => simp at he; obtain ⟨rfl, rfl⟩ := he; simp [head] at hf; rw [hf]
    | derived hd => simp at he; obtain ⟨rfl, rfl⟩ := he; simp [head] at hd
    | segment hs hw =>
      simp at he; obtain ⟨rfl, rfl⟩ := he
      simp [seg] at hs
      rcases hs with ⟨-, -, rfl⟩ | ⟨-, -, rfl⟩ | ⟨-, -, rfl⟩ <;> exact absurd hw (htree _ _ _)
    | chained hm => simp at he; obtain ⟨rfl, rfl⟩ := he; simp [head] at hm
  intro h
  simpa using key _ _ h rfl

-- C43: accepted nested documents, and rejected ones: an unsupported method, output feature, model
-- kind, a segment with two models, an undeclared field deep inside.
example : (newModel Samples.dd nested []).1.isOk ∧
    (newModel Samples.dd (.mining (head (.other "max")) []) []).1.isOk = false ∧
    (newModel Samples.dd (.mining { head .sum with outputs := [⟨"p", .other "rank", ""⟩] } []) []).1.isOk = false ∧
    (newModel Samples.dd (.other "NeuralNetwork" : ModelElem F64) []).1.isOk = false ∧
    (newModel Samples.dd (.mining (head .sum) [.mk "" [] [.tree (regTree "1" "2"), .tree (regTree "1" "2")]]) []).1.isOk = false ∧
    (newModel [] nested []).1.isOk = false := by decide +kernel

-- C44: the premises hold for the sample, whose third answer is 43.
example : NoDerived (ensemble .sum) := by
  refine .mining rfl ?_
  intro id ps e he
  simp [seg] at he
  rcases he with ⟨-, -, rfl⟩ | ⟨-, -, rfl⟩ | ⟨-, -, rfl⟩ <;> exact .tree rfl
example : (match newModel Samples.dd (ensemble .sum) [] with
      | (.ok m, td) => decide ((EModel.evaluate .sorted (recompiled m td 2).1 (some (mk []))).res =
          .ok (some (mk [("y", .f64 (num "43"))])))
      | _ => false) = true := by decide +kernel

/-- **C44**, the negation: recompiling a sum ensemble changes its prediction (15 becomes 29). -/
theorem C44_not_harmless : ∃ (M : EModel F64) (td : TD F64) (row : Row F64),
    newModel Samples.dd (ensemble .sum) [] = (.ok M, td) ∧
    (EModel.evaluate .sorted M row).res = .ok (some (mk [("y", .f64 (num "15"))])) ∧
    (M.compile td).1 = .ok () ∧
    (EModel.evaluate .sorted (M.compile td).2.1 row).res = .ok (some (mk [("y", .f64 (num "29"))])) := by
  have h : (match newModel Samples.dd (ensemble .sum) [] with
      | (.ok m, td) => decide (
        (EModel.evaluate .sorted m (some (mk []))).res = .ok (some (mk [("y", .f64 (num "15"))])) ∧
        (m.compile td).1 = .ok () ∧
        (EModel.evaluate .sorted (m.compile td).2.1 (some (mk []))).res = .ok (some (mk [("y", .f64 (num "29"))])))
      | _ => false) = true := by decide +kernel
  rcases hm : newModel Samples.dd (ensemble .sum) [] with ⟨_ | m, td⟩ <;> rw [hm] at h
  · simp at h
  · simp only [decide_eq_true_eq] at h
    exact ⟨m, td, _, rfl, h⟩

end Examples

end Gopmml.Props
