import Verif.Proofs.Order
import Verif.Proofs.Tree
import Verif.Spec.Mining

/-!
# Ensembles compute their specifications
-/

namespace Gopmml
open Spec

variable {F : Type}

/-- A loop over distinct keys that conditionally overwrites entries. -/
theorem fold_if_getElem? {V W : Type} (g : String × V → Option W) (es : List (String × V))
    (hn : (es.map (·.1)).Nodup) (init : GoMap W) (k : String) :
    (es.foldl (fun acc kv => match g kv with | some w => acc.insert kv.1 w | none => acc) init)[k]? =
      match es.find? (fun kv => kv.1 = k) with
      | some kv => (match g kv with | some w => some w | none => init[k]?)
      | none => init[k]? := by
  induction es generalizing init with
  | nil => rfl
  | cons e es ih =>
    obtain ⟨h1, h2⟩ := List.nodup_cons.mp (by simpa using hn : (e.1 :: es.map (·.1)).Nodup)
    rw [List.foldl_cons, ih h2]
    by_cases hk : e.1 = k
    · have hnone : es.find? (fun kv => decide (kv.1 = k)) = none := by
        rw [List.find?_eq_none]
        intro x hx
        simp only [decide_eq_true_eq]
        rintro rfl
        exact h1 (hk ▸ List.mem_map.mpr ⟨x, hx, rfl⟩)
      rw [hnone, List.find?_cons_of_pos (by simpa using hk)]
      simp only
      cases g e with
      | none => rfl
      | some w => rw [GoMap.getElem?_insert, if_pos hk]
    · rw [List.find?_cons_of_neg (by simpa using hk)]
      have : (match g e with | some w => init.insert e.1 w | none => init)[k]? = init[k]? := by
        cases g e with
        | none => rfl
        | some w => rw [GoMap.getElem?_insert, if_neg hk]
      rw [this]

theorem range_find? {V : Type} (o : MapOrd) (m : GoMap V) (k : String) :
    (o.range m).find? (fun kv => kv.1 = k) = (m[k]?).map (fun v => (k, v)) := by
  cases h : m[k]? with
  | none =>
    rw [Option.map_none, List.find?_eq_none]
    intro x hx
    simp only [decide_eq_true_eq]
    rintro rfl
    rw [MapOrd.mem_range] at hx
    rw [h] at hx; cases hx
  | some v =>
    rw [Option.map_some]
    have hmem : (k, v) ∈ o.range m := by rw [MapOrd.mem_range]; exact h
    cases hf : (o.range m).find? (fun kv => decide (kv.1 = k)) with
    | none =>
      rw [List.find?_eq_none] at hf
      exact absurd (decide_eq_true rfl) (hf _ hmem)
    | some x =>
      have hx := List.mem_of_find?_eq_some hf
      have hk := List.find?_some hf
      simp only [decide_eq_true_eq] at hk
      rw [range_key_inj o m hx hmem hk]

theorem fold_range_getElem? {V W : Type} (o : MapOrd) (m : GoMap V) (g : String × V → Option W)
    (init : GoMap W) (k : String) :
    ((o.range m).foldl (fun acc kv => match g kv with | some w => acc.insert kv.1 w | none => acc) init)[k]? =
      match m[k]? with
      | some v => (match g (k, v) with | some w => some w | none => init[k]?)
      | none => init[k]? := by
  rw [fold_if_getElem? g _ (o.nodup_range m), range_find?]
  cases m[k]? <;> rfl

theorem fold_insert_range_getElem? {V W : Type} (o : MapOrd) (m : GoMap V) (g : String × V → W)
    (init : GoMap W) (k : String) :
    ((o.range m).foldl (fun acc kv => acc.insert kv.1 (g kv)) init)[k]? =
      match m[k]? with
      | some v => some (g (k, v))
      | none => init[k]? := by
  have := fold_range_getElem? o m (fun kv => some (g kv)) init k
  simpa using this

theorem buildDefaults_getElem? (fs : List MiningField) (k : String) :
    (buildDefaults (F := F) fs)[k]? = (replacement fs k).map GoVal.str := by
  have key : ∀ (fs : List MiningField) (m : GoMap (GoVal F)),
      (fs.foldl (fun m f => match f.missingValueReplacement with
        | some d => m.insert f.name (.str d)
        | none => m) m)[k]? =
      match (fs.filter (fun f => decide (f.name = k ∧ f.missingValueReplacement.isSome))).getLast? with
      | some f => f.missingValueReplacement.map GoVal.str
      | none => m[k]? := by
    intro fs
    induction fs with
    | nil => intro m; rfl
    | cons f fs ih =>
      intro m
      rw [List.foldl_cons, ih, getLast?_filter_cons]
      cases (fs.filter (fun f => decide (f.name = k ∧ f.missingValueReplacement.isSome))).getLast? with
      | some g => rfl
      | none =>
        simp only
        cases hr : f.missingValueReplacement with
        | none => simp
        | some d =>
          simp only [GoMap.getElem?_insert, Option.isSome_some, and_true]
          by_cases hk : f.name = k
          · simp [hk, hr]
          · simp [hk]
  have hfs := key fs ∅
  refine Eq.trans hfs ?_
  unfold replacement
  cases hl : (fs.filter (fun f => decide (f.name = k ∧ f.missingValueReplacement.isSome))).getLast? with
  | none => simp
  | some f => simp

/-- Replacement writes exactly the missing fields, in any order. -/
theorem impute_some (o : MapOrd) (fs : List MiningField) (row : GoMap (GoVal F)) :
    ∃ row', imputeLoop (o.range (buildDefaults fs)) (some row) = (.ok (), some row') ∧
      Imputed fs row row' := by
  refine ⟨_, imputeLoop_some _ _, ?_⟩
  intro k
  have key : ∀ (es : List (String × GoVal F)) (m : GoMap (GoVal F)), (es.map (·.1)).Nodup →
      (es.foldl imputeStep m)[k]? = match es.find? (fun kv => kv.1 = k) with
        | some kv => if ((m[k]?).getD .nil).isNil = true then some kv.2 else m[k]?
        | none => m[k]? := by
    intro es
    induction es with
    | nil => intro m _; rfl
    | cons e es ih =>
      intro m hn
      obtain ⟨h1, h2⟩ := List.nodup_cons.mp (by simpa using hn : (e.1 :: es.map (·.1)).Nodup)
      rw [List.foldl_cons, ih _ h2]
      by_cases hk : e.1 = k
      · have hnone : es.find? (fun kv => decide (kv.1 = k)) = none := by
          rw [List.find?_eq_none]
          intro x hx
          simp only [decide_eq_true_eq]
          rintro rfl
          exact h1 (hk ▸ List.mem_map.mpr ⟨x, hx, rfl⟩)
        rw [hnone, List.find?_cons_of_pos (by simpa using hk)]
        simp only [imputeStep_getElem?, hk, true_and]
      · rw [List.find?_cons_of_neg (by simpa using hk)]
        simp only [imputeStep_getElem?, hk, false_and, if_false]
  rw [key _ row (o.nodup_range _), range_find?, buildDefaults_getElem?]
  cases replacement fs k with
  | none => rfl
  | some t =>
    simp only [Option.map_some]
    cases hv : row[k]? with
    | none => simp [GoVal.isNil]
    | some v => cases v <;> simp [GoVal.isNil]

theorem impute_none (o : MapOrd) (fs : List MiningField) :
    ((∃ k, (replacement fs k).isSome) ∧
      imputeLoop (F := F) (o.range (buildDefaults fs)) none = (panic .nilMapWrite, none)) ∨
    ((∀ k, replacement fs k = none) ∧
      imputeLoop (F := F) (o.range (buildDefaults fs)) none = (.ok (), none)) := by
  rw [imputeLoop_none]
  by_cases h : ∃ k, (replacement fs k).isSome
  · left
    refine ⟨h, ?_⟩
    rw [if_neg]
    obtain ⟨k, hk⟩ := h
    obtain ⟨t, ht⟩ := Option.isSome_iff_exists.mp hk
    intro he
    have : (k, GoVal.str t) ∈ o.range (buildDefaults (F := F) fs) := by
      rw [MapOrd.mem_range, buildDefaults_getElem?, ht]; rfl
    rw [he] at this
    simp at this
  · right
    refine ⟨fun k => by
      cases hr : replacement fs k with
      | none => rfl
      | some t => exact absurd ⟨k, by simp [hr]⟩ h, ?_⟩
    rw [if_pos]
    push Not at h
    apply List.eq_nil_iff_forall_not_mem.mpr
    rintro ⟨k, v⟩ hx
    rw [MapOrd.mem_range, buildDefaults_getElem?] at hx
    have := h k
    cases hr : replacement fs k with
    | none => rw [hr] at hx; simp at hx
    | some t => rw [hr] at this; simp at this

theorem writeAll_extended (o : MapOrd) (out : GoMap (GoVal F)) (row : Row F) :
    (row = none ∧ out ≠ ∅ ∧ writeAll (o.range out) row = (panic .nilMapWrite, none)) ∨
    ∃ row', writeAll (o.range out) row = (.ok (), row') ∧ Extended row out row' := by
  cases row with
  | none =>
    rw [writeAll_none]
    by_cases h : o.range out = []
    · right
      have hout : out = ∅ := by
        apply Std.ExtTreeMap.ext_getElem?
        intro k
        cases hk : out[k]? with
        | none => simp
        | some v =>
          have : (k, v) ∈ o.range out := by rw [MapOrd.mem_range]; exact hk
          rw [h] at this; simp at this
      refine ⟨none, by rw [if_pos h], Iff.rfl, fun _ => hout, ?_⟩
      intro k
      rw [hout]; simp
    · left
      refine ⟨rfl, ?_, by rw [if_neg h]⟩
      rintro rfl
      apply h
      apply List.eq_nil_iff_forall_not_mem.mpr
      rintro ⟨k, v⟩ hx
      rw [MapOrd.mem_range] at hx
      simp at hx
  | some m =>
    right
    refine ⟨_, writeAll_some _ m, by simp, by simp, ?_⟩
    intro k
    show (List.foldl _ m _)[k]? = _
    rw [fold_insert_range_getElem? o out (fun kv => kv.2)]
    cases out[k]? <;> rfl

variable [Arith F] [Lib F]

omit [Lib F] in
theorem rescale_getElem? (targets : List (Target F)) (sm : GoMap F) (k : String)
    (hp : ∀ t ∈ targets, (sm[t.field]?).isSome) :
    (rescale targets sm)[k]? = (sm[k]?).map (fun x => rescaled x (targets.filter (fun t => t.field = k))) := by
  unfold rescale
  induction targets generalizing sm with
  | nil => simp [rescaled]
  | cons t ts ih =>
    rw [List.foldl_cons]
    obtain ⟨x, hx⟩ := Option.isSome_iff_exists.mp (hp t (by simp))
    rw [ih]
    · by_cases hk : t.field = k
      · subst hk
        rw [List.filter_cons_of_pos (by simp), hx]
        cases hf : t.rescaleFactor <;> cases hc : t.rescaleConstant <;>
          simp [rescaled, hf, hc, hx]
      · rw [List.filter_cons_of_neg (by simpa using hk)]
        congr 1
        cases hf : t.rescaleFactor <;> cases hc : t.rescaleConstant <;>
          simp [GoMap.getElem?_insert, hk]
    · intro u hu
      have := hp u (by simp [hu])
      cases hf : t.rescaleFactor <;> cases hc : t.rescaleConstant <;>
        simp only [GoMap.getElem?_insert] <;> (try split_ifs) <;> simp_all

omit [Lib F] in
theorem initScores_getElem? (s : MiningState F) (k : String) :
    (initScores s)[k]? =
      if k ∈ s.outputFields.map (·.name) ++ s.targets.map (·.field) then some Arith.zero else none := by
  unfold initScores
  have key : ∀ {α : Type} (f : α → String) (l : List α) (m : GoMap F),
      (l.foldl (fun m a => m.insert (f a) Arith.zero) m)[k]? =
        if k ∈ l.map f then some Arith.zero else m[k]? := by
    intro α f l
    induction l with
    | nil => intro m; simp
    | cons a l ih =>
      intro m
      rw [List.foldl_cons, ih, GoMap.getElem?_insert]
      by_cases h : k ∈ l.map f
      · rw [if_pos h, if_pos (by simp only [List.map_cons, List.mem_cons]; exact .inr h)]
      · rw [if_neg h]
        by_cases h' : f a = k
        · rw [if_pos h', if_pos (by simp [h'])]
        · rw [if_neg h', if_neg (by simp only [List.map_cons, List.mem_cons]; rintro (e | e); exacts [h' e.symm, h e])]
  rw [key (fun t : Target F => t.field), key (fun f : OutputField => f.name)]
  by_cases h1 : k ∈ s.targets.map (·.field) <;> by_cases h2 : k ∈ s.outputFields.map (·.name) <;> simp [h1, h2]

theorem addScore_getElem? (o : MapOrd) (fn : MiningFunction) (out : Out F) (sm : GoMap F) (k : String) :
    ((o.range sm).foldl (addScore fn out) sm)[k]? =
      (sm[k]?).map (fun x => match contribution fn k out with
        | some v => Arith.add x v
        | none => x) := by
  have h : addScore fn out = fun acc kv =>
      match (contribution fn kv.1 out).map (Arith.add kv.2) with
      | some w => acc.insert kv.1 w
      | none => acc := by
    funext acc kv
    unfold addScore contribution
    simp only
    cases out.bind (fun m => m[if fn = .classification then kv.1 else "score"]?) <;> rfl
  rw [h, fold_range_getElem? o sm (fun kv => (contribution fn kv.1 out).map (Arith.add kv.2))]
  cases hk : sm[k]? with
  | none => rfl
  | some x => simp only; cases contribution fn k out <;> simp

variable [Trans F]

theorem sumSegments_run (ms : List (EModel F)) (o : MapOrd) (fn : MiningFunction) (i : Nat) (sm : GoMap F)
    (row : Row F) :
    ∃ r row', SegsRun ms row r row' ∧ (sumSegments o fn i sm ms row).row = row' ∧
      (∀ e, r = .error e → (sumSegments o fn i sm ms row).res = .error e) ∧
      ∀ outs, r = .ok outs → ∃ sm', (sumSegments o fn i sm ms row).res = .ok sm' ∧
        ∀ k, sm'[k]? = (sm[k]?).map (fun x => (outs.filterMap (contribution fn k)).foldl Arith.add x) := by
  induction ms generalizing i sm row with
  | nil =>
    refine ⟨_, _, .nil, by simp only [sumSegments], by simp, ?_⟩
    rintro outs ⟨⟩
    exact ⟨sm, by simp only [sumSegments], by simp⟩
  | cons m ms ih =>
    simp only [sumSegments]
    cases he : (EModel.evaluate (o.at_ (2 * i)) m row).res with
    | error e =>
      exact ⟨_, _, .fail he, rfl, by rintro _ ⟨⟩; rfl, by simp⟩
    | ok out =>
      obtain ⟨r, row', hrun, h1, h2, h3⟩ := ih (i + 1)
        (((o.at_ (2 * i + 1)).range sm).foldl (addScore fn out) sm) (EModel.evaluate (o.at_ (2 * i)) m row).row
      refine ⟨_, _, .cons he hrun, h1, ?_, ?_⟩
      · intro e hr
        cases r with
        | error e' => simp [Except.map] at hr; subst hr; exact h2 _ rfl
        | ok outs => simp [Except.map] at hr
      · intro outs hr
        cases r with
        | error e' => simp [Except.map] at hr
        | ok outs' =>
          simp [Except.map] at hr
          subst hr
          obtain ⟨sm', hs, hk⟩ := h3 outs' rfl
          refine ⟨sm', hs, fun k => ?_⟩
          rw [hk, addScore_getElem?, Option.map_map]
          congr 1
          funext x
          simp only [Function.comp, List.filterMap_cons]
          cases contribution fn k out <;> rfl

theorem chainSegments_run (ms : List (EModel F)) (o : MapOrd) (i : Nat) (last : Out F) (row : Row F) :
    ChainRun last ms row (chainSegments o i last ms row).res (chainSegments o i last ms row).row := by
  induction ms generalizing i last row with
  | nil => simp only [chainSegments]; exact .nil
  | cons m ms ih =>
    simp only [chainSegments]
    rcases writeAll_extended (o.at_ (2 * i)) (last.getD ∅) row with ⟨rfl, hne, hw⟩ | ⟨row1, hw, hx⟩
    · rw [hw]; exact .nilRow hne
    · rw [hw]
      simp only
      cases he : (EModel.evaluate (o.at_ (2 * i + 1)) m row1).res with
      | error e => exact .fail hx he
      | ok out => exact .cons hx he (ih _ _ _)

/-- The methods that can be evaluated. -/
def SupportedMethod (m : MultipleModelMethod) : Prop :=
  m = .empty ∨ m = .sum ∨ m = .average ∨ m = .modelChain ∨ m = .selectFirst

/-- The output features that can be evaluated. -/
def SupportedOutputs (outputs : List OutputField) : Prop :=
  ∀ f ∈ outputs, f.feature = .empty ∨ f.feature = .probability

omit [Arith F] [Lib F] [Trans F] in
theorem mining_validate (s : MiningState F) :
    (SupportedMethod s.head.method ∧ SupportedOutputs s.head.outputs ∧
      s.validate = (.ok (), { s with head := { s.head with method := effectiveMethod s.head.method }, validated := true })) ∨
    (¬ (SupportedMethod s.head.method ∧ SupportedOutputs s.head.outputs) ∧ ∃ e s', s.validate = (fail e, s')) := by
  have hb : s.head.outputs.all (fun f => f.feature = .empty ∨ f.feature = .probability) = true ↔
      SupportedOutputs s.head.outputs := by
    simp [SupportedOutputs]
  unfold MiningState.validate
  by_cases ho : SupportedOutputs s.head.outputs
  · cases hm : s.head.method <;> simp [ho, SupportedMethod, effectiveMethod, fail] <;>
      exact fun x hx hne => (ho x hx).resolve_left hne
  · right
    refine ⟨fun h => ho h.2, ?_⟩
    have ho' : ¬ _ := fun h => ho (hb.mp h)
    by_cases h : (if s.head.method = .empty then MultipleModelMethod.sum else s.head.method) = .average ∨
        (if s.head.method = .empty then MultipleModelMethod.sum else s.head.method) = .modelChain ∨
        (if s.head.method = .empty then MultipleModelMethod.sum else s.head.method) = .sum ∨
        (if s.head.method = .empty then MultipleModelMethod.sum else s.head.method) = .selectFirst
    · exact ⟨_, _, by rw [if_pos h, if_neg ho']⟩
    · exact ⟨_, _, by rw [if_neg h]⟩

omit [Trans F] in
/-- What a constructed mining model consists of. -/
theorem newMining_ok {dd : List DataField} {h : MiningHead F} {segs : List (SegDoc F)} {td td' : TD F}
    {M : EModel F} (hM : newModel dd (.mining h segs) td = (.ok M, td')) :
    ∃ s ms, M = .mining s ms ∧ s.validated = true ∧ s.compiled = true ∧ s.dd = dd ∧
      s.head = { h with method := effectiveMethod h.method } ∧ s.segments = segs ∧
      s.defaultValues = buildDefaults h.miningFields ∧ s.outputFields = h.outputs ∧ s.targets = h.targets ∧
      compileSegments dd segs (td ++ h.localTransformations) = (.ok (), ms, td') := by
  rw [newModel] at hM
  rcases mining_validate (MiningState.init dd h segs) with ⟨-, -, hv⟩ | ⟨-, e, s', hv⟩
  · rw [hv] at hM
    simp only [MiningState.init] at hM
    rcases hc : compileSegments dd segs (td ++ h.localTransformations) with ⟨_ | ⟨⟨⟩⟩, ms, td2⟩ <;>
      rw [hc] at hM
    · simp at hM
    · simp at hM
      obtain ⟨rfl, rfl⟩ := hM
      exact ⟨_, ms, rfl, rfl, rfl, rfl, rfl, rfl, rfl, rfl, rfl, rfl⟩
  · rw [hv] at hM; simp at hM

omit [Trans F] in
theorem compileSegments_models {dd : List DataField} : (segs : List (SegDoc F)) → {td td' : TD F} →
    {ms : List (EModel F)} → compileSegments dd segs td = (.ok (), ms, td') → SegModels dd segs td ms td'
  | [], td, td', ms, h => by
    simp [compileSegments] at h; obtain ⟨rfl, rfl⟩ := h; exact .nil
  | .mk id ps [] :: segs, td, td', ms, h => by simp [compileSegments] at h
  | .mk id ps [e] :: segs, td, td', ms, h => by
    rw [compileSegments] at h
    rcases hm : newModel dd e td with ⟨_ | m, td1⟩ <;> rw [hm] at h
    · simp at h
    · simp at h
      obtain ⟨h1, rfl, h3⟩ := h
      refine .cons hm (compileSegments_models segs ?_)
      rw [← h1, ← h3]
  | .mk id ps (e :: e' :: es) :: segs, td, td', ms, h => by simp [compileSegments] at h

omit [Trans F] in
theorem Spec.SegModels.length_eq {dd : List DataField} {segs : List (SegDoc F)} {td td' : TD F}
    {ms : List (EModel F)} (h : SegModels dd segs td ms td') : ms.length = segs.length := by
  induction h with
  | nil => rfl
  | cons _ _ ih => simp [ih]

omit [Trans F] in
theorem Spec.SegModels.compile {dd : List DataField} {segs : List (SegDoc F)} {td td' : TD F}
    {ms : List (EModel F)} (h : SegModels dd segs td ms td') :
    compileSegments dd segs td = (.ok (), ms, td') := by
  induction h with
  | nil => rw [compileSegments]
  | cons hm _ ih => rw [compileSegments, hm]; simp only [ih]

omit [Trans F] in
/-- Preparation does what it should, in every order. -/
theorem prepare_eq (o : MapOrd) (h : MiningHead F) (row : Row F) :
    (∃ e row2, imputeLoop (o.range (buildDefaults h.miningFields)) row = (.error e, row2) ∧
      Prepared h row (.error e) row2) ∨
    ∃ row1, imputeLoop (o.range (buildDefaults h.miningFields)) row = (.ok (), row1) ∧
      ∀ r row2, handleInput h.localTransformations row1 = (r, row2) → Prepared h row r row2 := by
  cases row with
  | some row =>
    obtain ⟨row1, h1, h2⟩ := impute_some o h.miningFields row
    exact .inr ⟨_, h1, fun r row2 hi => .row h2 hi⟩
  | none =>
    rcases impute_none (F := F) o h.miningFields with ⟨⟨k, hk⟩, hi⟩ | ⟨hn, hi⟩
    · exact .inl ⟨_, _, hi, .nilPanic hk⟩
    · exact .inr ⟨_, hi, fun r row2 hh => .nilRow hn hh⟩

omit [Arith F] [Lib F] [Trans F] in
theorem imputed_unique {fs : List MiningField} {row r1 r2 : GoMap (GoVal F)} (h1 : Imputed fs row r1)
    (h2 : Imputed fs row r2) : r1 = r2 := by
  apply Std.ExtTreeMap.ext_getElem?
  intro k
  rw [h1 k, h2 k]

omit [Trans F] in
theorem prepared_unique {h : MiningHead F} {row : Row F} {r1 r2 : Res Unit} {row1 row2 : Row F}
    (h1 : Prepared h row r1 row1) (h2 : Prepared h row r2 row2) : r1 = r2 ∧ row1 = row2 := by
  cases h1 with
  | row a b =>
    cases h2 with
    | row a' b' =>
      rw [imputed_unique a a', b'] at b
      simp at b; exact ⟨b.1.symm, b.2.symm⟩
  | nilRow a b =>
    cases h2 with
    | nilRow a' b' => rw [b'] at b; simp at b; exact ⟨b.1.symm, b.2.symm⟩
    | nilPanic hk => rw [a] at hk; simp at hk
  | nilPanic hk =>
    cases h2 with
    | nilRow a' b' => rw [a'] at hk; simp at hk
    | nilPanic hk => exact ⟨rfl, rfl⟩

/-- What an ensemble does once the row is prepared. -/
def runMethod (o : MapOrd) (s : MiningState F) (ms : List (EModel F)) (row : Row F) :
    Ev F (Out F) (EModel F) :=
  match s.head.method with
  | .average =>
    let r := sumSegments (o.at_ 1) s.head.functionName 0 (initScores s) ms row
    ⟨r.res.map fun sm =>
        let out := sumFinish (o.at_ 2) s sm
        some (averageLoop s.segments.length ((o.at_ 3).range out) out),
      r.row, .mining s r.model⟩
  | .sum =>
    let r := sumSegments (o.at_ 1) s.head.functionName 0 (initScores s) ms row
    ⟨r.res.map fun sm => some (sumFinish (o.at_ 2) s sm), r.row, .mining s r.model⟩
  | .modelChain =>
    let r := chainSegments (o.at_ 1) 0 (some ∅) ms row
    ⟨r.res, r.row, .mining s r.model⟩
  | .selectFirst =>
    let r := selectFirst (o.at_ 1) ms row
    ⟨r.res, r.row, .mining s r.model⟩
  | _ => ⟨fail .unsupportedMultipleModelMethod, row, .mining s ms⟩

theorem mining_evaluate {s : MiningState F} {ms : List (EModel F)} (hv : s.validated = true)
    (hc : s.compiled = true) {fs : List MiningField} (hd : s.defaultValues = buildDefaults fs)
    (hh : s.head.miningFields = fs) (o : MapOrd) (row : Row F) :
    (∃ e row2, Prepared s.head row (.error e) row2 ∧
      EModel.evaluate o (.mining s ms) row = ⟨.error e, row2, .mining s ms⟩) ∨
    ∃ row2, Prepared s.head row (.ok ()) row2 ∧
      EModel.evaluate o (.mining s ms) row = runMethod o s ms row2 := by
  subst hh
  simp only [EModel.evaluate]
  rw [if_neg (by simp [hv]), if_neg (by simp [hc]), hd]
  rcases prepare_eq (o.at_ 0) s.head row with ⟨e, row2, hi, hp⟩ | ⟨row1, hi, hp⟩
  · rw [hi]; exact .inl ⟨e, row2, hp, rfl⟩
  · rw [hi]
    simp only
    rcases hr : handleInput s.head.localTransformations row1 with ⟨e | ⟨⟨⟩⟩, row2⟩
    · exact .inl ⟨e, row2, hp _ _ hr, rfl⟩
    · exact .inr ⟨row2, hp _ _ hr, rfl⟩

omit [Trans F] in
theorem prepared_congr {h h' : MiningHead F} (h1 : h'.miningFields = h.miningFields)
    (h2 : h'.localTransformations = h.localTransformations) {row : Row F} {r : Res Unit} {row2 : Row F}
    (hp : Prepared h row r row2) : Prepared h' row r row2 := by
  cases hp with
  | row a b => exact .row (by rw [h1]; exact a) (by rw [h2]; exact b)
  | nilRow a b => exact .nilRow (by rw [h1]; exact a) (by rw [h2]; exact b)
  | nilPanic hk => exact .nilPanic (by rw [h1]; exact hk)

/-- A constructed ensemble evaluates by preparing the row and running its method. -/
theorem constructed_mining {dd : List DataField} {h : MiningHead F} {segs : List (SegDoc F)} {td td' : TD F}
    {M : EModel F} (hM : newModel dd (.mining h segs) td = (.ok M, td')) :
    ∃ s ms, M = .mining s ms ∧ SegModels dd segs (td ++ h.localTransformations) ms td' ∧
      s.head = { h with method := effectiveMethod h.method } ∧ s.outputFields = h.outputs ∧
      s.targets = h.targets ∧ s.segments = segs ∧ ∀ o row,
      (∃ e row2, Prepared h row (.error e) row2 ∧
        EModel.evaluate o M row = ⟨.error e, row2, M⟩) ∨
      ∃ row2, Prepared h row (.ok ()) row2 ∧ EModel.evaluate o M row = runMethod o s ms row2 := by
  obtain ⟨s, ms, rfl, hv, hc, -, hh, hs, hd, ho, ht, hms⟩ := newMining_ok hM
  refine ⟨s, ms, rfl, compileSegments_models segs hms, hh, ho, ht, hs, fun o row => ?_⟩
  have hfs : s.head.miningFields = h.miningFields := by rw [hh]
  have hlt : s.head.localTransformations = h.localTransformations := by rw [hh]
  rcases mining_evaluate hv hc (by rw [hd, hfs]) rfl o row (ms := ms) with ⟨e, row2, hp, he⟩ | ⟨row2, hp, he⟩
  · exact .inl ⟨e, row2, prepared_congr hfs.symm hlt.symm hp, he⟩
  · exact .inr ⟨row2, prepared_congr hfs.symm hlt.symm hp, he⟩

omit [Arith F] [Lib F] [Trans F] in
theorem scoresToRow_getElem? (o : MapOrd) (sm : GoMap F) (k : String) :
    (scoresToRow (o.range sm))[k]? = (sm[k]?).map GoVal.f64 := by
  unfold scoresToRow
  rw [fold_insert_range_getElem? o sm (fun kv => GoVal.f64 kv.2)]
  cases sm[k]? <;> simp

omit [Trans F] in
theorem averageLoop_getElem? (o : MapOrd) (n : Nat) (out : GoMap (GoVal F)) (k : String) :
    (averageLoop n (o.range out) out)[k]? =
      (out[k]?).map (fun v => .f64 (Arith.div v.float64 (Arith.ofInt n))) := by
  unfold averageLoop
  rw [fold_insert_range_getElem? o out (fun kv => GoVal.f64 (Arith.div kv.2.float64 (Arith.ofInt n)))]
  cases out[k]? <;> simp

end Gopmml
