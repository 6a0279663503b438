import Verif.Spec.Safe
import Verif.Proofs.Document
import Verif.Proofs.Answer
import Verif.Proofs.Regression

/-!
# Checked documents answer
-/

namespace Gopmml
open Spec

variable {F : Type}

/-- The row holds all these fields. -/
def Holds (K : List String) (r : GoMap (GoVal F)) : Prop := ∀ k ∈ K, (r[k]?).isSome

theorem Holds.append {K L : List String} {r : GoMap (GoVal F)} : Holds (K ++ L) r ↔ Holds K r ∧ Holds L r := by
  simp [Holds, or_imp, forall_and]

theorem Holds.cons {k : String} {K : List String} {r : GoMap (GoVal F)} :
    Holds (k :: K) r ↔ (r[k]?).isSome ∧ Holds K r := by
  simp [Holds]

theorem Holds.insert {k : String} {K : List String} {r : GoMap (GoVal F)} {v : GoVal F} (h : Holds K r) :
    Holds (k :: K) (r.insert k v) := by
  intro j hj
  rw [Std.ExtTreeMap.getElem?_insert]
  split
  · rfl
  · rename_i hne
    rcases List.mem_cons.mp hj with rfl | hj
    · simp at hne
    · exact h j hj

/-- No field is lost. -/
def Keeps (r r' : GoMap (GoVal F)) : Prop := ∀ k : String, (r[k]?).isSome → (r'[k]?).isSome

theorem Keeps.trans {r r' r'' : GoMap (GoVal F)} (h : Keeps r r') (h' : Keeps r' r'') : Keeps r r'' :=
  fun k hk => h' k (h k hk)

theorem Holds.keep {K : List String} {r r' : GoMap (GoVal F)} (hK : Holds K r) (h : Keeps r r') : Holds K r' :=
  fun k hk => h k (hK k hk)

theorem Keeps.insert (r : GoMap (GoVal F)) (k : String) (v : GoVal F) : Keeps r (r.insert k v) := by
  intro j hj
  rw [Std.ExtTreeMap.getElem?_insert]
  split
  · rfl
  · exact hj

section
variable [Arith F] [Lib F]

omit [Arith F] in
theorem readable_ok {dt : DataType} {text : String} (h : readable F dt text = true) :
    ∃ v : GoVal F, getRawValue dt text = .ok v := by
  unfold readable at h
  unfold getRawValue
  cases dt <;> simp only at h ⊢
  case boolean => obtain ⟨b, hb⟩ := Option.isSome_iff_exists.mp h; rw [hb]; exact ⟨_, rfl⟩
  case double => obtain ⟨b, hb⟩ := Option.isSome_iff_exists.mp h; rw [hb]; exact ⟨_, rfl⟩
  case float => obtain ⟨b, hb⟩ := Option.isSome_iff_exists.mp h; rw [hb]; exact ⟨_, rfl⟩
  case integer => obtain ⟨b, hb⟩ := Option.isSome_iff_exists.mp h; rw [hb]; exact ⟨_, rfl⟩
  case string => exact ⟨_, rfl⟩
  case other => simp at h

omit [Arith F] [Lib F] in
theorem mapColumns_isSome {pairs : List FieldColumnPair} {r : GoMap (GoVal F)} {p : FieldColumnPair}
    (hp : p ∈ pairs) (h : (r[p.field]?).isSome) : ((mapColumns pairs (some r))[p.column]?).isSome := by
  have keep : ∀ (ps : List FieldColumnPair) (m : GoMap (GoVal F)) (k : String), (m[k]?).isSome →
      ((ps.foldl (fun columns pair => match Row.get (some r) pair.field with
        | some data => columns.insert pair.column data
        | none => columns) m)[k]?).isSome := by
    intro ps
    induction ps with
    | nil => intro m k h; exact h
    | cons q ps ih =>
      intro m k h
      rw [List.foldl_cons]
      apply ih
      split
      · rw [Std.ExtTreeMap.getElem?_insert]; split <;> simp [h]
      · exact h
  obtain ⟨pre, post, rfl⟩ := List.append_of_mem hp
  unfold mapColumns
  rw [List.foldl_append, List.foldl_cons]
  apply keep
  obtain ⟨v, hv⟩ := Option.isSome_iff_exists.mp h
  have : Row.get (some r) p.field = some v := hv
  rw [this]
  simp

omit [Arith F] in
theorem mapLookup_isSome (tables : List (List (GoMap (GoVal F)))) (columns : GoMap (GoVal F)) (k : String)
    (h : (columns[k]?).isSome) : ((mapLookup tables columns)[k]?).isSome := by
  have row : ∀ (rows : List (GoMap (GoVal F))) (c : GoMap (GoVal F)), (c[k]?).isSome →
      ((rows.foldl (fun columns row =>
        if cellIs row["input"]? ((columns["data:input"]?).getD .nil).string then
          columns.insert "data:output" ((row["output"]?).getD .nil)
        else columns) c)[k]?).isSome := by
    intro rows
    induction rows with
    | nil => intro c h; exact h
    | cons q rows ih =>
      intro c h
      rw [List.foldl_cons]
      apply ih
      split
      · rw [Std.ExtTreeMap.getElem?_insert]; split <;> simp [h]
      · exact h
  unfold mapLookup
  induction tables generalizing columns with
  | nil => exact h
  | cons t ts ih => rw [List.foldl_cons]; exact ih _ (row t columns h)

omit [Arith F] in
theorem safe_mapValues {K : List String} {m : MapValues F} {r : GoMap (GoVal F)} (hK : Holds K r)
    (h : safeExpr K (.mapValues m) = true) : ∃ v, handleMapValues m (some r) = .ok v := by
  unfold safeExpr at h
  unfold handleMapValues
  dsimp only
  split
  · exact ⟨_, rfl⟩
  · split at h
    · rename_i d hd
      rw [hd]
      exact readable_ok h
    · rename_i hd
      rw [hd]
      simp only [List.any_eq_true, Bool.and_eq_true, beq_iff_eq, List.contains_eq_mem, decide_eq_true_eq] at h
      obtain ⟨p, hp, hc, hk⟩ := h
      have h1 := mapLookup_isSome m.inlineTables _ p.column (mapColumns_isSome hp (hK _ hk))
      rw [hc] at h1
      obtain ⟨v, hv⟩ := Option.isSome_iff_exists.mp h1
      rw [hv]
      exact ⟨_, rfl⟩

mutual
theorem safeExpr_ok {K : List String} {r : GoMap (GoVal F)} (hK : Holds K r) :
    (e : Expr F) → safeExpr K e = true → ∃ v, handleExpression (some r) e = .ok v
  | .fieldRef f, _ => ⟨_, by rw [handleExpression]⟩
  | .const dt text, h => by
    rw [safeExpr] at h
    simp only [Bool.and_eq_true, beq_iff_eq] at h
    obtain ⟨rfl, h⟩ := h
    rw [handleExpression, handleConstant]
    unfold readable at h
    obtain ⟨x, hx⟩ := Option.isSome_iff_exists.mp h
    rw [hx]
    exact ⟨_, rfl⟩
  | .mapValues m, h => by rw [handleExpression]; exact safe_mapValues hK h
  | .other _, h => by simp [safeExpr] at h
  | .apply fn args, h => by
    rw [safeExpr] at h
    simp only [Bool.and_eq_true] at h
    obtain ⟨hc, ha⟩ := h
    have hall := safeExprs_ok hK args ha
    have hsum := safeExprs_sum hK args ha Arith.zero
    clear ha
    simp only [knownCall, Bool.or_eq_true, Bool.and_eq_true, beq_iff_eq, List.contains_eq_mem,
      List.mem_cons, List.not_mem_nil, or_false, decide_eq_true_eq] at hc
    unfold handleExpression
    by_cases h0 : fn = "sum"
    · obtain ⟨s, hs⟩ := hsum
      rw [if_pos h0, hs]
      exact ⟨_, rfl⟩
    rw [if_neg h0]
    rcases hc with ((hc | ⟨hf, hl⟩) | ⟨hf, hl⟩) | ⟨hf, hl⟩
    · exact absurd hc h0
    · rw [if_pos (by tauto)]
      match args, hl with
      | [e1, e2], _ =>
        obtain ⟨v1, h1⟩ := hall e1 (by simp)
        obtain ⟨v2, h2⟩ := hall e2 (by simp)
        simp only [h1, h2]
        rcases hf with rfl | rfl | rfl | rfl <;> exact ⟨_, rfl⟩
    · match args, hl with
      | [e1], _ =>
        obtain ⟨v1, h1⟩ := hall e1 (by simp)
        simp only [h1]
        rcases hf with rfl | rfl <;> exact ⟨_, rfl⟩
    · subst hf
      match args, hl with
      | [c, e1, e2], _ =>
        obtain ⟨v, hv⟩ := hall c (by simp)
        obtain ⟨v1, h1⟩ := hall e1 (by simp)
        obtain ⟨v2, h2⟩ := hall e2 (by simp)
        simp only [hv, h1, h2]
        by_cases hb : v.toBool
        · exact ⟨v1, by simp [hb, bind, Except.bind]⟩
        · exact ⟨v2, by simp [hb, bind, Except.bind]⟩
theorem safeExprs_ok {K : List String} {r : GoMap (GoVal F)} (hK : Holds K r) :
    (es : List (Expr F)) → safeExprs K es = true → ∀ e ∈ es, ∃ v, handleExpression (some r) e = .ok v
  | [], _ => by simp
  | e :: es, h => by
    rw [safeExprs] at h
    simp only [Bool.and_eq_true] at h
    intro e' he
    rcases List.mem_cons.mp he with he | he
    · rw [he]; exact safeExpr_ok hK e h.1
    · exact safeExprs_ok hK es h.2 e' he
theorem safeExprs_sum {K : List String} {r : GoMap (GoVal F)} (hK : Holds K r) :
    (es : List (Expr F)) → safeExprs K es = true → ∀ s, ∃ v, sumLoop (some r) s es = .ok v
  | [], _ => fun s => ⟨s, by rw [sumLoop]⟩
  | e :: es, h => by
    rw [safeExprs] at h
    simp only [Bool.and_eq_true] at h
    intro s
    obtain ⟨v, hv⟩ := safeExpr_ok hK e h.1
    rw [sumLoop, hv]
    exact safeExprs_sum hK es h.2 _
end

mutual
/-- Conversely, a plain expression that has a value in some row passes the check. -/
theorem safeExpr_of_ok {row : Row F} {K : List String} : (e : Expr F) → plain e = true → {v : GoVal F} →
    handleExpression row e = .ok v → safeExpr K e = true
  | .fieldRef f, _, _, _ => by rw [safeExpr]
  | .const dt text, _, v, h => by
    rw [handleExpression] at h
    unfold handleConstant at h
    rw [safeExpr]
    split at h
    · split at h
      · rename_i x hx
        simp [readable, hx]
      · simp at h
    · simp at h
  | .mapValues m, hp, _, _ => by simp [plain] at hp
  | .other _, _, v, h => by simp [handleExpression] at h
  | .apply fn args, hp, v, h => by
    rw [plain] at hp
    simp only [Bool.and_eq_true, bne_iff_ne, ne_eq] at hp
    have hsum := fun s v => safeExprs_of_sum (row := row) (K := K) args hp.2 (s := s) (v := v)
    have hall := safeExprs_of_ok (row := row) (K := K) args hp.2
    unfold handleExpression at h
    rw [safeExpr, Bool.and_eq_true]
    split at h
    · rename_i hf
      rcases hs : sumLoop row Arith.zero args with e | s
      · simp [hs, bind, Except.bind] at h
      · exact ⟨by simp [knownCall, hf], hsum _ _ hs⟩
    · split at h
      · rename_i hf
        split at h
        · rename_i e1 e2
          rcases h1 : handleExpression row e1 with e | v1
          · simp [h1, bind, Except.bind] at h
          · rcases h2 : handleExpression row e2 with e | v2
            · simp [h1, h2, bind, Except.bind] at h
            · refine ⟨?_, hall ?_⟩
              · rcases hf with rfl | rfl | rfl | rfl <;> rfl
              · intro e he
                simp only [List.mem_cons, List.not_mem_nil, or_false] at he
                rcases he with rfl | rfl
                · exact ⟨_, h1⟩
                · exact ⟨_, h2⟩
        · simp at h
      · split at h
        · rename_i hf
          split at h
          · rename_i e1
            rcases h1 : handleExpression row e1 with e | v1
            · simp [h1, bind, Except.bind] at h
            · refine ⟨by subst hf; rfl, hall ?_⟩
              intro e he
              simp only [List.mem_cons, List.not_mem_nil, or_false] at he
              subst he
              exact ⟨_, h1⟩
          · simp at h
        · split at h
          · rename_i hf
            split at h
            · rename_i e1
              rcases h1 : handleExpression row e1 with e | v1
              · simp [h1, bind, Except.bind] at h
              · refine ⟨by subst hf; rfl, hall ?_⟩
                intro e he
                simp only [List.mem_cons, List.not_mem_nil, or_false] at he
                subst he
                exact ⟨_, h1⟩
            · simp at h
          · split at h
            · rename_i hf; exact absurd hf hp.1
            · simp at h
theorem safeExprs_of_ok {row : Row F} {K : List String} : (es : List (Expr F)) → plains es = true →
    (∀ e ∈ es, ∃ v, handleExpression row e = .ok v) → safeExprs K es = true
  | [], _, _ => by rw [safeExprs]
  | e :: es, hp, h => by
    rw [plains] at hp
    simp only [Bool.and_eq_true] at hp
    rw [safeExprs, Bool.and_eq_true]
    have hv := (h e (by simp)).choose_spec
    exact ⟨safeExpr_of_ok e hp.1 hv, safeExprs_of_ok es hp.2 (fun e' he => h e' (by simp [he]))⟩
theorem safeExprs_of_sum {row : Row F} {K : List String} : (es : List (Expr F)) → plains es = true →
    {s v : F} → sumLoop row s es = .ok v → safeExprs K es = true
  | [], _, _, _, _ => by rw [safeExprs]
  | e :: es, hp, s, v, h => by
    rw [plains] at hp
    simp only [Bool.and_eq_true] at hp
    rw [safeExprs, Bool.and_eq_true]
    rw [sumLoop] at h
    rcases hv : handleExpression row e with e' | w
    · simp [hv, bind, Except.bind] at h
    · simp only [hv, bind, Except.bind] at h
      exact ⟨safeExpr_of_ok e hp.1 hv, safeExprs_of_sum es hp.2 h⟩
end

theorem safeDerived_ok (dfs : List (DerivedField F)) : ∀ {K : List String}
    {r : GoMap (GoVal F)}, Holds K r → safeDerived K dfs = true →
    ∃ r', handleInput dfs (some r) = (.ok (), some r') ∧ Keeps r r' ∧ Holds (dfs.map (·.name)) r' := by
  induction dfs with
  | nil => intro K r hK _; exact ⟨r, rfl, fun k h => h, by simp [Holds]⟩
  | cons df dfs ih =>
    intro K r hK h
    rw [safeDerived] at h
    simp only [Bool.and_eq_true] at h
    obtain ⟨v, hv⟩ := safeExpr_ok hK df.expr h.1
    obtain ⟨r', h1, h2, h3⟩ := ih (Holds.insert (v := storeValue df.opType v) hK) h.2
    refine ⟨r', ?_, (Keeps.insert _ _ _).trans h2, ?_⟩
    · rw [handleInput, hv]
      exact h1
    · rw [List.map_cons, Holds.cons]
      exact ⟨h2 _ (by simp), h3⟩

variable [Trans F]

omit [Arith F] [Lib F] [Trans F] in
theorem tableFields_eq (d : RegressionDoc F) :
    tableFields d = (d.tables.flatMap (·.predictors)).map (·.name) := by
  rw [tableFields, List.map_flatMap]

omit [Lib F] in
theorem linkKnown_iff (n : Normalization) : linkKnown n = true ↔ ∃ g : F → F, link n = some g := by
  cases n <;> simp [linkKnown, link]

omit [Arith F] [Lib F] in
theorem weightKnown_iff (n : Normalization) : weightKnown n = true ↔ ∃ g : F → F, weight n = some g := by
  cases n <;> simp [weightKnown, weight]

omit [Arith F] [Lib F] [Trans F] in
theorem firstMissing_none (row : Row F) (nps : List (NumericPredictor F)) :
    firstMissing row nps = none ↔ ∀ k ∈ nps.map (·.name), (row.get k).isSome := by
  simp [firstMissing, List.find?_eq_none, Option.isSome_iff_ne_none]

omit [Arith F] [Lib F] [Trans F] in
/-- What is in the answer stays, and the outputs of a category are put in. -/
theorem binaryOut_isSome (outputs : List OutputField) (cat : String) (x : F) (m : GoMap (GoVal F)) (k : String) :
    (((binaryOut outputs cat x m)[k]?).isSome ↔
      (m[k]?).isSome ∨ ∃ o ∈ outputs, o.value = cat ∧ o.name = k) := by
  unfold binaryOut
  induction outputs generalizing m with
  | nil => simp
  | cons o os ih =>
    rw [List.foldl_cons, ih]
    by_cases h : cat = o.value
    · rw [if_pos h, Std.ExtTreeMap.getElem?_insert]
      by_cases hk : o.name = k
      · simp [h, hk]
      · simp [h, hk]
    · rw [if_neg h]
      have : o.value ≠ cat := fun h' => h h'.symm
      simp [this]

theorem binaryTables_gives (n : Normalization) (outputs : List OutputField) (row : Row F) :
    ∀ (ts : List (RegressionTable F)) (rest : F) (m out : GoMap (GoVal F)),
    binaryTables n outputs row rest m ts = .ok out → ∀ k : String,
      ((out[k]?).isSome ↔ (m[k]?).isSome ∨ ∃ o ∈ outputs, o.name = k ∧ ∃ t ∈ ts, t.targetCategory = o.value) := by
  intro ts
  induction ts with
  | nil => intro rest m out h k; simp [binaryTables] at h; simp [h]
  | cons t ts ih =>
    intro rest m out h k
    unfold binaryTables at h
    have : ∃ x, binaryTables n outputs row (Arith.sub rest x) (binaryOut outputs t.targetCategory x m) ts =
        .ok out := by
      dsimp only at h
      split_ifs at h with hp
      · rcases hb : binaryLoop n row t.intercept t.predictors with e | x
        · simp [hb, bind, Except.bind] at h
        · exact ⟨x, by simpa only [hb, bind, Except.bind] using h⟩
      · exact ⟨rest, h⟩
    obtain ⟨x, h⟩ := this
    · rw [ih _ _ _ h k, binaryOut_isSome]
      simp only [List.mem_cons, exists_eq_or_imp]
      constructor
      · rintro ((h | ⟨o, ho, h1, h2⟩) | ⟨o, ho, h1, h2⟩)
        · exact .inl h
        · exact .inr ⟨o, ho, h2, .inl h1.symm⟩
        · exact .inr ⟨o, ho, h1, .inr h2⟩
      · rintro (h | ⟨o, ho, h1, h2 | h2⟩)
        · exact .inl (.inl h)
        · exact .inl (.inr ⟨o, ho, h2.symm, h1⟩)
        · exact .inr ⟨o, ho, h1, h2⟩

theorem regression_gives {d : RegressionDoc F} {row : Row F} {out : Out F} (h : d.evaluate row = .ok out) :
    ∃ a, out = some a ∧ ∀ k ∈ regressionGives d, (a[k]?).isSome := by
  unfold RegressionDoc.evaluate at h
  unfold regressionGives
  split at h
  · rename_i hf
    rw [hf]
    unfold RegressionDoc.evalRegression at h
    split at h
    · split at h
      · rename_i t ht _ o ho
        rw [ho]
        rcases h1 : linearLoop row t.intercept t.predictors with e | y
        · rw [h1] at h; simp [bind, Except.bind] at h
        · rw [h1] at h
          rcases h2 : normalize d.normalization y with e | p
          · simp [bind, Except.bind, h2] at h
          · simp only [bind, Except.bind, h2, pure, Except.pure, Except.ok.injEq] at h
            exact ⟨_, h.symm, by simp⟩
      · simp at h
    · simp at h
  · rename_i hf
    rw [hf]
    simp only
    split_ifs at h ⊢ with ho
    · unfold RegressionDoc.evalBinary at h
      rcases h1 : binaryTables d.normalization d.outputs row Arith.one ∅ d.tables with e | a
      · simp [h1, bind, Except.bind] at h
      · simp only [h1, bind, Except.bind, pure, Except.pure, Except.ok.injEq] at h
        refine ⟨a, h.symm, fun k hk => ?_⟩
        rw [binaryTables_gives _ _ _ _ _ _ _ h1 k]
        simp only [List.mem_map, List.mem_filter, List.contains_eq_mem, decide_eq_true_eq] at hk
        obtain ⟨o, ⟨ho, t, ht, htc⟩, hk⟩ := hk
        exact .inr ⟨o, ho, hk, t, ht, htc⟩
    · unfold RegressionDoc.evalMulticlass at h
      simp only [linearAll_eq, outFieldMap_getElem?] at h
      cases hm : firstMissing row (d.tables.flatMap (·.predictors)) with
      | some k => rw [hm] at h; simp [bind, Except.bind] at h
      | none =>
        rw [hm] at h
        simp only [bind, Except.bind] at h
        cases hw : weight (F := F) d.normalization with
        | none =>
          cases ht : d.tables with
          | nil =>
            rw [ht] at h
            simp only [List.map_nil, List.zip_nil_right, multiclassOut, pure, Except.pure, Except.ok.injEq] at h
            exact ⟨_, h.symm, by simp⟩
          | cons t ts =>
            rw [ht] at h
            simp only [List.map_cons, List.zip_cons_cons, multiclassOut_unsupported hw] at h
            simp at h
        | some g =>
          rw [multiclassOut_eq hw] at h
          simp only [pure, Except.pure, Except.ok.injEq] at h
          refine ⟨_, h.symm, fun k hk => ?_⟩
          rw [foldl_insertBy_getElem? _ (fun p : String × F => p.1)
            (fun p => GoVal.f64 (share g (d.tables.map (linear row)) p.2))]
          simp only [List.mem_map] at hk
          obtain ⟨t, ht, rfl⟩ := hk
          rw [Option.isSome_or, Bool.or_eq_true]
          left
          rw [Option.isSome_map, List.getLast?_isSome]
          intro hn
          rw [List.filter_eq_nil_iff] at hn
          rw [List.zip_map'] at hn
          exact hn (reportedAs d.outputs t.targetCategory, linear row t)
            (List.mem_map.mpr ⟨t, ht, rfl⟩) (by simp)
  · simp at h

/-- A regression answers exactly the rows that hold its fields, if it is of a known kind. -/
theorem regression_answers (d : RegressionDoc F) (row : Row F) :
    (∃ out, d.evaluate row = .ok out) ↔
      (∀ k ∈ tableFields d, (row.get k).isSome) ∧ regressionKnown d = true := by
  rw [tableFields_eq, ← firstMissing_none]
  unfold RegressionDoc.evaluate regressionKnown
  cases hf : d.functionName with
  | other s => simp
  | regression =>
    simp only [RegressionDoc.evalRegression, Bool.and_eq_true, beq_iff_eq]
    match ht : d.tables with
    | [] => simp
    | [t] =>
      match ho : d.outputs with
      | [] => simp
      | [o] =>
        simp only [linearLoop_eq, List.flatMap_cons, List.flatMap_nil, List.append_nil, List.length_singleton,
          true_and, linkKnown_iff (F := F)]
        cases hm : firstMissing row t.predictors with
        | some k => simp [bind, Except.bind]
        | none =>
          simp only [bind, Except.bind, normalize_eq]
          cases hl : link (F := F) d.normalization with
          | none => simp
          | some g => simp [pure, Except.pure]
      | _ :: _ :: _ => simp
    | _ :: _ :: _ => simp
  | classification =>
    simp only
    split_ifs with ho
    · simp only [RegressionDoc.evalBinary, Bool.or_eq_true, List.isEmpty_iff, linkKnown_iff (F := F)]
      cases hl : link (F := F) d.normalization with
      | some g =>
        rw [binaryTables_eq hl]
        cases firstMissing row (d.tables.flatMap (·.predictors)) with
        | some k => simp [bind, Except.bind]
        | none => simp [bind, Except.bind, pure, Except.pure]
      | none =>
        have := binaryTables_ok hl d.outputs row Arith.one ∅ d.tables
        rw [tableFields_eq, List.map_eq_nil_iff]
        simp only [reduceCtorEq, exists_false, or_false]
        rw [show (firstMissing row (d.tables.flatMap (·.predictors)) = none ∧
            d.tables.flatMap (·.predictors) = []) ↔ d.tables.flatMap (·.predictors) = [] from
          ⟨fun h => h.2, fun h => ⟨by rw [h]; rfl, h⟩⟩, ← this]
        cases binaryTables d.normalization d.outputs row Arith.one ∅ d.tables with
        | error e => simp [bind, Except.bind]
        | ok a => simp [bind, Except.bind, pure, Except.pure]
    · simp only [RegressionDoc.evalMulticlass, linearAll_eq, outFieldMap_getElem?, Bool.or_eq_true,
        List.isEmpty_iff, weightKnown_iff (F := F)]
      cases firstMissing row (d.tables.flatMap (·.predictors)) with
      | some k => simp [bind, Except.bind]
      | none =>
        simp only [bind, Except.bind, true_and]
        cases hw : weight (F := F) d.normalization with
        | none =>
          cases ht : d.tables with
          | nil => simp [multiclassOut, pure, Except.pure]
          | cons t ts =>
            simp only [List.map_cons, List.zip_cons_cons, multiclassOut_unsupported hw]
            simp
        | some g => rw [multiclassOut_eq hw]; simp [pure, Except.pure]

omit [Arith F] [Lib F] [Trans F] in
mutual
theorem everyNode_sub {p : Node F → Bool} : (n : Node F) → everyNode p n = true → ∀ {r : Node F}, Sub r n → p r = true
  | .mk id dc score rc dists nodes pred, h, r, hr => by
    rw [everyNode] at h
    simp only [Bool.and_eq_true] at h
    cases hr with
    | refl => exact h.1
    | child hc hr => exact everyNodes_sub nodes h.2 hc hr
theorem everyNodes_sub {p : Node F → Bool} : (ns : List (Node F)) → everyNodes p ns = true →
    ∀ {c r : Node F}, c ∈ ns → Sub r c → p r = true
  | [], _, c, r, hc, _ => by simp at hc
  | n :: ns, h, c, r, hc, hr => by
    rw [everyNodes] at h
    simp only [Bool.and_eq_true] at h
    rcases List.mem_cons.mp hc with he | hc
    · exact everyNode_sub n h.1 (he ▸ hr)
    · exact everyNodes_sub ns h.2 hc hr
end

omit [Trans F] in
/-- The node whose distribution is the answer, under the strategies without mixing. -/
theorem nodeAns_from {dd : List DataField} {d : TreeDoc F} {types : FieldTypes} {row : Row F} {a : Ans F}
    (hs : (goesDown d.missingValueStrategy || d.missingValueStrategy == .lastPrediction) = true)
    (h : NodeAns dd d (nodeTest types row) d.node a) (ht : a.2 = .t) :
    ∃ r, Sub r d.node ∧ a.1 = ownDist dd d r ∧
      (goesDown d.missingValueStrategy = true → hasSureChild r = false) := by
  have stop : ∀ {n r : Node F}, FirstTrue (nodeTest types row) n r → hasSureChild r = false := by
    intro n r hr
    induction hr with
    | stop hc =>
      rename_i n
      by_contra hsure
      simp only [hasSureChild, Bool.not_eq_false, List.any_eq_true] at hsure
      obtain ⟨c, hcm, hp⟩ := hsure
      apply hc c hcm
      unfold nodeTest
      split at hp
      · rename_i hpred
        rw [hpred]
        rfl
      · simp at hp
    | step _ _ _ _ ih => exact ih
  unfold NodeAns at h
  split at h
  · rcases h with ⟨-, rfl⟩ | ⟨-, r, hr, rfl⟩
    · simp at ht
    · exact ⟨r, firstTrue_sub hr, rfl, fun _ => stop hr⟩
  · rcases h with ⟨-, rfl⟩ | ⟨-, r, hr, rfl⟩
    · simp at ht
    · exact ⟨r, firstTrue_sub hr, rfl, fun _ => stop hr⟩
  · rcases h with ⟨-, rfl⟩ | ⟨-, -, rfl⟩ | ⟨-, -, r, hr, rfl⟩
    · simp at ht
    · simp at ht
    · exact ⟨r, firstTrue_sub hr, rfl, fun _ => stop hr⟩
  · rename_i hl
    suffices ∀ n : Node F, ∀ a, a = lastAns (nodeTest types row) (ownDist dd d) n → a.2 = .t →
        ∃ r, Sub r n ∧ a.1 = ownDist dd d r by
      obtain ⟨r, h1, h2⟩ := this d.node a h ht
      exact ⟨r, h1, h2, fun hg => by rw [hl] at hg; simp [goesDown] at hg⟩
    intro n
    induction n using Node.ind with
    | h n ih =>
      intro a ha hat
      rw [Props.lastAns_eq] at ha
      split_ifs at ha with h1 h2
      · subst ha; simp at hat
      · obtain ⟨b, hb, hbt, he⟩ := Props.lastTrue_mem h2.2
        simp only [List.mem_map] at hb
        obtain ⟨c, hc, rfl⟩ := hb
        obtain ⟨r, hr, hr'⟩ := ih c hc _ rfl hbt
        exact ⟨r, .child hc hr, by rw [ha, ← hr']; exact he⟩
      · exact ⟨n, .refl, by rw [ha]⟩
  · rename_i hl; rw [hl] at hs; simp [goesDown] at hs
  · rename_i hl; rw [hl] at hs; simp [goesDown] at hs
  · rename_i hl; rw [hl] at hs; simp [goesDown] at hs

omit [Trans F] in
theorem ownDist_number {dd : List DataField} {d : TreeDoc F} {n : Node F}
    (hc : goesDown d.missingValueStrategy = true → hasSureChild n = false)
    (h : reportsNumber dd d n = true) :
    ∃ s ss x, ownDist dd d n = s :: ss ∧ (Lib.parseFloat s.value : Option F) = some x := by
  unfold reportsNumber at h
  simp only [Bool.or_eq_true, Bool.and_eq_true, List.isEmpty_iff, bne_iff_ne, ne_eq] at h
  rcases h with ⟨h1, h2⟩ | ⟨h1, h2⟩
  · rw [hc h1] at h2; simp at h2
  · have h1 : ¬ (n.nodes ≠ [] ∧ d.noTrueChildStrategy = .returnNullPrediction) := by tauto
    unfold ownDist
    rw [if_neg h1]
    unfold numberText at h2
    cases hd : n.dists with
    | cons s ss =>
      rw [hd] at h2
      simp only [readable] at h2
      obtain ⟨x, hx⟩ := Option.isSome_iff_exists.mp h2
      rw [if_pos (by simp)]
      exact ⟨_, _, x, rfl, hx⟩
    | nil =>
      rw [hd] at h2
      rw [if_neg (by simp)]
      simp only at h2
      by_cases ht : targetOf d.miningFields = ""
      · simp only [if_pos ht, readable] at h2
        obtain ⟨x, hx⟩ := Option.isSome_iff_exists.mp h2
        rw [if_neg (by simp [ht])]
        exact ⟨_, _, x, rfl, hx⟩
      · rw [if_pos ht]
        simp only [if_neg ht] at h2
        cases hv : targetValues dd (targetOf d.miningFields) with
        | nil => rw [hv] at h2; simp at h2
        | cons v vs =>
          rw [hv] at h2
          simp only [List.head?_cons, readable] at h2
          obtain ⟨x, hx⟩ := Option.isSome_iff_exists.mp h2
          exact ⟨_, _, x, rfl, hx⟩

/-- What checked models do on rows that hold the fields. -/
def Answers (K : List String) (e : ModelElem F) (m : EModel F) : Prop :=
  ∀ (o : MapOrd) (r : GoMap (GoVal F)), Holds K r → ∃ (out : Out F) (r' : GoMap (GoVal F)),
    (EModel.evaluate o m (some r)).res = .ok out ∧ (EModel.evaluate o m (some r)).row = some r' ∧
    Keeps r r' ∧ Holds (leaves e) r' ∧ ∀ k ∈ gives e, ((out.getD ∅)[k]?).isSome

theorem safeTree_answers {dd : List DataField} {td td' : TD F} {d : TreeDoc F} {t : TreeModel F}
    (h : newTreeModel dd td d = (.ok t, td')) {K : List String} (hs : safeTree dd K d = true) :
    Answers K (.tree d) (.tree t) := by
  intro o r hK
  unfold safeTree at hs
  simp only [Bool.and_eq_true, Bool.or_eq_true, bne_iff_ne, ne_eq] at hs
  obtain ⟨⟨hp, hd⟩, hr⟩ := hs
  have hp : AllPreds d.node := fun n hn => Option.isSome_iff_exists.mp (everyNode_sub _ hp hn)
  obtain ⟨r', hi, hkeep, hK'⟩ := safeDerived_ok d.localTransformations hK hd
  obtain ⟨-, -, hv, hc, hk, hm, -⟩ := newTreeModel_ok h
  have hlt : t.model.localTransformations = d.localTransformations := by rw [hm]
  have he := (evaluate_eq hv hc (by rw [hk]; exact keysOk_empty) o (some r)).1
  rw [hlt, hi] at he
  obtain ⟨a, ha, hres⟩ := evaluate_answer h hp hi o
  have : ∃ out, report d.functionName (targetOf d.miningFields) a = .ok out := by
    unfold report
    by_cases hat : a.2 = .t
    · rw [if_neg (by simp [hat])]
      cases hf : d.functionName with
      | classification => exact ⟨_, rfl⟩
      | other s => exact ⟨_, rfl⟩
      | regression =>
        rcases hr with hr | ⟨hr1, hr2⟩
        · exact absurd hf hr
        · obtain ⟨n, hn, hd1, hsure⟩ := nodeAns_from (by simpa using hr1) ha hat
          obtain ⟨s, ss, x, ho, hx⟩ := ownDist_number hsure (everyNode_sub _ hr2 hn)
          rw [hd1, ho]
          simp only [hx]
          exact ⟨_, rfl⟩
    · rw [if_pos hat]; exact ⟨_, rfl⟩
  obtain ⟨out, hout⟩ := this
  refine ⟨out, r', ?_, ?_, hkeep, ?_, ?_⟩
  · simp only [EModel.evaluate]; rw [hres, hout]
  · simp only [EModel.evaluate]; exact he
  · simp only [leaves]; exact hK'
  · simp [gives]

theorem safeRegression_answers {K : List String} {d : RegressionDoc F} (hs : safeRegression K d = true) :
    Answers K (.regression d) (.regression d) := by
  intro o r hK
  unfold safeRegression at hs
  simp only [Bool.and_eq_true, List.all_eq_true, List.contains_eq_mem, decide_eq_true_eq] at hs
  obtain ⟨out, hout⟩ := (regression_answers d (some r)).mpr ⟨fun k hk => hK k (hs.1 k hk), hs.2⟩
  obtain ⟨a, rfl, ha⟩ := regression_gives hout
  exact ⟨some a, r, hout, rfl, fun k h => h, by simp [leaves, Holds], ha⟩

omit [Arith F] [Lib F] [Trans F] in
theorem imputed_holds {fs : List MiningField} {r r' : GoMap (GoVal F)} (h : Imputed fs r r') :
    Keeps r r' ∧ Holds (replaced fs) r' := by
  constructor
  · intro k hk
    rw [h]
    split <;> simp_all
  · intro k hk
    simp only [replaced, List.mem_map, List.mem_filter] at hk
    obtain ⟨f, ⟨hf, hr⟩, rfl⟩ := hk
    have : (replacement fs f.name).isSome := by
      unfold replacement
      cases hg : (fs.filter (fun g => g.name = f.name ∧ g.missingValueReplacement.isSome)).getLast? with
      | none =>
        rw [List.getLast?_eq_none_iff, List.filter_eq_nil_iff] at hg
        exact absurd (hg f hf) (by simp [hr])
      | some g =>
        have := List.mem_of_getLast? hg
        simp only [List.mem_filter, decide_eq_true_eq] at this
        simpa using this.2.2
    obtain ⟨t, ht⟩ := Option.isSome_iff_exists.mp this
    rw [h, ht]
    split <;> simp_all

omit [Trans F] in
theorem prepared_safe {h : MiningHead F} {r : GoMap (GoVal F)} {K : List String} (hK : Holds K r)
    (hs : safeDerived (replaced h.miningFields ++ K) h.localTransformations = true)
    {res : Res Unit} {row2 : Row F} (hp : Prepared h (some r) res row2) :
    res = .ok () ∧ ∃ r2, row2 = some r2 ∧ Keeps r r2 ∧
      Holds (h.localTransformations.map (·.name) ++ replaced h.miningFields) r2 := by
  cases hp with
  | row hi he =>
    obtain ⟨i1, i2⟩ := imputed_holds hi
    obtain ⟨r', h1, h2, h3⟩ := safeDerived_ok _ (Holds.append.mpr ⟨i2, hK.keep i1⟩) hs
    rw [h1, Prod.mk.injEq] at he
    exact ⟨he.1.symm, r', he.2.symm, i1.trans h2, Holds.append.mpr ⟨h3, i2.keep h2⟩⟩

/-- The segments of a document and their evaluators, which answer if the document is checked. -/
def SegsAnswer (dd : List DataField) (segs : List (SegDoc F)) (ms : List (EModel F)) : Prop :=
  List.Forall₂ (fun seg m => ∃ id ps e, seg = SegDoc.mk id ps [e] ∧
    ∀ K, safe dd K e = true → Answers K e m) segs ms

theorem sumSegments_safe {dd : List DataField} {segs : List (SegDoc F)} {ms : List (EModel F)}
    (h : SegsAnswer dd segs ms) (o : MapOrd) (fn : MiningFunction) : ∀ (i : Nat) (sm : GoMap F)
    {K : List String} {r : GoMap (GoVal F)}, Holds K r → safeSegs dd false K segs = true →
    ∃ sm' r', (sumSegments o fn i sm ms (some r)).res = .ok sm' ∧
      (sumSegments o fn i sm ms (some r)).row = some r' ∧ Keeps r r' ∧ Holds (segsLeave segs) r' := by
  induction h with
  | nil => intro i sm K r hK _; exact ⟨sm, r, rfl, rfl, fun k h => h, by simp [segsLeave, Holds]⟩
  | cons hseg _ ih =>
    rename_i seg m segs ms _
    obtain ⟨id, ps, e, rfl, hm⟩ := hseg
    intro i sm K r hK hs
    rw [safeSegs] at hs
    simp only [Bool.and_eq_true, Bool.false_eq_true, if_false, List.nil_append] at hs
    obtain ⟨out, r1, h1, h2, h3, h4, -⟩ := hm K hs.1 (o.at_ (2 * i)) r hK
    obtain ⟨sm', r', g1, g2, g3, g4⟩ := ih (i + 1)
      (((o.at_ (2 * i + 1)).range sm).foldl (addScore fn out) sm)
      (Holds.append.mpr ⟨h4, hK.keep h3⟩) hs.2
    refine ⟨sm', r', ?_, ?_, h3.trans g3, ?_⟩
    · simp only [sumSegments, h1, h2]; exact g1
    · simp only [sumSegments, h1, h2]; exact g2
    · rw [segsLeave, Holds.append]; exact ⟨g4, h4.keep g3⟩

theorem chainSegments_safe {dd : List DataField} {segs : List (SegDoc F)} {ms : List (EModel F)}
    (h : SegsAnswer dd segs ms) (o : MapOrd) : ∀ (i : Nat) (last : Out F)
    {K : List String} {r : GoMap (GoVal F)},
    (∀ k ∈ K, (r[k]?).isSome ∨ ((last.getD ∅)[k]?).isSome) → safeSegs dd true K segs = true →
    ∃ out r', (chainSegments o i last ms (some r)).res = .ok out ∧
      (chainSegments o i last ms (some r)).row = some r' ∧ Keeps r r' ∧ Holds (segsLeave segs) r' ∧
      (segs = [] → out = last) ∧ ∀ k ∈ lastGives segs, ((out.getD ∅)[k]?).isSome := by
  induction h with
  | nil =>
    intro i last K r hK _
    exact ⟨last, r, rfl, rfl, fun k h => h, by simp [segsLeave, Holds], fun _ => rfl, by simp [lastGives]⟩
  | cons hseg hrest ih =>
    rename_i seg m segs ms
    obtain ⟨id, ps, e, rfl, hm⟩ := hseg
    intro i last K r hK hs
    rw [safeSegs] at hs
    simp only [Bool.and_eq_true, if_true] at hs
    rcases writeAll_extended (o.at_ (2 * i)) (last.getD ∅) (some r) with ⟨hn, -⟩ | ⟨row1, hw, hx⟩
    · simp at hn
    obtain ⟨hx1, -, hx2⟩ := hx
    cases row1 with
    | none => simp at hx1
    | some r1 =>
      have key : ∀ k : String, (r[k]?).isSome ∨ ((last.getD ∅)[k]?).isSome → (r1[k]?).isSome := by
        intro k hk
        have h1 : Row.get (some r1) k = _ := hx2 k
        have h2 : Row.get (some r1) k = r1[k]? := rfl
        rw [← h2, h1]
        cases hl : (last.getD ∅)[k]? with
        | some v => rfl
        | none =>
          rw [hl] at hk
          rcases hk with hk | hk
          · exact hk
          · simp at hk
      have k0 : Keeps r r1 := fun k hk => key k (.inl hk)
      have hr1 : Holds K r1 := fun k hk => key k (hK k hk)
      obtain ⟨out, r2, h1, h2, h3, h4, h5⟩ := hm K hs.1 (o.at_ (2 * i + 1)) r1 hr1
      obtain ⟨out', r', g1, g2, g3, g4, g5, g6⟩ := ih (i + 1) out (K := gives e ++ leaves e ++ K) (r := r2)
        (by
          intro k hk
          simp only [List.append_assoc, List.mem_append] at hk
          rcases hk with hk | hk | hk
          · exact .inr (h5 k hk)
          · exact .inl (h4 k hk)
          · exact .inl (h3 k (hr1 k hk))) hs.2
      refine ⟨out', r', ?_, ?_, (k0.trans h3).trans g3, ?_, by simp, ?_⟩
      · simp only [chainSegments, hw, h1, h2]; exact g1
      · simp only [chainSegments, hw, h1, h2]; exact g2
      · rw [segsLeave, Holds.append]; exact ⟨g4, h4.keep g3⟩
      · cases segs with
        | nil => rw [lastGives, g5 rfl]; exact h5
        | cons s segs => rw [lastGives] <;> first | exact g6 | simp

/-- A checked document answers every row that holds the fields. -/
theorem safe_answers {dd : List DataField} {e : ModelElem F} {td td' : TD F} {m : EModel F}
    (h : newModel dd e td = (.ok m, td')) : ∀ K, safe dd K e = true → Answers K e m := by
  refine newModel_ind (P := fun e m => ∀ K, safe dd K e = true → Answers K e m) ?_ ?_ ?_ e h
  · intro d t td td' hn K hs
    rw [safe] at hs
    exact safeTree_answers hn hs
  · intro d K hs
    rw [safe] at hs
    exact safeRegression_answers hs
  · intro hd segs td td' s ms hn hsegs K hs o r hK
    rw [safe] at hs
    simp only [Bool.and_eq_true] at hs
    obtain ⟨hs1, hs2⟩ := hs
    obtain ⟨s', ms', he, -, hh, ho, ht, -, hev⟩ := constructed_mining hn
    obtain ⟨rfl, rfl⟩ := by simpa using he
    rcases hev o (some r) with ⟨e', row2, hp, -⟩ | ⟨row2, hp, hev⟩
    · simpa using (prepared_safe hK hs1 hp).1
    obtain ⟨-, r2, rfl, k2, hK2⟩ := prepared_safe hK hs1 hp
    have hK2' := Holds.append.mpr ⟨hK2, hK.keep k2⟩
    rw [hev]
    have hm : SupportedMethod hd.method := by
      rw [newModel] at hn
      rcases mining_validate (MiningState.init dd hd segs) with ⟨h1, -⟩ | ⟨-, e, s', hv⟩
      · exact h1
      · rw [hv] at hn; simp at hn
    have hkeys : ∀ (sm' : GoMap F), (sumSegments (o.at_ 1) s.head.functionName 0 (initScores s) ms
        (some r2)).res = .ok sm' → ∀ k ∈ ensembleKeys hd, ((sumFinish (o.at_ 2) s sm')[k]?).isSome := by
      intro sm' hsm k hk
      obtain ⟨res, row', -, -, herr, hok⟩ :=
        sumSegments_run ms (o.at_ 1) s.head.functionName 0 (initScores s) (some r2)
      have hsm' : ∀ k ∈ ensembleKeys hd, (sm'[k]?).isSome := by
        intro k hk
        cases res with
        | error e => rw [herr e rfl] at hsm; simp at hsm
        | ok outs =>
          obtain ⟨sm'', h1, h2⟩ := hok outs rfl
          rw [h1] at hsm
          obtain rfl := by simpa using hsm
          rw [h2, initScores_getElem?, if_pos (by rw [ho, ht]; exact hk)]
          rfl
      unfold sumFinish
      rw [scoresToRow_getElem?, rescale_getElem?, Option.isSome_map, Option.isSome_map]
      · exact hsm' k hk
      · intro t htm
        apply hsm'
        rw [ht] at htm
        exact List.mem_append_right _ (List.mem_map.mpr ⟨t, htm, rfl⟩)
    have fin : ∀ {L : List String} {r' : GoMap (GoVal F)}, Keeps r2 r' → Holds L r' → Keeps r r' ∧
        Holds (L ++ hd.localTransformations.map (·.name) ++ replaced hd.miningFields) r' := by
      intro L r' hk hL
      refine ⟨k2.trans hk, ?_⟩
      rw [List.append_assoc, Holds.append]
      exact ⟨hL, hK2.keep hk⟩
    have hsum : effectiveMethod hd.method = .sum ∨ effectiveMethod hd.method = .average →
        ∃ out r', (runMethod o s ms (some r2)).res = .ok out ∧ (runMethod o s ms (some r2)).row = some r' ∧
          Keeps r r' ∧ Holds (leaves (.mining hd segs)) r' ∧
          ∀ k ∈ gives (.mining hd segs), ((out.getD ∅)[k]?).isSome := by
      intro heff
      have hs3 : safeSegs dd false (hd.localTransformations.map (·.name) ++ replaced hd.miningFields ++ K)
          segs = true := by
        rcases heff with heff | heff <;> rw [heff] at hs2 <;> exact hs2
      obtain ⟨sm', r', h1, h2, h3, h4⟩ :=
        sumSegments_safe hsegs (o.at_ 1) s.head.functionName 0 (initScores s) hK2' hs3
      have hk := hkeys sm' h1
      obtain ⟨f1, f2⟩ := fin h3 h4
      rcases heff with heff | heff
      · refine ⟨some (sumFinish (o.at_ 2) s sm'), r', ?_, ?_, f1, ?_, ?_⟩
        · rw [runMethod, hh]; simp only [heff]; rw [hh] at h1; simp only at h1; rw [h1]; rfl
        · rw [runMethod, hh]; simp only [heff]; rw [hh] at h2; exact h2
        · rw [leaves, heff]; exact f2
        · rw [gives, heff]; exact hk
      · refine ⟨some (averageLoop s.segments.length ((o.at_ 3).range (sumFinish (o.at_ 2) s sm'))
          (sumFinish (o.at_ 2) s sm')), r', ?_, ?_, f1, ?_, ?_⟩
        · rw [runMethod, hh]; simp only [heff]; rw [hh] at h1; simp only at h1; rw [h1]; rfl
        · rw [runMethod, hh]; simp only [heff]; rw [hh] at h2; exact h2
        · rw [leaves, heff]; exact f2
        · rw [gives, heff]
          intro k hk'
          rw [Option.getD_some, averageLoop_getElem?, Option.isSome_map]
          exact hk k hk'
    rcases hm with hm | hm | hm | hm | hm
    · exact hsum (.inl (by rw [hm]; rfl))
    · exact hsum (.inl (by rw [hm]; rfl))
    · exact hsum (.inr (by rw [hm]; rfl))
    · have heff : effectiveMethod hd.method = .modelChain := by rw [hm]; rfl
      rw [heff] at hs2
      obtain ⟨out, r', h1, h2, h3, h4, -, h5⟩ := chainSegments_safe hsegs (o.at_ 1) 0 (some ∅)
        (fun k hk => .inl (hK2' k hk)) hs2
      obtain ⟨f1, f2⟩ := fin h3 h4
      refine ⟨out, r', ?_, ?_, f1, ?_, ?_⟩
      · rw [runMethod, hh]; simp only [heff]; exact h1
      · rw [runMethod, hh]; simp only [heff]; exact h2
      · rw [leaves, heff]; exact f2
      · rw [gives, heff]; exact h5
    · have heff : effectiveMethod hd.method = .selectFirst := by rw [hm]; rfl
      rw [heff] at hs2
      cases hsegs with
      | nil => simp [safeFirst] at hs2
      | cons hseg _ =>
        obtain ⟨id, ps, e, rfl, hm⟩ := hseg
        simp only [safeFirst] at hs2
        obtain ⟨out, r', h1, h2, h3, h4, h5⟩ := hm _ hs2 (o.at_ 1) r2 hK2'
        obtain ⟨f1, f2⟩ := fin h3 h4
        refine ⟨out, r', ?_, ?_, f1, ?_, ?_⟩
        · rw [runMethod, hh]; simp only [heff, selectFirst]; exact h1
        · rw [runMethod, hh]; simp only [heff, selectFirst]; exact h2
        · rw [leaves, heff]; simp only [firstLeaves]; exact f2
        · rw [gives, heff]; simp only [firstGives]; exact h5

end

end Gopmml
