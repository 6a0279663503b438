import Verif.Proofs.Regression
import Verif.Proofs.Real
import Verif.Proofs.F64Arith
import Verif.Model.Samples
import Mathlib.Algebra.Order.BigOperators.Group.List

/-!
# Properties C45-C50: regression models
-/

namespace Gopmml.Props
open Gopmml Spec

variable {F : Type} [Arith F] [Lib F] [Trans F] {dd : List DataField} {td td' : TD F}
  {d : RegressionDoc F} {m : EModel F}

omit [Trans F] in
/-- A regression evaluator is its document. -/
theorem regression_model (h : newModel dd (.regression d) td = (.ok m, td')) : m = .regression d := by
  simp [newModel] at h; exact h.1.symm

/-! ## C45: the regression formula -/

/-- **C45**: one table, one output.  The answer is the link function applied to intercept plus
coefficient times value, summed in document order, under the output's name; a missing predictor
(the first one is named) or a method without link function is an error. -/
theorem C45_regression (h : newModel dd (.regression d) td = (.ok m, td'))
    (hf : d.functionName = .regression) {t : RegressionTable F} (ht : d.tables = [t])
    {f : OutputField} (ho : d.outputs = [f]) (o : MapOrd) (row : Row F) :
    (m.evaluate o row).res = match firstMissing row t.predictors, link d.normalization with
      | some k, _ => fail (.missingTerm k)
      | none, some g => .ok (some ((∅ : GoMap (GoVal F)).insert f.name (.f64 (g (linear row t)))))
      | none, none => fail .unsupportedNormalization := by
  rw [regression_model h]
  simp only [EModel.evaluate, RegressionDoc.evaluate, hf, RegressionDoc.evalRegression, ht, ho,
    linearLoop_eq]
  cases firstMissing row t.predictors with
  | some k => rfl
  | none =>
    simp only [normalize_eq, linear]
    cases link (F := F) d.normalization with
    | some g => rfl
    | none => rfl

/-- **C45**: any other number of tables or outputs is an error. -/
theorem C45_counts (h : newModel dd (.regression d) td = (.ok m, td'))
    (hf : d.functionName = .regression) (hc : d.tables.length ≠ 1 ∨ d.outputs.length ≠ 1)
    (o : MapOrd) (row : Row F) :
    ∃ e, (m.evaluate o row).res = fail e := by
  rw [regression_model h]
  simp only [EModel.evaluate, RegressionDoc.evaluate, hf, RegressionDoc.evalRegression]
  rcases ht : d.tables with _ | ⟨t, _ | ⟨t', ts⟩⟩
  · exact ⟨_, rfl⟩
  · rcases ho : d.outputs with _ | ⟨f, _ | ⟨f', fs⟩⟩
    · exact ⟨_, rfl⟩
    · simp [ht, ho] at hc
    · exact ⟨_, rfl⟩
  · exact ⟨_, rfl⟩

/-- **C45** (finding): the default method "none" (also an absent attribute) is not the identity:
every such model with all its predictors present fails. -/
theorem C45_none_fails (h : newModel dd (.regression d) td = (.ok m, td'))
    (hf : d.functionName = .regression) (hn : d.normalization = .none ∨ d.normalization = .empty)
    (o : MapOrd) (row : Row F) : ∃ e, (m.evaluate o row).res = fail e := by
  rw [regression_model h]
  simp only [EModel.evaluate, RegressionDoc.evaluate, hf, RegressionDoc.evalRegression]
  rcases ht : d.tables with _ | ⟨t, _ | ⟨t', ts⟩⟩
  · exact ⟨_, rfl⟩
  · rcases ho : d.outputs with _ | ⟨f, _ | ⟨f', fs⟩⟩
    · exact ⟨_, rfl⟩
    · simp only [linearLoop_eq]
      cases firstMissing row t.predictors with
      | some k => exact ⟨_, rfl⟩
      | none =>
        simp only [normalize_eq]
        rcases hn with hn | hn <;> rw [hn] <;> exact ⟨_, rfl⟩
    · exact ⟨_, rfl⟩
  · exact ⟨_, rfl⟩

/-- In exact arithmetic the score is the intercept plus the sum of the products. -/
theorem C45_exact [Lib ℝ] (row : Row ℝ) (t : RegressionTable ℝ) :
    linear row t = t.intercept +
      (t.predictors.map fun np => np.coefficient * valueOf row np.name).sum := by
  unfold linear
  rw [Real'.foldl_add]
  rfl

/-- Change the predictors of every table. -/
def mapPredictors (g : NumericPredictor F → NumericPredictor F) (d : RegressionDoc F) : RegressionDoc F :=
  { d with tables := d.tables.map fun t => { t with predictors := t.predictors.map g } }

omit [Trans F] in
theorem linearLoop_map {row : Row F} {g : NumericPredictor F → NumericPredictor F}
    (hg : ∀ np, (g np).name = np.name ∧ (g np).coefficient = np.coefficient)
    (nps : List (NumericPredictor F)) (y : F) :
    linearLoop row y (nps.map g) = linearLoop row y nps := by
  induction nps generalizing y with
  | nil => rfl
  | cons np nps ih =>
    rw [List.map_cons, linearLoop, linearLoop, (hg np).1, (hg np).2]
    cases row.get np.name with
    | none => rfl
    | some v => exact ih _

theorem binaryLoop_map {n : Normalization} {row : Row F} {g : NumericPredictor F → NumericPredictor F}
    (hg : ∀ np, (g np).name = np.name) (nps : List (NumericPredictor F)) (y : F) :
    binaryLoop n row y (nps.map g) = binaryLoop n row y nps := by
  induction nps generalizing y with
  | nil => rfl
  | cons np nps ih =>
    rw [List.map_cons, binaryLoop, binaryLoop, hg np]
    cases row.get np.name with
    | none => rfl
    | some v =>
      simp only [normalize_eq]
      cases link (F := F) n with
      | none => rfl
      | some l => exact ih _

theorem binaryTables_map {n : Normalization} {outputs : List OutputField} {row : Row F}
    {g : NumericPredictor F → NumericPredictor F} (hg : ∀ np, (g np).name = np.name)
    (ts : List (RegressionTable F)) (rest : F) (out : GoMap (GoVal F)) :
    binaryTables n outputs row rest out (ts.map fun t => { t with predictors := t.predictors.map g }) =
      binaryTables n outputs row rest out ts := by
  induction ts generalizing rest out with
  | nil => rfl
  | cons t ts ih =>
    rw [List.map_cons, binaryTables, binaryTables]
    by_cases hp : t.predictors = []
    · rw [if_neg (by simp [hp]), if_neg (by simp [hp])]
      exact ih _ _
    · rw [if_pos (by simpa using hp), if_pos hp, binaryLoop_map hg]
      cases binaryLoop n row t.intercept t.predictors with
      | error e => rfl
      | ok p => exact ih _ _

/-- **C45** (finding): the exponents of the document are never used. -/
theorem C45_exponents_ignored (e : NumericPredictor F → Int) (o : MapOrd) (row : Row F) :
    (EModel.evaluate o (.regression (mapPredictors (fun np => { np with exponent := e np }) d)) row).res =
      (EModel.evaluate o (.regression d) row).res := by
  let g : NumericPredictor F → NumericPredictor F := fun np => { np with exponent := e np }
  have hg : ∀ np, (g np).name = np.name ∧ (g np).coefficient = np.coefficient := fun _ => ⟨rfl, rfl⟩
  show RegressionDoc.evaluate (mapPredictors g d) row = RegressionDoc.evaluate d row
  unfold RegressionDoc.evaluate
  have hn : (mapPredictors g d).functionName = d.functionName := rfl
  have ho : (mapPredictors g d).outputs = d.outputs := rfl
  rw [hn, ho]
  cases d.functionName with
  | regression =>
    simp only [RegressionDoc.evalRegression, mapPredictors]
    rcases ht : d.tables with _ | ⟨t, _ | ⟨t', ts⟩⟩
    · rfl
    · simp only [List.map_cons, List.map_nil]
      rw [linearLoop_map hg]
    · simp
  | classification =>
    simp only
    congr 1
    · simp only [RegressionDoc.evalBinary, mapPredictors]
      rw [binaryTables_map fun np => (hg np).1]
    · simp only [RegressionDoc.evalMulticlass, mapPredictors]
      have : ∀ ts : List (RegressionTable F),
          linearAll row (ts.map fun t => { t with predictors := t.predictors.map g }) = linearAll row ts := by
        intro ts
        induction ts with
        | nil => rfl
        | cons t ts ih => rw [List.map_cons, linearAll, linearAll, linearLoop_map hg, ih]
      rw [this, List.map_map]
      rfl
  | other s => rfl

/-! ## C46: missing terms -/

/-- All predictors of a model, in document order. -/
def allPredictors (d : RegressionDoc F) : List (NumericPredictor F) := d.tables.flatMap (·.predictors)

omit [Arith F] [Lib F] [Trans F] in
/-- **C46**: a present predictor list names no missing predictor, and the missing predictor named
is the first one. -/
theorem C46_firstMissing (row : Row F) (nps : List (NumericPredictor F)) :
    (firstMissing row nps = none ↔ ∀ np ∈ nps, (row.get np.name).isSome) ∧
    ∀ k, firstMissing row nps = some k ↔
      ∃ pre np post, nps = pre ++ np :: post ∧ np.name = k ∧ row.get k = none ∧
        ∀ q ∈ pre, (row.get q.name).isSome := by
  constructor
  · simp [firstMissing, List.find?_eq_none, Option.isSome_iff_ne_none]
  · intro k
    induction nps with
    | nil => simp [firstMissing]
    | cons np nps ih =>
      unfold firstMissing at ih ⊢
      by_cases h : row.get np.name = none
      · rw [List.map_cons, List.find?_cons_of_pos (by simp [h])]
        constructor
        · rintro ⟨rfl⟩; exact ⟨[], np, nps, rfl, rfl, h, by simp⟩
        · rintro ⟨pre, np', post, e, rfl, hk, hp⟩
          cases pre with
          | nil => cases e; rfl
          | cons q pre =>
            cases e
            have := hp np List.mem_cons_self
            simp [h] at this
      · rw [List.map_cons, List.find?_cons_of_neg (by simpa using h), ih]
        constructor
        · rintro ⟨pre, np', post, rfl, rfl, hk, hp⟩
          refine ⟨np :: pre, np', post, rfl, rfl, hk, ?_⟩
          intro q hq
          rcases List.mem_cons.mp hq with rfl | hq
          · exact Option.isSome_iff_ne_none.mpr h
          · exact hp q hq
        · rintro ⟨pre, np', post, e, rfl, hk, hp⟩
          cases pre with
          | nil => cases e; exact absurd hk h
          | cons q pre => cases e; exact ⟨pre, np', post, rfl, rfl, hk, fun q hq => hp q (List.mem_cons_of_mem _ hq)⟩

/-- **C46**: classification with two outputs and a supported method: an absent predictor is an
error naming the first one; otherwise there is an answer. -/
theorem C46_binary (h : newModel dd (.regression d) td = (.ok m, td'))
    (hf : d.functionName = .classification) (ho : d.outputs.length = 2)
    {g : F → F} (hg : link d.normalization = some g) (o : MapOrd) (row : Row F) :
    match firstMissing row (allPredictors d) with
    | some k => (m.evaluate o row).res = fail (.missingTerm k)
    | none => ∃ out, (m.evaluate o row).res = .ok (some out) := by
  rw [regression_model h]
  simp only [EModel.evaluate, RegressionDoc.evaluate, hf, if_pos ho, RegressionDoc.evalBinary,
    binaryTables_eq hg, allPredictors]
  cases firstMissing row (d.tables.flatMap (·.predictors)) with
  | some k => rfl
  | none => exact ⟨_, rfl⟩

/-- **C46**: with an unsupported method only a document without predictors succeeds. -/
theorem C46_binary_unsupported (h : newModel dd (.regression d) td = (.ok m, td'))
    (hf : d.functionName = .classification) (ho : d.outputs.length = 2)
    (hg : link (F := F) d.normalization = none) (o : MapOrd) (row : Row F) :
    (∃ out, (m.evaluate o row).res = .ok out) ↔ allPredictors d = [] := by
  rw [regression_model h]
  simp only [EModel.evaluate, RegressionDoc.evaluate, hf, if_pos ho, RegressionDoc.evalBinary]
  rw [allPredictors, ← binaryTables_ok hg d.outputs row Arith.one ∅ d.tables]
  cases binaryTables d.normalization d.outputs row Arith.one ∅ d.tables with
  | error e =>
    constructor
    · rintro ⟨out, h⟩; cases h
    · rintro ⟨out, h⟩; cases h
  | ok o => exact ⟨fun _ => ⟨o, rfl⟩, fun _ => ⟨some o, rfl⟩⟩

/-- **C46**: any other classification: an absent predictor is an error naming the first one,
whatever the method; otherwise the answer lists, for every table, its share of the total under the
name of the output field for its category (of tables with the same name the last one counts). -/
theorem C46_multiclass (h : newModel dd (.regression d) td = (.ok m, td'))
    (hf : d.functionName = .classification) (ho : d.outputs.length ≠ 2)
    (o : MapOrd) (row : Row F) :
    match firstMissing row (allPredictors d), weight d.normalization with
    | some k, _ => (m.evaluate o row).res = fail (.missingTerm k)
    | none, none => if d.tables = [] then (m.evaluate o row).res = .ok (some ∅)
        else (m.evaluate o row).res = fail .unsupportedNormalization
    | none, some g => ∃ out : GoMap (GoVal F), (m.evaluate o row).res = .ok (some out) ∧
        ∀ k : String, out[k]? = (d.tables.filter fun t => reportedAs d.outputs t.targetCategory = k).getLast?.map
          fun t => .f64 (share g (d.tables.map (linear row)) (linear row t)) := by
  rw [regression_model h]
  simp only [EModel.evaluate, RegressionDoc.evaluate, hf, if_neg ho, RegressionDoc.evalMulticlass,
    linearAll_eq, allPredictors, outFieldMap_getElem?]
  cases firstMissing row (d.tables.flatMap (·.predictors)) with
  | some k => rfl
  | none =>
    cases hw : weight (F := F) d.normalization with
    | none =>
      cases ht : d.tables with
      | nil => rfl
      | cons t ts =>
        rw [if_neg (by simp)]
        simp only [List.map_cons]
        have := multiclassOut_unsupported hw (linear row t :: ts.map (linear row))
          (reportedAs d.outputs t.targetCategory, linear row t)
          ((ts.map fun t => reportedAs d.outputs t.targetCategory).zip (ts.map (linear row))) ∅
        show ((multiclassOut _ _ _ _).bind _ : Res (Out F)) = _
        rw [List.zip_cons_cons, this]
        rfl
    | some g =>
      refine ⟨((d.tables.map fun t => reportedAs d.outputs t.targetCategory).zip (d.tables.map (linear row))).foldl
        (fun m p => m.insert p.1 (.f64 (share g (d.tables.map (linear row)) p.2))) ∅, ?_, ?_⟩
      · show ((multiclassOut _ _ _ _).bind _ : Res (Out F)) = _
        rw [multiclassOut_eq hw]
        rfl
      · intro k
        rw [List.zip_map', List.foldl_map, foldl_insertBy_getElem? d.tables
          (fun t => reportedAs d.outputs t.targetCategory)
          (fun t => GoVal.f64 (share g (d.tables.map (linear row)) (linear row t)))]
        simp

/-! ## C47: softmax -/

section
variable [Lib ℝ] {tdr tdr' : TD ℝ} {dr : RegressionDoc ℝ} {mr : EModel ℝ}

omit [Lib ℝ] in
theorem share_exp (ys : List ℝ) (y : ℝ) :
    share Trans.exp ys y = Real.exp y / (ys.map Real.exp).sum := by
  unfold share
  rw [Real'.foldl_add, Real'.zero_eq, zero_add]
  rfl

omit [Lib ℝ] in
theorem exp_sum_pos {ys : List ℝ} (h : ys ≠ []) : 0 < (ys.map Real.exp).sum := by
  apply List.sum_pos
  · intro x hx; obtain ⟨y, -, rfl⟩ := List.mem_map.mp hx; exact Real.exp_pos y
  · simpa using h

omit [Lib ℝ] in
theorem getLast?_filter_nodup {A B : Type} [DecidableEq B] {f : A → B} {l : List A} (h : (l.map f).Nodup)
    {a : A} (ha : a ∈ l) : (l.filter fun x => f x = f a).getLast? = some a := by
  have : l.filter (fun x => f x = f a) = [a] := by
    induction l with
    | nil => cases ha
    | cons b l ih =>
      rw [List.map_cons, List.nodup_cons] at h
      rcases List.mem_cons.mp ha with rfl | ha
      · rw [List.filter_cons_of_pos (by simp)]
        congr 1
        rw [List.filter_eq_nil_iff]
        intro x hx hxa
        exact h.1 (List.mem_map.mpr ⟨x, hx, by simpa using hxa⟩)
      · rw [List.filter_cons_of_neg, ih h.2 ha]
        intro hb
        exact h.1 (List.mem_map.mpr ⟨a, ha, by simpa using Eq.symm (by simpa using hb)⟩)
  rw [this]; rfl

/-- **C47**: a softmax model with differently named tables.  The reported probabilities are
positive, at most one, sum to one, and are ordered as the linear scores are.  Nothing else is
reported. -/
theorem C47_softmax (h : newModel dd (.regression dr) tdr = (.ok mr, tdr'))
    (hf : dr.functionName = .classification) (ho : dr.outputs.length ≠ 2)
    (hn : dr.normalization = .softmax) (ht : dr.tables ≠ [])
    (hd : (dr.tables.map fun t => reportedAs dr.outputs t.targetCategory).Nodup)
    (o : MapOrd) (row : Row ℝ) (hp : firstMissing row (allPredictors dr) = none) :
    ∃ out : GoMap (GoVal ℝ), (mr.evaluate o row).res = .ok (some out) ∧
      (∀ k : String, k ∈ out ↔ ∃ t ∈ dr.tables, reportedAs dr.outputs t.targetCategory = k) ∧
      ∃ p : RegressionTable ℝ → ℝ,
        (∀ t ∈ dr.tables, out[reportedAs dr.outputs t.targetCategory]? = some (.f64 (p t)) ∧
          0 < p t ∧ p t ≤ 1) ∧
        (dr.tables.map p).sum = 1 ∧
        ∀ t ∈ dr.tables, ∀ u ∈ dr.tables, p t < p u ↔ linear row t < linear row u := by
  have H := C46_multiclass h hf ho o row
  rw [hp, hn] at H
  simp only [weight] at H
  obtain ⟨out, hr, hk⟩ := H
  have hpos : 0 < ((dr.tables.map (linear row)).map Real.exp).sum := exp_sum_pos (by simpa using ht)
  refine ⟨out, hr, ?_, fun t => share Trans.exp (dr.tables.map (linear row)) (linear row t), ?_, ?_, ?_⟩
  · intro k
    rw [Std.ExtTreeMap.mem_iff_isSome_getElem?, hk, Option.isSome_map]
    simp
  · intro t ht
    refine ⟨?_, ?_, ?_⟩
    · rw [hk, getLast?_filter_nodup hd ht]; rfl
    · simp only [share_exp]; exact div_pos (Real.exp_pos _) hpos
    · simp only [share_exp]
      rw [div_le_one hpos]
      apply List.single_le_sum
      · intro x hx; obtain ⟨y, -, rfl⟩ := List.mem_map.mp hx; exact (Real.exp_pos y).le
      · exact List.mem_map.mpr ⟨_, List.mem_map.mpr ⟨t, ht, rfl⟩, rfl⟩
  · simp only [share_exp]
    have : (dr.tables.map fun t => Real.exp (linear row t) / ((dr.tables.map (linear row)).map Real.exp).sum) =
        ((dr.tables.map (linear row)).map Real.exp).map (· / ((dr.tables.map (linear row)).map Real.exp).sum) := by
      simp [List.map_map, Function.comp_def]
    rw [this]
    have hdiv : ∀ (l : List ℝ) (s : ℝ), (l.map (· / s)).sum = l.sum / s := by
      intro l s
      induction l with
      | nil => simp
      | cons a l ih => rw [List.map_cons, List.sum_cons, List.sum_cons, ih, add_div]
    rw [hdiv, div_self hpos.ne']
  · intro t _ u _
    simp only [share_exp]
    rw [div_lt_div_iff_of_pos_right hpos, Real.exp_lt_exp]

/-- Add a constant to every intercept. -/
noncomputable def shift (c : ℝ) (d : RegressionDoc ℝ) : RegressionDoc ℝ :=
  { d with tables := d.tables.map fun t => { t with intercept := t.intercept + c } }

theorem linear_shift (c : ℝ) (row : Row ℝ) (t : RegressionTable ℝ) :
    linear row { t with intercept := t.intercept + c } = linear row t + c := by
  rw [C45_exact, C45_exact]
  ring

omit [Lib ℝ] in
theorem share_exp_shift (c : ℝ) (ys : List ℝ) (y : ℝ) :
    share Trans.exp (ys.map (· + c)) (y + c) = share Trans.exp ys y := by
  rw [share_exp, share_exp]
  have : ((ys.map (· + c)).map Real.exp).sum = (ys.map Real.exp).sum * Real.exp c := by
    induction ys with
    | nil => simp
    | cons a l ih => simp only [List.map_cons, List.sum_cons] at ih ⊢; rw [ih, Real.exp_add, add_mul]
  rw [this, Real.exp_add, mul_div_mul_right _ _ (Real.exp_ne_zero c)]

/-- **C47**: shifting all intercepts by the same amount changes nothing, not even an error. -/
theorem C47_shift (hf : dr.functionName = .classification) (ho : dr.outputs.length ≠ 2)
    (hn : dr.normalization = .softmax) (c : ℝ) (o : MapOrd) (row : Row ℝ) :
    (EModel.evaluate o (.regression (shift c dr)) row).res =
      (EModel.evaluate o (.regression dr) row).res := by
  have h1 := C46_multiclass (dd := []) (td := []) (d := dr) (m := .regression dr) (td' := []) rfl hf ho o row
  have h2 := C46_multiclass (dd := []) (td := []) (d := shift c dr) (m := .regression (shift c dr)) (td' := []) rfl
    hf ho o row
  have hp : allPredictors (shift c dr) = allPredictors dr := by
    simp [allPredictors, shift, List.flatMap_map]
  have hns : (shift c dr).normalization = .softmax := hn
  rw [hp, hns] at h2
  rw [hn] at h1
  cases hm : firstMissing row (allPredictors dr) with
  | some k =>
    rw [hm] at h1 h2
    simp only at h1 h2
    rw [h1, h2]
  | none =>
    rw [hm] at h1 h2
    simp only [weight] at h1 h2
    obtain ⟨out1, e1, k1⟩ := h1
    obtain ⟨out2, e2, k2⟩ := h2
    rw [e1, e2]
    congr 2
    apply Std.ExtTreeMap.ext_getElem?
    intro k
    rw [k1, k2]
    simp only [shift, List.filter_map, List.getLast?_map, Option.map_map, List.map_map]
    congr 1
    funext t
    simp only [Function.comp_apply]
    rw [linear_shift]
    have : dr.tables.map (linear row ∘ fun t => { t with intercept := t.intercept + c }) =
        (dr.tables.map (linear row)).map (· + c) := by
      rw [List.map_map]
      apply List.map_congr_left
      intro t _
      exact linear_shift c row t
    rw [this, share_exp_shift]

end

section
open F64
variable [Lib F64] [Trans F64] {tdf tdf' : TD F64} {df : RegressionDoc F64} {mf : EModel F64}

omit [Lib F64] [Trans F64] in
theorem add_nan_left (x : F64) : Arith.add F64.nan x = F64.nan := by cases x <;> rfl
omit [Lib F64] [Trans F64] in
theorem add_nan_right (x : F64) : Arith.add x F64.nan = F64.nan := by
  cases x with
  | inf b => cases b <;> rfl
  | _ => rfl

omit [Lib F64] [Trans F64] in
theorem foldl_nan (l : List F64) : l.foldl Arith.add F64.nan = F64.nan := by
  induction l with
  | nil => rfl
  | cons a l ih => rw [List.foldl_cons, add_nan_left, ih]

omit [Lib F64] [Trans F64] in
theorem foldl_nan_mem {l : List F64} (h : F64.nan ∈ l) (z : F64) : l.foldl Arith.add z = F64.nan := by
  induction l generalizing z with
  | nil => cases h
  | cons a l ih =>
    rw [List.foldl_cons]
    rcases List.mem_cons.mp h with rfl | h
    · rw [add_nan_right, foldl_nan]
    · exact ih h _

omit [Lib F64] [Trans F64] in
theorem div_nan_right (x : F64) : Arith.div x F64.nan = F64.nan := by
  cases x with
  | inf b => cases b <;> rfl
  | _ => rfl

omit [Lib F64] [Trans F64] in
theorem share_unit {g : F64 → F64} (hg : ∀ x, g x = F64.nan ∨ NonNeg (g x)) {ys : List F64} {y : F64}
    (hy : y ∈ ys) : UnitOrNaN (share g ys y) := by
  unfold share
  by_cases hn : F64.nan ∈ ys.map g
  · rw [foldl_nan_mem hn, div_nan_right]; exact .inl rfl
  · have hnn : ∀ x ∈ ys.map g, NonNeg x := by
      intro x hx
      obtain ⟨z, hz, rfl⟩ := List.mem_map.mp hx
      rcases hg z with h | h
      · exact absurd (h ▸ hx) hn
      · exact h
    have hy' : g y ∈ ys.map g := List.mem_map.mpr ⟨y, hy, rfl⟩
    refine unit_div (hnn _ hy') (foldl_nonNeg hnn nonNeg_zero) ?_
    have := foldl_sublist (List.singleton_sublist.mpr hy') hnn nonNeg_zero nonNeg_zero (_root_.le_refl _)
    rwa [List.foldl_cons, List.foldl_nil, zero_add_ext (hnn _ hy') ext_zero nonNeg_zero] at this

/-- **C47**: in float64 arithmetic, with any `exp` whose values are NaN or not negative, every
reported number is NaN or between 0 and 1. -/
theorem C47_float (h : newModel dd (.regression df) tdf = (.ok mf, tdf'))
    (hf : df.functionName = .classification) (ho : df.outputs.length ≠ 2)
    (hn : df.normalization = .softmax)
    (he : ∀ x : F64, Trans.exp x = F64.nan ∨ Arith.le Arith.zero (Trans.exp x : F64) = true)
    (o : MapOrd) (row : Row F64) {out : GoMap (GoVal F64)}
    (hr : (mf.evaluate o row).res = .ok (some out)) {k : String} {v : GoVal F64} (hv : out[k]? = some v) :
    ∃ p, v = .f64 p ∧ UnitOrNaN p := by
  have H := C46_multiclass h hf ho o row
  rw [hr, hn] at H
  cases hm : firstMissing row (allPredictors df) with
  | some k => rw [hm] at H; cases H
  | none =>
    rw [hm] at H
    simp only [weight] at H
    obtain ⟨out', e, hk⟩ := H
    cases e
    rw [hk] at hv
    obtain ⟨t, ht, rfl⟩ := Option.map_eq_some_iff.mp hv
    refine ⟨_, rfl, share_unit (fun x => (he x).imp id nonNeg_iff.mpr) ?_⟩
    exact List.mem_map.mpr ⟨t, List.mem_of_mem_filter (List.mem_of_getLast? ht), rfl⟩

end

/-! ## C48: two classes -/

/-- **C48**: a table with predictors followed by one without.  Each of the two (differently named)
outputs reports the probability of its category: `p` for the first table's and the rounded `1 - p`
for the second's. -/
theorem C48_binary (h : newModel dd (.regression d) td = (.ok m, td'))
    (hf : d.functionName = .classification) {o₁ o₂ : OutputField} (ho : d.outputs = [o₁, o₂])
    (hne : o₁.name ≠ o₂.name) {t₁ t₂ : RegressionTable F} (ht : d.tables = [t₁, t₂])
    (h₁ : t₁.predictors ≠ []) (h₂ : t₂.predictors = []) {g : F → F} (hg : link d.normalization = some g)
    (o : MapOrd) (row : Row F) (hp : firstMissing row t₁.predictors = none) :
    ∃ out : GoMap (GoVal F), (m.evaluate o row).res = .ok (some out) ∧
      (∀ k : String, k ∈ out → k = o₁.name ∨ k = o₂.name) ∧
      ∀ f ∈ d.outputs, out[f.name]? =
        if f.value = t₂.targetCategory then some (.f64 (Arith.sub Arith.one (transformed g row t₁)))
        else if f.value = t₁.targetCategory then some (.f64 (transformed g row t₁))
        else none := by
  rw [regression_model h]
  have hm : firstMissing row (d.tables.flatMap (·.predictors)) = none := by
    rw [ht, List.flatMap_cons, List.flatMap_cons, List.flatMap_nil, h₂, List.append_nil, List.append_nil, hp]
  refine ⟨(d.tables.zip (binaryPreds g row Arith.one d.tables)).foldl
    (fun m p => binaryOut d.outputs p.1.targetCategory p.2 m) ∅, ?_, ?_⟩
  · simp only [EModel.evaluate, RegressionDoc.evaluate, hf]
    rw [if_pos (by rw [ho]; rfl)]
    simp only [RegressionDoc.evalBinary]
    rw [binaryTables_eq hg, hm]
    rfl
  · simp only [ht, binaryPreds, if_pos h₁, h₂, ne_eq, not_true_eq_false, if_false, List.zip_cons_cons,
      List.zip_nil_left, List.foldl_cons, List.foldl_nil, binaryOut, ho]
    have hne' := hne.symm
    constructor
    · intro k hk
      by_contra hn
      push Not at hn
      rw [Std.ExtTreeMap.mem_iff_isSome_getElem?] at hk
      revert hk
      split_ifs <;> simp [hn.1.symm, hn.2.symm]
    · intro f hfm
      simp only [List.mem_cons, List.not_mem_nil, or_false] at hfm
      rw [if_congr (eq_comm (a := f.value) (b := t₂.targetCategory)) rfl
        (if_congr (eq_comm (a := f.value) (b := t₁.targetCategory)) rfl rfl)]
      rcases hfm with rfl | rfl <;> split_ifs <;>
        simp only [GoMap.getElem?_insert, hne, hne', if_true, if_false, Std.ExtTreeMap.getElem?_empty]

/-- **C48**: in exact arithmetic the two probabilities sum to one. -/
theorem C48_complementary [Lib ℝ] {tdr tdr' : TD ℝ} {dr : RegressionDoc ℝ} {mr : EModel ℝ}
    (h : newModel dd (.regression dr) tdr = (.ok mr, tdr'))
    (hf : dr.functionName = .classification) {o₁ o₂ : OutputField} (ho : dr.outputs = [o₁, o₂])
    (hne : o₁.name ≠ o₂.name) {t₁ t₂ : RegressionTable ℝ} (ht : dr.tables = [t₁, t₂])
    (h₁ : t₁.predictors ≠ []) (h₂ : t₂.predictors = [])
    (hv : o₁.value = t₁.targetCategory ∧ o₂.value = t₂.targetCategory ∨
      o₁.value = t₂.targetCategory ∧ o₂.value = t₁.targetCategory)
    (hc : t₁.targetCategory ≠ t₂.targetCategory)
    {g : ℝ → ℝ} (hg : link dr.normalization = some g)
    (o : MapOrd) (row : Row ℝ) (hp : firstMissing row t₁.predictors = none) :
    ∃ (out : GoMap (GoVal ℝ)) (p q : ℝ), (mr.evaluate o row).res = .ok (some out) ∧
      out[o₁.name]? = some (.f64 p) ∧ out[o₂.name]? = some (.f64 q) ∧ p + q = 1 := by
  obtain ⟨out, hr, -, hk⟩ := C48_binary h hf ho hne ht h₁ h₂ hg o row hp
  have k₁ := hk o₁ (by rw [ho]; exact List.mem_cons_self)
  have k₂ := hk o₂ (by rw [ho]; exact List.mem_cons_of_mem _ List.mem_cons_self)
  have hs : ∀ x : ℝ, Arith.sub Arith.one x = 1 - x := by intro x; rw [Real'.one_eq]; rfl
  rcases hv with ⟨a, b⟩ | ⟨a, b⟩
  · rw [a, if_neg hc, if_pos rfl] at k₁
    rw [b, if_pos rfl] at k₂
    exact ⟨out, _, _, hr, k₁, k₂, by rw [hs]; ring⟩
  · rw [a, if_pos rfl] at k₁
    rw [b, if_neg hc, if_pos rfl] at k₂
    exact ⟨out, _, _, hr, k₁, k₂, by rw [hs]; ring⟩

/-- **C48** (finding): the coefficients of a two-class model play no part in its answer. -/
theorem C48_coefficients_ignored (hf : d.functionName = .classification) (ho : d.outputs.length = 2)
    (c : NumericPredictor F → F) (o : MapOrd) (row : Row F) :
    (EModel.evaluate o (.regression (mapPredictors (fun np => { np with coefficient := c np }) d)) row).res =
      (EModel.evaluate o (.regression d) row).res := by
  let g : NumericPredictor F → NumericPredictor F := fun np => { np with coefficient := c np }
  show RegressionDoc.evaluate (mapPredictors g d) row = RegressionDoc.evaluate d row
  have hn : (mapPredictors g d).functionName = d.functionName := rfl
  have ho' : (mapPredictors g d).outputs = d.outputs := rfl
  unfold RegressionDoc.evaluate
  rw [hn, ho', hf]
  simp only [ho, if_true, RegressionDoc.evalBinary, mapPredictors]
  rw [binaryTables_map (g := g) fun np => rfl]

/-! ## C49: link functions -/

theorem C49_link {n : Normalization} {g : ℝ → ℝ} (hg : link n = some g) :
    StrictMono g ∧ (∀ x, 0 < g x) ∧ (n ≠ .exp → ∀ x, g x < 1) := by
  have one : (Arith.one : ℝ) = 1 := Real'.one_eq
  have logit : (fun x : ℝ => Arith.div Arith.one (Arith.add Arith.one (Trans.exp (Arith.neg x)))) =
      fun x : ℝ => 1 / (1 + Real.exp (-x)) := by
    funext x; rw [one]; rfl
  have clog : (fun x : ℝ => Arith.sub Arith.one (Trans.exp (Arith.neg (Trans.exp x)))) =
      fun x : ℝ => 1 - Real.exp (-Real.exp x) := by
    funext x; rw [one]; rfl
  have cau : (fun x : ℝ => Arith.add (Arith.lit 1 2) (Arith.mul Trans.invPi (Trans.atan x))) =
      fun x : ℝ => 1 / 2 + 1 / Real.pi * Real.arctan x := by
    funext x
    show ((1 : ℤ) : ℝ) / ((2 : ℕ) : ℝ) + 1 / Real.pi * Real.arctan x = _
    norm_num
  have hlogit : StrictMono (fun x : ℝ => 1 / (1 + Real.exp (-x))) ∧
      (∀ x : ℝ, 0 < 1 / (1 + Real.exp (-x))) ∧ ∀ x : ℝ, 1 / (1 + Real.exp (-x)) < 1 := by
    have hpos : ∀ x : ℝ, 0 < 1 + Real.exp (-x) := fun x => by have := Real.exp_pos (-x); linarith
    refine ⟨?_, fun x => one_div_pos.mpr (hpos x), fun x => ?_⟩
    · intro x y hxy
      apply one_div_lt_one_div_of_lt (hpos y)
      have := Real.exp_lt_exp.mpr (neg_lt_neg hxy)
      linarith
    · rw [div_lt_one (hpos x)]
      have := Real.exp_pos (-x)
      linarith
  cases n <;> simp only [link, reduceCtorEq, Option.some.injEq] at hg
  · -- cauchit
    subst hg
    rw [cau]
    have hpi := Real.pi_pos
    refine ⟨?_, fun x => ?_, fun _ x => ?_⟩
    · intro x y hxy
      have h1 := mul_lt_mul_of_pos_left (Real.arctan_strictMono hxy) (one_div_pos.mpr hpi)
      simp only
      linarith
    · have h1 := mul_lt_mul_of_pos_left (Real.neg_pi_div_two_lt_arctan x) (one_div_pos.mpr hpi)
      have h2 : 1 / Real.pi * (-(Real.pi / 2)) = -(1 / 2) := by field_simp
      simp only
      linarith
    · have h1 := mul_lt_mul_of_pos_left (Real.arctan_lt_pi_div_two x) (one_div_pos.mpr hpi)
      have h2 : 1 / Real.pi * (Real.pi / 2) = 1 / 2 := by field_simp
      simp only
      linarith
  · -- cloglog
    subst hg
    rw [clog]
    refine ⟨?_, fun x => ?_, fun _ x => ?_⟩
    · intro x y hxy
      have := Real.exp_lt_exp.mpr (neg_lt_neg (Real.exp_lt_exp.mpr hxy))
      simp only
      linarith
    · have := Real.exp_lt_one_iff.mpr (neg_lt_zero.mpr (Real.exp_pos x))
      simp only
      linarith
    · have := Real.exp_pos (-Real.exp x)
      simp only
      linarith
  · -- exp
    subst hg
    exact ⟨fun x y hxy => Real.exp_lt_exp.mpr hxy, Real.exp_pos, fun h => absurd rfl h⟩
  · subst hg; rw [logit]; exact ⟨hlogit.1, hlogit.2.1, fun _ => hlogit.2.2⟩
  · subst hg; rw [logit]; exact ⟨hlogit.1, hlogit.2.1, fun _ => hlogit.2.2⟩

/-- **C49**: the answer of a regression model over the real numbers is positive, below one unless
the method is exp, and greater for the row with the greater linear score. -/
theorem C49_answers [Lib ℝ] {tdr tdr' : TD ℝ} {dr : RegressionDoc ℝ} {mr : EModel ℝ}
    (h : newModel dd (.regression dr) tdr = (.ok mr, tdr')) (hf : dr.functionName = .regression)
    {t : RegressionTable ℝ} (ht : dr.tables = [t]) {f : OutputField} (ho : dr.outputs = [f])
    (o : MapOrd) {row row' : Row ℝ} {out out' : GoMap (GoVal ℝ)}
    (hr : (mr.evaluate o row).res = .ok (some out)) (hr' : (mr.evaluate o row').res = .ok (some out')) :
    ∃ p p' : ℝ, out[f.name]? = some (.f64 p) ∧ out'[f.name]? = some (.f64 p') ∧
      0 < p ∧ (dr.normalization ≠ .exp → p < 1) ∧ (p < p' ↔ linear row t < linear row' t) := by
  rw [C45_regression h hf ht ho] at hr hr'
  cases h1 : firstMissing row t.predictors with
  | some k => rw [h1] at hr; cases hr
  | none =>
    cases h2 : firstMissing row' t.predictors with
    | some k => rw [h2] at hr'; cases hr'
    | none =>
      rw [h1] at hr
      rw [h2] at hr'
      cases hg : link (F := ℝ) dr.normalization with
      | none => rw [hg] at hr; cases hr
      | some g =>
        rw [hg] at hr hr'
        cases hr
        cases hr'
        have H := C49_link hg
        refine ⟨g (linear row t), g (linear row' t), by simp, by simp, H.2.1 _, fun hn => H.2.2 hn _, H.1.lt_iff_lt⟩

/-- **C49**: in float64 arithmetic, with any `exp` whose values are NaN or not negative, the
logistic link is NaN or between 0 and 1, at every argument including infinities and NaN. -/
theorem C49_float [Trans F64]
    (he : ∀ x : F64, Trans.exp x = F64.nan ∨ Arith.le Arith.zero (Trans.exp x : F64) = true)
    {n : Normalization} (hn : n = .logit ∨ n = .softmax) {g : F64 → F64} (hg : link n = some g) (x : F64) :
    F64.UnitOrNaN (g x) := by
  have hg' : g = fun x => Arith.div Arith.one (Arith.add Arith.one (Trans.exp (Arith.neg x))) := by
    rcases hn with rfl | rfl <;> exact (Option.some.inj hg).symm
  rw [hg']
  simp only
  rcases he (Arith.neg x) with h | h
  · rw [h, add_nan_right, div_nan_right]; exact .inl rfl
  · have hnn := F64.nonNeg_iff.mpr h
    have h1 : F64.NonNeg (Arith.one : F64) := by
      rw [F64.one_eq]; exact F64.nonNeg_ofRat zero_le_one _
    exact F64.unit_div h1 (F64.ext_add h1 hnn).1 (F64.le_add h1 hnn)

/-! ## C50: purity -/

/-- **C50**: evaluating a regression model leaves the row and the model as they were. -/
theorem C50_pure (h : newModel dd (.regression d) td = (.ok m, td')) (o : MapOrd) (row : Row F) :
    (m.evaluate o row).row = row ∧ (m.evaluate o row).model = m := by
  rw [regression_model h]
  simp only [EModel.evaluate, and_self]

/-- **C50**: it never panics, whatever the document and the row. -/
theorem C50_no_panic (h : newModel dd (.regression d) td = (.ok m, td')) (o : MapOrd) (row : Row F)
    (p : Panic) : (m.evaluate o row).res ≠ panic p := by
  rw [regression_model h]
  simp only [EModel.evaluate]
  unfold RegressionDoc.evaluate
  cases hf : d.functionName with
  | regression =>
    simp only
    rcases ht : d.tables with _ | ⟨t, _ | ⟨t', ts⟩⟩
    · simp [RegressionDoc.evalRegression, ht, fail, panic]
    · rcases ho : d.outputs with _ | ⟨f, _ | ⟨f', fs⟩⟩
      · simp [RegressionDoc.evalRegression, ht, ho, fail, panic]
      · have H := C45_regression (dd := []) (td := []) (m := .regression d) (td' := []) rfl hf ht ho o row
        simp only [EModel.evaluate, RegressionDoc.evaluate, hf] at H
        rw [H]
        split <;> simp [fail, panic]
      · simp [RegressionDoc.evalRegression, ht, ho, fail, panic]
    · simp [RegressionDoc.evalRegression, ht, fail, panic]
  | classification =>
    simp only
    by_cases ho : d.outputs.length = 2
    · rw [if_pos ho]
      cases hg : link (F := F) d.normalization with
      | some g =>
        have H := C46_binary (dd := []) (td := []) (m := .regression d) (td' := []) rfl hf ho hg o row
        simp only [EModel.evaluate, RegressionDoc.evaluate, hf, if_pos ho] at H
        cases hm : firstMissing row (allPredictors d) with
        | some k => rw [hm] at H; simp only at H; rw [H]; simp [fail, panic]
        | none => rw [hm] at H; obtain ⟨out, H⟩ := H; rw [H]; simp [panic]
      | none =>
        unfold RegressionDoc.evalBinary
        have : ∀ (ts : List (RegressionTable F)) (rest : F) (out : GoMap (GoVal F)),
            binaryTables d.normalization d.outputs row rest out ts ≠ panic p := by
          intro ts
          induction ts with
          | nil => intro rest out; simp [binaryTables, panic]
          | cons t ts ih =>
            intro rest out
            rw [binaryTables]
            rcases hp : t.predictors with _ | ⟨np, nps⟩
            · rw [if_neg (by simp)]; exact ih _ _
            · rw [if_pos (by simp)]
              obtain ⟨e, he⟩ := binaryLoop_unsupported hg row np nps t.intercept
              rw [he]; rintro ⟨⟩
        intro hc
        cases hb : binaryTables d.normalization d.outputs row Arith.one ∅ d.tables with
        | ok out => rw [hb] at hc; cases hc
        | error e =>
          rw [hb] at hc
          apply this d.tables Arith.one ∅
          rw [hb]
          cases hc
          rfl
    · rw [if_neg ho]
      have H := C46_multiclass (dd := []) (td := []) (m := .regression d) (td' := []) rfl hf ho o row
      simp only [EModel.evaluate, RegressionDoc.evaluate, hf, if_neg ho] at H
      cases hm : firstMissing row (allPredictors d) with
      | some k => rw [hm] at H; simp only at H; rw [H]; simp [fail, panic]
      | none =>
        rw [hm] at H
        cases hw : weight (F := F) d.normalization with
        | some g => rw [hw] at H; obtain ⟨out, H, -⟩ := H; rw [H]; simp [panic]
        | none =>
          rw [hw] at H
          simp only at H
          split_ifs at H <;> rw [H] <;> simp [fail, panic]
  | other s => simp [fail, panic]

/-! ## Examples

A stand-in for `exp` (`Samples.standIn`: exp x = 1 + x) is used for the concrete runs. -/

section
open Samples Replay

/-- A regression with two predictors: 1 + 2*x + 3*z. -/
def line (n : Normalization) : RegressionDoc F64 where
  functionName := .regression
  normalization := n
  tables := [⟨num "1", "", [⟨"x", num "2", 1⟩, ⟨"z", num "3", 7⟩]⟩]
  outputs := [⟨"out", .probability, ""⟩]
  verification := none

-- C45: 1 + 2*5 + 3*0.5 = 12.5, through exp (13.5 with the stand-in); a missing and an unsupported case.
example : eval .sorted (.regression (line .exp)) [("x", .int .int 5), ("z", .str "0.5")] =
      some (.ok (some (mk [("out", .f64 (num "13.5"))]))) ∧
    eval .sorted (.regression (line .exp)) [("z", .str "0.5")] = some (fail (.missingTerm "x")) ∧
    eval .sorted (.regression (line .none)) [("x", .int .int 5), ("z", .str "0.5")] =
      some (fail .unsupportedNormalization) := by
  decide +kernel

/-- Three classes. -/
def three (n : Normalization) : RegressionDoc F64 where
  functionName := .classification
  normalization := n
  tables := [⟨num "1", "a", [⟨"x", num "2", 1⟩]⟩, ⟨num "3", "b", [⟨"z", num "1", 1⟩]⟩, ⟨num "0", "c", []⟩]
  outputs := [⟨"pa", .probability, "a"⟩, ⟨"pb", .probability, "b"⟩, ⟨"pc", .probability, "c"⟩]
  verification := none

-- C46/C47: scores 3, 4, 0; weights (with the stand-in) 4, 5, 1; the names are distinct.
example : eval .sorted (.regression (three .softmax)) [("x", .int .int 1), ("z", .int .int 1)] =
      some (.ok (some (mk [("pa", .f64 (num "0.4")), ("pb", .f64 (num "0.5")), ("pc", .f64 (num "0.1"))]))) ∧
    eval .sorted (.regression (three .softmax)) [("x", .int .int 1)] = some (fail (.missingTerm "z")) ∧
    eval .sorted (.regression (three .logit)) [("x", .int .int 1), ("z", .int .int 1)] =
      some (fail .unsupportedNormalization) ∧
    (three .softmax).tables.map (fun t => reportedAs (three .softmax).outputs t.targetCategory) = ["pa", "pb", "pc"] := by
  decide +kernel

/-- Two classes. -/
def two : RegressionDoc F64 where
  functionName := .classification
  normalization := .logit
  tables := [⟨num "0.25", "yes", [⟨"x", num "2", 1⟩]⟩, ⟨num "0", "no", []⟩]
  outputs := [⟨"pn", .probability, "no"⟩, ⟨"py", .probability, "yes"⟩]
  verification := none

-- C48: at x = -6 the stand-in gives 1 / (1 + 7) + 0.25; at x = 0 it is 1 / 2 + 0.25.
example : eval .sorted (.regression two) [("x", .int .int (-6))] =
      some (.ok (some (mk [("py", .f64 (num "0.375")), ("pn", .f64 (num "0.625"))]))) ∧
    eval .sorted (.regression two) [("x", .int .int 0)] =
      some (.ok (some (mk [("py", .f64 (num "0.75")), ("pn", .f64 (num "0.25"))]))) := by
  decide +kernel

/-- **C48** (finding): the numbers reported need not be probabilities: the intercept is added
after the transformation.  At x = 0 (where `exp` is exactly 1) 1.5 and -0.5 are reported. -/
theorem C48_not_probabilities :
    eval .sorted (.regression { two with tables := [⟨num "1", "yes", [⟨"x", num "2", 1⟩]⟩, ⟨num "0", "no", []⟩] })
        [("x", .int .int 0)] =
      some (.ok (some (mk [("py", .f64 (num "1.5")), ("pn", .f64 (num "-0.5"))]))) := by
  decide +kernel

/-- Three classes over the real numbers. -/
noncomputable def threeR : RegressionDoc ℝ where
  functionName := .classification
  normalization := .softmax
  tables := [⟨1, "a", [⟨"x", 2, 1⟩]⟩, ⟨3, "b", [⟨"z", 1, 1⟩]⟩, ⟨0, "c", []⟩]
  outputs := [⟨"pa", .probability, "a"⟩, ⟨"pb", .probability, "b"⟩, ⟨"pc", .probability, "c"⟩]
  verification := none

-- The hypotheses of C47_softmax are met by an ordinary model and row.
example [Lib ℝ] (o : MapOrd) : ∃ out : GoMap (GoVal ℝ),
    (EModel.evaluate o (.regression threeR) (some (Std.ExtTreeMap.ofList [("x", GoVal.f64 (5 : ℝ)), ("z", GoVal.f64 (7 : ℝ))]))).res = .ok (some out) ∧
      "pb" ∈ out ∧ "x" ∉ out := by
  obtain ⟨out, h, hk, -⟩ := C47_softmax (dd := []) (tdr := []) (dr := threeR) rfl rfl (by simp [threeR]) rfl
    (by simp [threeR]) (by decide) o (some (Std.ExtTreeMap.ofList [("x", GoVal.f64 (5 : ℝ)), ("z", GoVal.f64 (7 : ℝ))]))
    (by simp [firstMissing, allPredictors, threeR, Row.get])
  refine ⟨out, h, (hk _).mpr ⟨⟨3, "b", [⟨"z", 1, 1⟩]⟩, by simp [threeR], by decide⟩, fun hx => ?_⟩
  obtain ⟨t, ht, e⟩ := (hk _).mp hx
  simp only [threeR, List.mem_cons, List.not_mem_nil, or_false] at ht
  rcases ht with rfl | rfl | rfl <;> revert e <;> decide

-- The hypothesis on `exp` in C47_float and C49_float is satisfiable, also with infinite values.
example : ∃ exp : F64 → F64, exp (num "1000") = .inf false ∧ exp (num "-1000") = num "0" ∧
    ∀ x, exp x = F64.nan ∨ Arith.le Arith.zero (exp x) = true := by
  refine ⟨fun x => if Arith.lt x (num "-1") then num "0" else if Arith.lt x (num "1") then num "1" else .inf false,
    by decide +kernel, by decide +kernel, fun x => ?_⟩
  simp only
  split_ifs
  · right; decide +kernel
  · right; decide +kernel
  · right; decide +kernel

end

end Gopmml.Props
