import Verif.Proofs.Labels
import Verif.Proofs.Rename

/-!
# Other names for nodes and for classes: evaluators and documents
-/

namespace Gopmml
open Spec

variable {F : Type} [Arith F] [Lib F] {ν σ κ : Equiv.Perm String}

/-! ## Trees -/

omit [Lib F] in
theorem targetDist_label {c c' : TreeCtx F} (ht : c'.targetField = c.targetField)
    (hd : targetValues c'.dd c.targetField = (targetValues c.dd c.targetField).map σ) (s : ScoreDist F) :
    targetDist c' (labelScore σ s) = (targetDist c s).map (labelScore σ) := by
  have key : ∀ (c : TreeCtx F) s, targetDist c s = (targetValues c.dd c.targetField).map fun v =>
      if v = s.value then ⟨v, Arith.one, Arith.one, s.recordCount⟩ else ⟨v, Arith.zero, Arith.zero, Arith.zero⟩ := by
    intro c s
    unfold targetDist targetValues
    generalize c.dd = dd
    induction dd with
    | nil => rfl
    | cons f dd ih =>
      rw [List.flatMap_cons, ih, List.filter_cons]
      by_cases e : f.name = c.targetField <;> simp [e]
  rw [key, key, ht, hd, List.map_map, List.map_map]
  apply List.map_congr_left
  intro v _
  simp only [Function.comp, labelScore, EmbeddingLike.apply_eq_iff_eq]
  by_cases e : v = s.value <;> simp [e]

/-- What evaluators of trees have to agree on. -/
structure TreeLabel (ν σ : Equiv.Perm String) (m m' : TreeModel F) : Prop where
  validated : m.validated = true ∧ m'.validated = true
  compiled : m.compiled = true ∧ m'.compiled = true
  ctx : CtxLabel σ m.ctx m'.ctx
  fn : m'.model.functionName = m.model.functionName
  target : m'.targetField = m.targetField
  lt : m'.model.localTransformations = m.model.localTransformations
  root : m'.root = labelC ν σ m.root
  keys : KeysOk m.outKeys ∧ KeysOk m'.outKeys

/-- Building alike: the same error, or evaluators so related, and the same dictionary. -/
def Alike {α : Type} (R : α → α → Prop) (x y : Res α × TD F) : Prop :=
  y.2 = x.2 ∧ match x.1, y.1 with
    | .ok a, .ok b => R a b
    | .error e, .error e' => e' = e
    | _, _ => False

omit [Arith F] [Lib F] in
theorem Alike.mono {α : Type} {R S : α → α → Prop} {x y : Res α × TD F} (h : Alike R x y)
    (hf : ∀ a b, x.1 = .ok a → R a b → S a b) : Alike S x y := by
  obtain ⟨x, t⟩ := x
  obtain ⟨y, t'⟩ := y
  refine ⟨h.1, ?_⟩
  have := h.2
  cases x <;> cases y <;> first | exact this.elim | exact this | exact hf _ _ rfl this

theorem newTreeModel_label (ν σ : Equiv.Perm String) {dd dd' : List DataField} (td : TD F) (d : TreeDoc F)
    (hty : ∀ td : TD F, buildTypes dd' td = buildTypes dd td)
    (hd : targetValues dd' (targetOf d.miningFields) = (targetValues dd (targetOf d.miningFields)).map σ) :
    Alike (TreeLabel ν σ) (newTreeModel dd td d) (newTreeModel dd' td { d with node := labelNode ν σ d.node }) := by
  have hv : ∀ (dd : List DataField) (d : TreeDoc F), (TreeModel.init dd d).validate =
      if d.functionName ≠ .classification ∧ d.functionName ≠ .regression then
        (fail .unsupportedMiningFunction, TreeModel.init dd d)
      else (.ok (), { TreeModel.init dd d with
        model := { d with miningFields := d.miningFields.map MiningField.withDefaults }
        validated := true }) := fun _ _ => rfl
  unfold newTreeModel
  rw [hv, hv]
  by_cases hf : d.functionName ≠ .classification ∧ d.functionName ≠ .regression
  · rw [if_pos hf, if_pos hf]
    exact ⟨rfl, rfl⟩
  · rw [if_neg hf, if_neg hf]
    simp only [TreeModel.init, TreeModel.compile, findTarget_eq, hty, newNode_label]
    cases newNode (buildTypes dd (td ++ d.localTransformations)) d.node with
    | error e => exact ⟨rfl, rfl⟩
    | ok a =>
      refine ⟨rfl, ?_⟩
      exact { validated := ⟨rfl, rfl⟩, compiled := ⟨rfl, rfl⟩, fn := rfl, lt := rfl, root := rfl, target := rfl,
              keys := ⟨keysOk_empty, keysOk_empty⟩,
              ctx := ⟨rfl, rfl, rfl, rfl, rfl, targetDist_label rfl hd⟩ }

theorem treeEvaluate_label {m m' : TreeModel F} (h : TreeLabel ν σ m m') (o : MapOrd) (row : Row F) : ∃ o',
    (m'.evaluate o' row).row = (m.evaluate o row).row ∧
    (((m'.evaluate o' row).res = (m.evaluate o row).res ∧ ∃ e, (m.evaluate o row).res = .error e) ∨
    ∃ a, (m.evaluate o row).res = report m.model.functionName m.targetField a ∧
      (m'.evaluate o' row).res = report m.model.functionName m.targetField (labelRes σ a)) := by
  obtain ⟨e1, e2, -⟩ := evaluate_eq h.validated.1 h.compiled.1 h.keys.1 o row
  have e' := fun o' => evaluate_eq h.validated.2 h.compiled.2 h.keys.2 o' row
  simp only [h.lt, h.fn, h.target, h.root] at e'
  rw [e1, e2]
  rcases hi : handleInput m.model.localTransformations row with ⟨e | ⟨⟨⟩⟩, row'⟩
  · obtain ⟨f1, f2, -⟩ := e' o
    rw [hi] at f1 f2
    exact ⟨o, f1, .inl ⟨f2, e, rfl⟩⟩
  · obtain ⟨o', ho⟩ := evalNode_label (ν := ν) h.ctx row' o m.root
    obtain ⟨f1, f2, -⟩ := e' o'
    rw [hi] at f1 f2
    refine ⟨o', f1, ?_⟩
    simp only [ho] at f2
    rw [f2]
    simp only
    cases evalNode m.ctx o row' m.root with
    | error e => exact .inl ⟨rfl, e, rfl⟩
    | ok a => exact .inr ⟨a, rfl, rfl⟩

omit [Arith F] [Lib F] in
theorem labelScore_id : labelScore (F := F) (Equiv.refl String) = _root_.id := by
  funext s; rfl

omit [Arith F] [Lib F] in
theorem labelRes_id (a : NodeRes F) : labelRes (Equiv.refl String) a = a := by
  unfold labelRes
  rw [labelScore_id, List.map_id]

omit [Arith F] [Lib F] in
theorem labelDist_id : labelDist (F := F) _root_.id = _root_.id := by
  funext s; rfl

variable {T : String → Bool}

omit [Arith F] [Lib F] in
theorem classRow_label (h : Names σ κ T) (t l : String) (ht : κ t = t) (dist : List (ScoreDist F)) :
    Moved κ (labelVal σ) (classRow t l dist) (classRow t (σ l) (dist.map (labelScore σ))) := by
  unfold classRow
  rw [List.foldl_map]
  have h0 := (Moved.empty κ (labelVal (F := F) σ)).insert κ.injective t (.str l)
  rw [ht] at h0
  have key := Moved.fold κ.injective (fun s : ScoreDist F => "probability(" ++ s.value ++ ")")
    (fun s => (.f64 s.probability : GoVal F)) dist h0
  simp only [h.prob] at key
  exact key

omit [Arith F] [Lib F] in
theorem classRow_str (t l : String) (dist : List (ScoreDist F)) (k s : String)
    (h : (classRow t l dist)[k]? = some (.str s)) : k = t := by
  unfold classRow at h
  have key : ∀ (l : List (ScoreDist F)) (m : GoMap (GoVal F)), (∀ k s, m[k]? = some (.str s) → k = t) → ∀ k s,
      (l.foldl (fun m s => m.insert ("probability(" ++ s.value ++ ")") (.f64 s.probability)) m)[k]? = some (.str s) →
      k = t := by
    intro l
    induction l with
    | nil => exact fun m h => h
    | cons x l ih =>
      intro m h
      apply ih
      intro k s hk
      rw [GoMap.getElem?_insert] at hk
      split_ifs at hk with e
      · cases hk
      · exact h k s hk
  refine key dist _ (fun k s hk => ?_) k s h
  rw [GoMap.getElem?_insert] at hk
  split_ifs at hk with e
  · exact e.symm
  · simp at hk

theorem report_label (h : Names σ κ T) (t : String) (ht : T t = true) (a : Ans F) :
    LabelRes σ κ T (report .classification t a) (report .classification t (labelRes σ a)) := by
  obtain ⟨dist, r⟩ := a
  unfold report labelRes
  by_cases hr : r ≠ .t
  · simp only [if_pos hr]; exact trivial
  · simp only [if_neg hr, LabelRes, LabelOut]
    rw [pickBest_label h.empty]
    exact ⟨classRow_label h t _ (h.target t ht) dist, fun k s hk => (classRow_str _ _ _ _ _ hk).symm ▸ ht⟩

theorem report_number (h : Names σ κ T) (t : String) (a : Ans F) :
    LabelRes σ κ T (report .regression t a) (report .regression t a) := by
  obtain ⟨dist, r⟩ := a
  unfold report
  by_cases hr : r ≠ .t
  · simp only [if_pos hr]; exact trivial
  · simp only [if_neg hr]
    cases dist with
    | nil => rfl
    | cons s l =>
      simp only
      cases Lib.parseFloat (F := F) s.value with
      | none => rfl
      | some x =>
        refine ⟨?_, fun k s hk => ?_⟩
        · have := (Moved.empty κ (labelVal (F := F) σ)).insert κ.injective "score" (.f64 x)
          rw [h.score] at this
          exact this
        · rw [GoMap.getElem?_insert] at hk
          split_ifs at hk
          · cases hk
          · simp at hk

/-! ## Regressions -/

section
variable [Trans F]

/-- Answers without classes. -/
def Plain (κ : String → String) (m m' : GoMap (GoVal F)) : Prop :=
  (∀ k : String, m'[κ k]? = m[k]?) ∧ ∀ (k : String) (s : String), m[k]? ≠ some (.str s)

omit [Arith F] [Lib F] [Trans F] in
theorem Plain.empty : Plain (F := F) κ ∅ ∅ := ⟨fun k => by simp, fun k s => by simp⟩

omit [Arith F] [Lib F] [Trans F] in
theorem Plain.insert {m m' : GoMap (GoVal F)} (h : Plain κ m m') (k : String) (x : F) :
    Plain κ (m.insert k (.f64 x)) (m'.insert (κ k) (.f64 x)) := by
  constructor
  · intro j
    rw [GoMap.getElem?_insert, GoMap.getElem?_insert, h.1 j]
    simp only [EmbeddingLike.apply_eq_iff_eq]
  · intro j s hj
    rw [GoMap.getElem?_insert] at hj
    split_ifs at hj
    · cases hj
    · exact h.2 j s hj

omit [Arith F] [Lib F] [Trans F] in
theorem Plain.labelOut {m m' : GoMap (GoVal F)} (h : Plain κ m m') : LabelOut σ κ T (some m) (some m') := by
  refine ⟨fun k => ?_, fun k s hk => absurd hk (h.2 k s)⟩
  rw [h.1 k]
  cases e : m[k]? with
  | none => rfl
  | some v => cases v <;> first | rfl | exact absurd e (h.2 k _)

omit [Arith F] [Lib F] [Trans F] in
theorem binaryOut_label (outputs : List OutputField) (cat : String) (pred : F) : ∀ {out out' : GoMap (GoVal F)},
    Plain κ out out' →
    Plain κ (binaryOut outputs cat pred out) (binaryOut (outputs.map (labelOutput σ κ)) (σ cat) pred out') := by
  unfold binaryOut
  induction outputs with
  | nil => exact fun h => h
  | cons f fs ih =>
    intro out out' h
    rw [List.map_cons, List.foldl_cons, List.foldl_cons]
    apply ih
    simp only [labelOutput, EmbeddingLike.apply_eq_iff_eq]
    by_cases e : cat = f.value
    · rw [if_pos e, if_pos e]; exact h.insert _ _
    · rw [if_neg e, if_neg e]; exact h

/-- The table with its class renamed. -/
abbrev labelTable (σ : String → String) (t : RegressionTable F) : RegressionTable F :=
  { t with targetCategory := σ t.targetCategory }

theorem binaryTables_label (n : Normalization) (outputs : List OutputField) (row : Row F) : (ts : List (RegressionTable F)) →
    ∀ (x : F) {out out' : GoMap (GoVal F)}, Plain κ out out' →
    match binaryTables n outputs row x out ts,
      binaryTables n (outputs.map (labelOutput σ κ)) row x out' (ts.map (labelTable σ)) with
    | .ok a, .ok b => Plain κ a b
    | .error e, .error e' => e' = e
    | _, _ => False
  | [], x, out, out', h => h
  | t :: ts, x, out, out', h => by
    rw [List.map_cons, binaryTables, binaryTables]
    by_cases c : t.predictors ≠ []
    · rw [if_pos c, if_pos (show (labelTable σ t).predictors ≠ [] from c)]
      simp only [bind, Except.bind]
      cases binaryLoop n row t.intercept t.predictors with
      | error e => rfl
      | ok p => exact binaryTables_label n outputs row ts _ (binaryOut_label outputs _ _ h)
    · rw [if_neg c, if_neg (show ¬ (labelTable σ t).predictors ≠ [] from c)]
      exact binaryTables_label n outputs row ts _ (binaryOut_label outputs _ _ h)

omit [Lib F] in
theorem multiclassOut_label (n : Normalization) (y : List F) : (l : List (String × F)) →
    ∀ {out out' : GoMap (GoVal F)}, Plain κ out out' →
    match multiclassOut n y out l, multiclassOut n y out' (l.map (Prod.map κ _root_.id)) with
    | .ok a, .ok b => Plain κ a b
    | .error e, .error e' => e' = e
    | _, _ => False
  | [], out, out', h => h
  | (t, yi) :: l, out, out', h => by
    rw [List.map_cons]
    cases n with
    | softmax => exact multiclassOut_label .softmax y l (h.insert _ _)
    | simplemax => exact multiclassOut_label .simplemax y l (h.insert _ _)
    | _ => rfl

omit [Arith F] [Lib F] [Trans F] in
theorem outFieldMap_label (outputs : List OutputField) :
    Moved σ κ (outFieldMap outputs) (outFieldMap (outputs.map (labelOutput σ κ))) := by
  unfold outFieldMap
  rw [List.foldl_map]
  exact Moved.fold σ.injective (fun f : OutputField => f.value) (fun f => f.name) outputs (Moved.empty _ _)

omit [Trans F] in
theorem linearAll_label (row : Row F) : (ts : List (RegressionTable F)) →
    linearAll row (ts.map (labelTable σ)) = linearAll row ts
  | [] => rfl
  | t :: ts => by rw [List.map_cons, linearAll, linearAll, linearAll_label row ts]

theorem regressionEvaluate_label (h : Names σ κ T) (d : RegressionDoc F) (row : Row F) :
    LabelRes σ κ T (d.evaluate row) ((labelRegression σ κ d).evaluate row) := by
  unfold RegressionDoc.evaluate
  have e1 : (labelRegression σ κ d).functionName = d.functionName := rfl
  have e2 : (labelRegression σ κ d).outputs = d.outputs.map (labelOutput σ κ) := rfl
  have e3 : (labelRegression σ κ d).tables = d.tables.map (labelTable σ) := rfl
  have e4 : (labelRegression σ κ d).normalization = d.normalization := rfl
  rw [e1]
  cases d.functionName with
  | regression =>
    simp only
    unfold RegressionDoc.evalRegression
    rw [e2, e3, e4]
    match d.tables with
    | [] => rfl
    | [t] =>
      match d.outputs with
      | [] => rfl
      | [f] =>
        simp only [List.map_cons, List.map_nil]
        cases linearLoop row t.intercept t.predictors with
        | error e => rfl
        | ok y =>
          simp only [bind, Except.bind]
          cases normalize d.normalization y with
          | error e => rfl
          | ok z => exact (Plain.empty.insert f.name z).labelOut
      | a :: b :: l => simp [LabelRes]
    | a :: b :: l => simp [LabelRes]
  | classification =>
    simp only
    rw [e2, List.length_map]
    split_ifs
    · unfold RegressionDoc.evalBinary
      rw [e2, e3, e4]
      have key := binaryTables_label (σ := σ) (κ := κ) d.normalization d.outputs row d.tables Arith.one Plain.empty
      revert key
      generalize binaryTables d.normalization d.outputs row Arith.one ∅ d.tables = x
      generalize binaryTables d.normalization (d.outputs.map (labelOutput σ κ)) row Arith.one ∅
        (d.tables.map (labelTable σ)) = y
      intro key
      cases x <;> cases y <;> first | exact key.elim | exact key | exact key.labelOut
    · unfold RegressionDoc.evalMulticlass
      rw [e2, e3, e4]
      simp only [linearAll_label]
      cases linearAll row d.tables with
      | error e => rfl
      | ok ys =>
        simp only [bind, Except.bind]
        have e5 : ((d.tables.map (labelTable σ)).map fun t =>
              ((outFieldMap (d.outputs.map (labelOutput σ κ)))[t.targetCategory]?).getD "") =
            (d.tables.map fun t => ((outFieldMap d.outputs)[t.targetCategory]?).getD "").map κ := by
          rw [List.map_map, List.map_map]
          apply List.map_congr_left
          intro t _
          simp only [Function.comp]
          rw [outFieldMap_label d.outputs t.targetCategory]
          cases (outFieldMap d.outputs)[t.targetCategory]? <;> simp [h.unnamed]
        rw [e5, List.zip_map_left (f := κ)]
        have key := multiclassOut_label (κ := κ) d.normalization ys
          ((d.tables.map fun t => ((outFieldMap d.outputs)[t.targetCategory]?).getD "").zip ys) Plain.empty
        revert key
        generalize multiclassOut d.normalization ys ∅
          ((d.tables.map fun t => ((outFieldMap d.outputs)[t.targetCategory]?).getD "").zip ys) = x
        generalize multiclassOut d.normalization ys ∅
          (((d.tables.map fun t => ((outFieldMap d.outputs)[t.targetCategory]?).getD "").zip ys).map
            (Prod.map κ _root_.id)) = y
        intro key
        cases x <;> cases y <;> first | exact key.elim | exact key | exact key.labelOut
  | other s => rfl

/-! ## Ensembles -/

/-- One direction of `Labelled`. -/
def LabelledTo (σ κ : String → String) (T : String → Bool) (M M' : EModel F) : Prop := ∀ (o : MapOrd) (row : Row F), ∃ o',
  LabelRes σ κ T (EModel.evaluate o M row).res (EModel.evaluate o' M' row).res ∧
  (EModel.evaluate o' M' row).row = (EModel.evaluate o M row).row

/-- Scores whose names are not those of classes. -/
def Scores (κ : String → String) (T : String → Bool) (m m' : GoMap F) : Prop :=
  (∀ k : String, m'[κ k]? = m[k]?) ∧ ∀ k : String, m[k]?.isSome = true → T k = false

omit [Arith F] [Lib F] [Trans F] in
theorem Scores.empty : Scores (F := F) κ T ∅ ∅ := ⟨fun k => by simp, fun k h => by simp at h⟩

omit [Arith F] [Lib F] [Trans F] in
theorem Scores.insert {m m' : GoMap F} (h : Scores κ T m m') (k : String) (hk : T k = false) (x : F) :
    Scores κ T (m.insert k x) (m'.insert (κ k) x) := by
  constructor
  · intro j
    rw [GoMap.getElem?_insert, GoMap.getElem?_insert, h.1 j]
    simp only [EmbeddingLike.apply_eq_iff_eq]
  · intro j hj
    rw [GoMap.getElem?_insert] at hj
    split_ifs at hj with e
    · exact e ▸ hk
    · exact h.2 j hj

omit [Arith F] [Lib F] [Trans F] in
theorem Scores.fold {α : Type} (f : α → String) (x : F) : (l : List α) → (∀ a ∈ l, T (f a) = false) →
    ∀ {m m' : GoMap F}, Scores κ T m m' →
    Scores κ T (l.foldl (fun m a => m.insert (f a) x) m) (l.foldl (fun m a => m.insert (κ (f a)) x) m')
  | [], _, _, _, h => h
  | a :: l, hl, _, _, h => Scores.fold f x l (fun b hb => hl b (by simp [hb])) (h.insert _ (hl a (by simp)) _)

/-- What evaluators of ensembles have to agree on. -/
structure StateLabel (σ κ : String → String) (T : String → Bool) (s s' : MiningState F) : Prop where
  validated : s'.validated = s.validated
  compiled : s'.compiled = s.compiled
  method : s'.head.method = s.head.method
  notChain : s.head.method ≠ .modelChain
  fn : s'.head.functionName = s.head.functionName
  lt : s'.head.localTransformations = s.head.localTransformations
  count : s'.segments.length = s.segments.length
  defaults : s'.defaultValues = s.defaultValues
  outputs : s'.outputFields = s.outputFields.map (labelOutput σ κ)
  targets : s'.targets = s.targets.map fun t => { t with field := κ t.field }
  apartOutputs : ∀ f ∈ s.outputFields, T f.name = false
  apartTargets : ∀ t ∈ s.targets, T t.field = false

omit [Lib F] [Trans F] in
theorem initScores_label {s s' : MiningState F} (h : StateLabel σ κ T s s') :
    Scores κ T (initScores s) (initScores s') := by
  unfold initScores
  rw [h.outputs, h.targets, List.foldl_map, List.foldl_map]
  exact Scores.fold (fun t : Target F => t.field) _ _ h.apartTargets
    (Scores.fold (fun f : OutputField => f.name) _ _ h.apartOutputs Scores.empty)

omit [Trans F] in
theorem float64_label {m m' : GoMap (GoVal F)} (h : LabelOut σ κ T (some m) (some m')) (k : String) (hk : T k = false) :
    (m'[κ k]?).map GoVal.float64 = (m[k]?).map GoVal.float64 := by
  rw [h.1 k]
  cases e : m[k]? with
  | none => rfl
  | some v =>
    cases v with
    | str s => rw [h.2 k s e] at hk; cases hk
    | _ => rfl

omit [Trans F] in
theorem addScore_label (hn : Names σ κ T) (o o' : MapOrd) (fn : MiningFunction) {out out' : Out F}
    (ho : LabelOut σ κ T out out') {sm sm' : GoMap F} (h : Scores κ T sm sm') :
    Scores κ T ((o.range sm).foldl (addScore fn out) sm) ((o'.range sm').foldl (addScore fn out') sm') := by
  constructor
  · intro k
    rw [addScore_getElem?, addScore_getElem?, h.1 k]
    cases e : sm[k]? with
    | none => rfl
    | some x =>
      have hk : T k = false := h.2 k (by rw [e]; rfl)
      have : contribution fn (κ k) out' = contribution fn k out := by
        unfold contribution
        cases out with
        | none => cases out' with
          | none => rfl
          | some m => exact ho.elim
        | some m => cases out' with
          | none => exact ho.elim
          | some m' =>
            have h1 := float64_label ho k hk
            have h2 := float64_label ho "score" hn.notScore
            rw [hn.score] at h2
            by_cases hf : fn = .classification
            · simp only [Option.bind_some, if_pos hf, h1]
            · simp only [Option.bind_some, if_neg hf, h2]
      rw [this]
  · intro k hk
    rw [addScore_getElem?, Option.isSome_map] at hk
    exact h.2 k hk

omit [Lib F] [Trans F] in
theorem rescale_label : (ts : List (Target F)) → (∀ t ∈ ts, T t.field = false) → ∀ {sm sm' : GoMap F}, Scores κ T sm sm' →
    Scores κ T (rescale ts sm) (rescale (ts.map fun t => { t with field := κ t.field }) sm')
  | [], _, _, _, h => h
  | t :: ts, ht, sm, sm', h => by
    have ih := @rescale_label ts fun x hx => ht x (by simp [hx])
    have h0 := ht t (by simp)
    unfold rescale at ih ⊢
    rw [List.map_cons, List.foldl_cons, List.foldl_cons]
    apply ih
    simp only
    cases t.rescaleFactor with
    | none =>
      cases t.rescaleConstant with
      | none => exact h
      | some k => simp only; rw [h.1 t.field]; exact h.insert _ h0 _
    | some k1 =>
      have h1 := h.insert t.field h0 (Arith.mul ((sm[t.field]?).getD Arith.zero) k1)
      cases t.rescaleConstant with
      | none => simp only; rw [h.1 t.field]; exact h1
      | some k => simp only; rw [h.1 t.field, h1.1 t.field]; exact h1.insert _ h0 _

omit [Lib F] [Trans F] in
theorem sumFinish_label (o o' : MapOrd) {s s' : MiningState F} (h : StateLabel σ κ T s s') {sm sm' : GoMap F}
    (hm : Scores κ T sm sm') : Plain κ (sumFinish o s sm) (sumFinish o' s' sm') := by
  have := rescale_label s.targets h.apartTargets hm
  unfold sumFinish
  refine ⟨fun k => ?_, fun k x => ?_⟩
  · rw [scoresToRow_getElem?, scoresToRow_getElem?, h.targets, this.1 k]
  · rw [scoresToRow_getElem?]
    cases (rescale s.targets sm)[k]? <;> simp

omit [Trans F] in
theorem averageLoop_label (o o' : MapOrd) (n : Nat) {out out' : GoMap (GoVal F)} (h : Plain κ out out') :
    Plain κ (averageLoop n (o.range out) out) (averageLoop n (o'.range out') out') := by
  refine ⟨fun k => ?_, fun k x => ?_⟩
  · rw [averageLoop_getElem?, averageLoop_getElem?, h.1 k]
  · rw [averageLoop_getElem?]
    cases out[k]? <;> simp

/-- Sums that differ in the names of the scores only. -/
def SumRes (κ : String → String) (T : String → Bool) : Res (GoMap F) → Res (GoMap F) → Prop
  | .ok m, .ok m' => Scores κ T m m'
  | .error e, .error e' => e' = e
  | _, _ => False

theorem sumSegments_label (hn : Names σ κ T) {ms ms' : List (EModel F)} (h : List.Forall₂ (LabelledTo σ κ T) ms ms') :
    ∀ (o : MapOrd) fn i (sm sm' : GoMap F) row, Scores κ T sm sm' → ∃ f : Nat → MapOrd, ∀ o' : MapOrd,
      (∀ j, 2 * i ≤ j → o'.at_ j = f j) →
      SumRes κ T (sumSegments o fn i sm ms row).res (sumSegments o' fn i sm' ms' row).res ∧
      (sumSegments o' fn i sm' ms' row).row = (sumSegments o fn i sm ms row).row := by
  induction h with
  | nil => exact fun o fn i sm sm' row h => ⟨fun _ => .sorted, fun o' _ => by
      rw [sumSegments, sumSegments]; exact ⟨h, rfl⟩⟩
  | @cons m m' ms ms' hm _ ih =>
    intro o fn i sm sm' row hsm
    obtain ⟨o1, h1, h2⟩ := hm (o.at_ (2 * i)) row
    cases he : (EModel.evaluate (o.at_ (2 * i)) m row).res with
    | error e =>
      rw [he] at h1
      cases he' : (EModel.evaluate o1 m' row).res with
      | ok b => rw [he'] at h1; exact h1.elim
      | error e' =>
        rw [he'] at h1
        refine ⟨fun _ => o1, fun o' ho => ?_⟩
        simp only [sumSegments]
        rw [ho _ (Nat.le_refl _), he', he]
        exact ⟨h1, h2⟩
    | ok out =>
      rw [he] at h1
      cases he' : (EModel.evaluate o1 m' row).res with
      | error b => rw [he'] at h1; exact h1.elim
      | ok out' =>
        rw [he'] at h1
        obtain ⟨f, hf⟩ := ih o fn (i + 1) _ _ (EModel.evaluate (o.at_ (2 * i)) m row).row
          (addScore_label hn (o.at_ (2 * i + 1)) (o.at_ (2 * i + 1)) fn h1 hsm)
        refine ⟨fun j => if j = 2 * i then o1 else if j = 2 * i + 1 then o.at_ (2 * i + 1) else f j, fun o' ho => ?_⟩
        have e1 : o'.at_ (2 * i) = o1 := (ho _ (Nat.le_refl _)).trans (if_pos rfl)
        have e2 : o'.at_ (2 * i + 1) = o.at_ (2 * i + 1) := by
          rw [ho _ (by omega)]; simp only; rw [if_neg (by omega), if_pos trivial]
        have e3 : ∀ j, 2 * (i + 1) ≤ j → o'.at_ j = f j := fun j hj => by
          rw [ho _ (by omega)]; simp only; rw [if_neg (by omega), if_neg (by omega)]
        simp only [sumSegments]
        rw [e1, e2, he', he, h2]
        exact hf o' e3

theorem mining_label (hn : Names σ κ T) {s s' : MiningState F} (h : StateLabel σ κ T s s') {ms ms' : List (EModel F)}
    (hm : List.Forall₂ (LabelledTo σ κ T) ms ms') : LabelledTo σ κ T (.mining s ms) (.mining s' ms') := by
  intro o row
  by_cases hv : s.validated = true
  swap
  · refine ⟨o, ?_⟩
    simp only [EModel.evaluate]
    rw [if_pos hv, if_pos (by rw [h.validated]; exact hv)]; exact ⟨rfl, rfl⟩
  by_cases hc : s.compiled = true
  swap
  · refine ⟨o, ?_⟩
    simp only [EModel.evaluate, h.validated, h.compiled, hv, not_true_eq_false, if_false]
    rw [if_pos hc, if_pos hc]; exact ⟨rfl, rfl⟩
  simp only [EModel.evaluate, h.validated, h.compiled, hv, hc, not_true_eq_false, if_false, h.defaults, h.lt, h.method, h.fn,
    h.count]
  rcases hi : imputeLoop ((o.at_ 0).range s.defaultValues) row with ⟨e | ⟨⟨⟩⟩, row1⟩
  · exact ⟨o, by rw [hi]; exact ⟨rfl, rfl⟩⟩
  rcases hd : handleInput s.head.localTransformations row1 with ⟨e | ⟨⟨⟩⟩, row2⟩
  · exact ⟨o, by rw [hi]; simp only [hd]; exact ⟨rfl, trivial⟩⟩
  have hsum : ∀ fn, ∃ o1, SumRes κ T (sumSegments (o.at_ 1) fn 0 (initScores s) ms row2).res
        (sumSegments o1 fn 0 (initScores s') ms' row2).res ∧
      (sumSegments o1 fn 0 (initScores s') ms' row2).row = (sumSegments (o.at_ 1) fn 0 (initScores s) ms row2).row := by
    intro fn
    obtain ⟨f, hf⟩ := sumSegments_label hn hm (o.at_ 1) fn 0 _ _ row2 (initScores_label h)
    exact ⟨.glue f, hf _ fun j _ => rfl⟩
  have hi2 : ∀ f : Nat → MapOrd, f 0 = o.at_ 0 →
      imputeLoop (((MapOrd.glue f).at_ 0).range s.defaultValues) row = (.ok (), row1) := by
    intro f hf; rw [MapOrd.glue_at, hf, hi]
  cases hmth : s.head.method with
  | average =>
    obtain ⟨o1, h1, h2⟩ := hsum s.head.functionName
    refine ⟨.glue fun j => if j = 1 then o1 else o.at_ j, ?_⟩
    rw [hi2 _ (by simp)]
    simp only [hd, MapOrd.glue_at, if_true]
    refine ⟨?_, h2⟩
    revert h1
    generalize (sumSegments (o.at_ 1) s.head.functionName 0 (initScores s) ms row2).res = x
    generalize (sumSegments o1 s.head.functionName 0 (initScores s') ms' row2).res = y
    intro h1
    cases x <;> cases y <;> first
      | exact h1.elim | exact h1 | exact (averageLoop_label _ _ _ (sumFinish_label _ _ h h1)).labelOut
  | sum =>
    obtain ⟨o1, h1, h2⟩ := hsum s.head.functionName
    refine ⟨.glue fun j => if j = 1 then o1 else o.at_ j, ?_⟩
    rw [hi2 _ (by simp)]
    simp only [hd, MapOrd.glue_at, if_true]
    refine ⟨?_, h2⟩
    revert h1
    generalize (sumSegments (o.at_ 1) s.head.functionName 0 (initScores s) ms row2).res = x
    generalize (sumSegments o1 s.head.functionName 0 (initScores s') ms' row2).res = y
    intro h1
    cases x <;> cases y <;> first
      | exact h1.elim | exact h1 | exact (sumFinish_label _ _ h h1).labelOut
  | modelChain => exact absurd hmth h.notChain
  | selectFirst =>
    cases hm with
    | nil =>
      refine ⟨o, ?_⟩
      rw [hi]; simp only [hd, selectFirst]; exact ⟨rfl, trivial⟩
    | cons hm' _ =>
      obtain ⟨o1, h1, h2⟩ := hm' (o.at_ 1) row2
      refine ⟨.glue fun j => if j = 1 then o1 else o.at_ j, ?_⟩
      rw [hi2 _ (by simp)]
      simp only [hd, MapOrd.glue_at, if_true, selectFirst]
      exact ⟨h1, h2⟩
  | _ => exact ⟨o, by rw [hi]; simp only [hd]; exact ⟨rfl, trivial⟩⟩

/-! ## Documents -/

omit [Arith F] [Lib F] [Trans F] in
theorem buildTypes_label (dd : List DataField) (td : TD F) :
    buildTypes (dd.map (labelData σ T)) td = buildTypes dd td := by
  unfold buildTypes
  rw [List.foldl_map]
  congr 2
  funext m f
  unfold labelData
  split_ifs <;> rfl

theorem targetValues_label (dd : List DataField) (t : String) :
    targetValues (dd.map (labelData σ T)) t = if T t = true then (targetValues dd t).map σ else targetValues dd t := by
  unfold targetValues
  induction dd with
  | nil => simp
  | cons f dd ih =>
    have e : (labelData σ T f).name = f.name := by unfold labelData; split_ifs <;> rfl
    rw [List.map_cons, List.filter_cons, List.filter_cons, e]
    by_cases hf : f.name = t
    · subst hf
      simp only [decide_true, if_true, List.flatMap_cons, ih]
      unfold labelData
      by_cases hT : T f.name = true <;> simp [hT]
    · simp only [decide_eq_true_eq, if_neg hf]
      exact ih

omit [Arith F] [Lib F] [Trans F] in
theorem labelSegs_length : (segs : List (SegDoc F)) → (labelSegs ν σ κ segs).length = segs.length
  | [] => rfl
  | .mk _ _ _ :: segs => by rw [labelSegs]; simp [labelSegs_length segs]

omit [Arith F] [Lib F] [Trans F] in
theorem labelElems_length : (es : List (ModelElem F)) → (labelElems ν σ κ es).length = es.length
  | [] => rfl
  | _ :: es => by rw [labelElems]; simp [labelElems_length es]

omit [Arith F] [Lib F] [Trans F] in
theorem validate_label (dd dd' : List DataField) (h : MiningHead F) (segs segs' : List (SegDoc F))
    (hl : segs'.length = segs.length) :
    (MiningState.init dd' (labelHead σ κ h) segs').validate.1 = (MiningState.init dd h segs).validate.1 ∧
    ((MiningState.init dd h segs).validate.1 = .ok () → h.method ≠ .modelChain → (∀ f ∈ h.outputs, T f.name = false) →
      (∀ t ∈ h.targets, T t.field = false) →
      StateLabel σ κ T { (MiningState.init dd h segs).validate.2.prepare with compiled := true }
        { (MiningState.init dd' (labelHead σ κ h) segs').validate.2.prepare with compiled := true }) := by
  have hmm : h.method ≠ .modelChain → (if h.method = .empty then MultipleModelMethod.sum else h.method) ≠ .modelChain := by
    intro hne
    split_ifs
    · simp
    · exact hne
  rw [validate_eq, validate_eq, show (labelHead σ κ h).method = h.method from rfl]
  generalize (if h.method = .empty then MultipleModelMethod.sum else h.method) = mth at hmm
  have e : (labelHead σ κ h).outputs.all (fun f => decide (f.feature = .empty ∨ f.feature = .probability)) =
      h.outputs.all (fun f => decide (f.feature = .empty ∨ f.feature = .probability)) := by
    rw [show (labelHead σ κ h).outputs = h.outputs.map (labelOutput σ κ) from rfl, List.all_map]; rfl
  simp only [e]
  by_cases c1 : mth = .average ∨ mth = .modelChain ∨ mth = .sum ∨ mth = .selectFirst
  · simp only [if_pos c1]
    by_cases c2 : (h.outputs.all (fun f => decide (f.feature = .empty ∨ f.feature = .probability))) = true
    · simp only [if_pos c2]
      exact ⟨trivial, fun _ h1 h2 h3 => ⟨rfl, rfl, rfl, hmm h1, rfl, rfl, hl, rfl, rfl, rfl, h2, h3⟩⟩
    · simp only [if_neg c2]
      exact ⟨trivial, fun hh => by cases hh⟩
  · simp only [if_neg c1]
    exact ⟨trivial, fun hh => by cases hh⟩

theorem newTree_label (hn : Names σ κ T) (dd : List DataField) (d : TreeDoc F) (td : TD F) (ha : Apart T (.tree d)) :
    Alike (fun m m' => LabelledTo σ κ T (.tree m) (.tree m')) (newTreeModel dd td d)
      (newTreeModel (dd.map (labelData σ T)) td (labelTree ν σ d)) := by
  rw [Apart] at ha
  by_cases hf : d.functionName = .classification
  · have key := newTreeModel_label ν σ (dd := dd) (dd' := dd.map (labelData σ T)) td d (fun _ => buildTypes_label dd _)
      (by rw [targetValues_label, ha, if_pos (by simpa using hf)])
    rw [show labelTree ν σ d = { d with node := labelNode ν σ d.node } by unfold labelTree; rw [if_pos hf]]
    refine key.mono fun m m' hm h => fun o row => ?_
    have hm' : newTreeModel dd td d = (.ok m, (newTreeModel dd td d).2) := by rw [← hm]
    obtain ⟨-, -, -, -, -, e1, e2, -⟩ := newTreeModel_ok hm'
    obtain ⟨o', h1, h2⟩ := treeEvaluate_label h o row
    refine ⟨o', ?_, by rw [EModel.evaluate, EModel.evaluate]; exact h1⟩
    rw [EModel.evaluate, EModel.evaluate]
    rw [e1, e2] at h2
    simp only [hf] at h2
    rcases h2 with ⟨h3, e, h4⟩ | ⟨a, h3, h4⟩
    · rw [h3, h4]; exact rfl
    · rw [h3, h4]; exact report_label hn _ (by rw [ha]; simpa using hf) a
  · have key := newTreeModel_label ν (Equiv.refl _) (dd := dd) (dd' := dd.map (labelData σ T)) td d
      (fun _ => buildTypes_label dd _)
      (by rw [targetValues_label, ha, if_neg (by simpa using hf)]; simp)
    rw [show labelTree ν σ d = { d with node := labelNode ν (Equiv.refl _) d.node } by
      unfold labelTree; rw [if_neg hf]; rfl]
    refine key.mono fun m m' hm h => fun o row => ?_
    have hm' : newTreeModel dd td d = (.ok m, (newTreeModel dd td d).2) := by rw [← hm]
    obtain ⟨hfn, -, -, -, -, e1, e2, -⟩ := newTreeModel_ok hm'
    obtain ⟨o', h1, h2⟩ := treeEvaluate_label h o row
    refine ⟨o', ?_, by rw [EModel.evaluate, EModel.evaluate]; exact h1⟩
    rw [EModel.evaluate, EModel.evaluate]
    rw [e1, e2] at h2
    simp only [labelRes_id, hfn.resolve_left hf] at h2
    rcases h2 with ⟨h3, e, h4⟩ | ⟨a, h3, h4⟩
    · rw [h3, h4]; exact rfl
    · rw [h3, h4]; exact report_number hn _ a

mutual
theorem newModel_label (hn : Names σ κ T) (dd : List DataField) : (e : ModelElem F) → ∀ td : TD F, Apart T e →
    Alike (LabelledTo σ κ T) (newModel dd e td) (newModel (dd.map (labelData σ T)) (labelElem ν σ κ e) td)
  | .tree d, td, ha => by
    rw [labelElem, newModel, newModel]
    have key := newTree_label (ν := ν) hn dd d td ha
    revert key
    generalize newTreeModel dd td d = x
    generalize newTreeModel (dd.map (labelData σ T)) td (labelTree ν σ d) = y
    obtain ⟨x, t⟩ := x
    obtain ⟨y, t'⟩ := y
    rintro ⟨h1, h2⟩
    cases x with
    | error f => cases y with
      | error f' => exact ⟨h1, h2⟩
      | ok b => exact h2.elim
    | ok a => cases y with
      | error f' => exact h2.elim
      | ok b => exact ⟨h1, h2⟩
  | .regression d, td, _ => by
    rw [labelElem, newModel, newModel]
    refine ⟨rfl, fun o row => ⟨o, ?_⟩⟩
    rw [EModel.evaluate, EModel.evaluate]
    exact ⟨regressionEvaluate_label hn d row, rfl⟩
  | .mining h segs, td, ha => by
    rw [labelElem, newModel, newModel]
    rw [Apart] at ha
    obtain ⟨a1, a2, a3, a4⟩ := ha
    have hv := validate_label (σ := σ) (κ := κ) (T := T) dd (dd.map (labelData σ T)) h segs (labelSegs ν σ κ segs)
      (labelSegs_length segs)
    have hlt := validate_lt dd h segs
    have hlt' := validate_lt (dd.map (labelData σ T)) (labelHead σ κ h) (labelSegs ν σ κ segs)
    revert hv hlt hlt'
    generalize (MiningState.init dd h segs).validate = x
    generalize (MiningState.init (dd.map (labelData σ T)) (labelHead σ κ h) (labelSegs ν σ κ segs)).validate = y
    obtain ⟨x, s⟩ := x
    obtain ⟨y, s'⟩ := y
    rintro ⟨h1, h2⟩ hlt hlt'
    simp only at h1
    subst h1
    cases y with
    | error f => exact ⟨rfl, rfl⟩
    | ok a =>
      simp only at hlt hlt' h2 ⊢
      rw [hlt, hlt', show (labelHead σ κ h).localTransformations = h.localTransformations from rfl]
      have key := compileSegments_label hn dd segs (td ++ h.localTransformations) a4
      revert key
      generalize compileSegments dd segs (td ++ h.localTransformations) = x
      generalize compileSegments (dd.map (labelData σ T)) (labelSegs ν σ κ segs) (td ++ h.localTransformations) = y
      obtain ⟨x, ms, t⟩ := x
      obtain ⟨y, ms', t'⟩ := y
      rintro ⟨h3, h4, h5⟩
      simp only at h3 h4 h5
      subst h3; subst h5
      cases y with
      | error f => exact ⟨rfl, rfl⟩
      | ok b => exact ⟨rfl, mining_label hn (h2 trivial a1 a2 a3) h4⟩
  | .other k, td, _ => ⟨rfl, rfl⟩
theorem compileSegments_label (hn : Names σ κ T) (dd : List DataField) : (segs : List (SegDoc F)) →
    ∀ td : TD F, ApartSegs T segs →
    (compileSegments (dd.map (labelData σ T)) (labelSegs ν σ κ segs) td).1 = (compileSegments dd segs td).1 ∧
    List.Forall₂ (LabelledTo σ κ T) (compileSegments dd segs td).2.1
      (compileSegments (dd.map (labelData σ T)) (labelSegs ν σ κ segs) td).2.1 ∧
    (compileSegments (dd.map (labelData σ T)) (labelSegs ν σ κ segs) td).2.2 = (compileSegments dd segs td).2.2
  | [], td, _ => ⟨rfl, .nil, rfl⟩
  | .mk id ps [] :: segs, td, _ => ⟨rfl, .nil, rfl⟩
  | .mk id ps [e] :: segs, td, ha => by
    rw [labelSegs, labelElems, labelElems, compileSegments, compileSegments]
    rw [ApartSegs, ApartElems] at ha
    have key := newModel_label hn dd e td ha.1.1
    revert key
    generalize newModel dd e td = x
    generalize newModel (dd.map (labelData σ T)) (labelElem ν σ κ e) td = y
    obtain ⟨x, t⟩ := x
    obtain ⟨y, t'⟩ := y
    rintro ⟨h2, h1⟩
    cases x with
    | error f => cases y with
      | error f' => simp only at h1; subst h1; exact ⟨rfl, .nil, h2⟩
      | ok b => exact h1.elim
    | ok a => cases y with
      | error f' => exact h1.elim
      | ok b =>
        simp only at h2 ⊢
        subst h2
        obtain ⟨h3, h4, h5⟩ := compileSegments_label hn dd segs t' ha.2
        exact ⟨h3, .cons h1 h4, h5⟩
  | .mk id ps (e1 :: e2 :: es) :: segs, td, _ => by
    rw [labelSegs, labelElems, labelElems, compileSegments, compileSegments]
    · refine ⟨?_, .nil, rfl⟩
      simp only [List.length_cons, labelElems_length]
    all_goals simp
end

/-! ## The way back -/

omit [Arith F] [Lib F] [Trans F] in
mutual
theorem labelNode_back {ν σ ν' σ' : String → String} (hν : ∀ x, ν' (ν x) = x) (hσ : ∀ x, σ' (σ x) = x) : (n : Node F) →
    labelNode ν' σ' (labelNode ν σ n) = n
  | .mk id dc score rc dists nodes pred => by
    rw [labelNode, labelNode, labelNodes_back hν hσ nodes, hν, hν, hσ, List.map_map]
    have : labelDist (F := F) σ' ∘ labelDist σ = _root_.id := by funext d; simp [labelDist, hσ]
    rw [this, List.map_id]
theorem labelNodes_back {ν σ ν' σ' : String → String} (hν : ∀ x, ν' (ν x) = x) (hσ : ∀ x, σ' (σ x) = x) :
    (ns : List (Node F)) → labelNodes ν' σ' (labelNodes ν σ ns) = ns
  | [] => rfl
  | n :: ns => by rw [labelNodes, labelNodes, labelNode_back hν hσ n, labelNodes_back hν hσ ns]
end

omit [Arith F] [Lib F] [Trans F] in
theorem labelTree_back {ν σ ν' σ' : String → String} (hν : ∀ x, ν' (ν x) = x) (hσ : ∀ x, σ' (σ x) = x) (d : TreeDoc F) :
    labelTree ν' σ' (labelTree ν σ d) = d := by
  unfold labelTree
  by_cases hf : d.functionName = .classification
  · simp only [if_pos hf, labelNode_back hν hσ]
  · simp only [if_neg hf, labelNode_back hν (σ := _root_.id) (σ' := _root_.id) fun _ => rfl]

omit [Arith F] [Lib F] [Trans F] in
theorem labelOutputs_back {σ κ σ' κ' : String → String} (hσ : ∀ x, σ' (σ x) = x) (hκ : ∀ x, κ' (κ x) = x)
    (l : List OutputField) : (l.map (labelOutput σ κ)).map (labelOutput σ' κ') = l := by
  rw [List.map_map]
  have : labelOutput σ' κ' ∘ labelOutput σ κ = _root_.id := by funext d; simp [labelOutput, hσ, hκ]
  rw [this, List.map_id]

omit [Arith F] [Lib F] [Trans F] in
mutual
theorem labelElem_back {ν σ κ ν' σ' κ' : String → String} (hν : ∀ x, ν' (ν x) = x) (hσ : ∀ x, σ' (σ x) = x)
    (hκ : ∀ x, κ' (κ x) = x) : (e : ModelElem F) → labelElem ν' σ' κ' (labelElem ν σ κ e) = e
  | .tree d => by rw [labelElem, labelElem, labelTree_back hν hσ]
  | .regression d => by
    rw [labelElem, labelElem]
    unfold labelRegression
    simp only [labelOutputs_back hσ hκ, List.map_map, Function.comp_def, hσ]
    simp
  | .mining h segs => by
    rw [labelElem, labelElem, labelSegs_back hν hσ hκ segs]
    unfold labelHead
    simp only [labelOutputs_back hσ hκ, List.map_map, Function.comp_def, hκ]
    simp
  | .other k => rfl
theorem labelSegs_back {ν σ κ ν' σ' κ' : String → String} (hν : ∀ x, ν' (ν x) = x) (hσ : ∀ x, σ' (σ x) = x)
    (hκ : ∀ x, κ' (κ x) = x) : (segs : List (SegDoc F)) → labelSegs ν' σ' κ' (labelSegs ν σ κ segs) = segs
  | [] => rfl
  | .mk id ps es :: segs => by
    rw [labelSegs, labelSegs, labelElems_back hν hσ hκ es, labelSegs_back hν hσ hκ segs]
theorem labelElems_back {ν σ κ ν' σ' κ' : String → String} (hν : ∀ x, ν' (ν x) = x) (hσ : ∀ x, σ' (σ x) = x)
    (hκ : ∀ x, κ' (κ x) = x) : (es : List (ModelElem F)) → labelElems ν' σ' κ' (labelElems ν σ κ es) = es
  | [] => rfl
  | e :: es => by rw [labelElems, labelElems, labelElem_back hν hσ hκ e, labelElems_back hν hσ hκ es]
end

theorem labelData_back {σ σ' : String → String} (hσ : ∀ x, σ' (σ x) = x) (dd : List DataField) :
    (dd.map (labelData σ T)).map (labelData σ' T) = dd := by
  rw [List.map_map]
  have : labelData σ' T ∘ labelData σ T = _root_.id := by
    funext f
    by_cases h : T f.name = true <;> simp [labelData, h, Function.comp_def, hσ]
  rw [this, List.map_id]

theorem Spec.Names.back (h : Names σ κ T) : Names σ.symm κ.symm T where
  empty := by rw [Equiv.symm_apply_eq, h.empty]
  unnamed := by rw [Equiv.symm_apply_eq, h.unnamed]
  score := by rw [Equiv.symm_apply_eq, h.score]
  target t ht := by rw [Equiv.symm_apply_eq, h.target t ht]
  prob v := by rw [Equiv.symm_apply_eq, h.prob, Equiv.apply_symm_apply]
  notScore := h.notScore

/-- Names of classes are not among the new names of anything else. -/
theorem Spec.Names.keeps (h : Names σ κ T) (k : String) : T (κ k) = T k := by
  by_cases hk : T k = true
  · rw [h.target k hk]
  · by_cases hk' : T (κ k) = true
    · have := κ.injective (h.target _ hk')
      rw [this]
    · rw [Bool.not_eq_true] at hk hk'
      rw [hk, hk']

omit [Arith F] [Lib F] [Trans F] in
mutual
theorem apart_label {ν : String → String} (h : Names σ κ T) : (e : ModelElem F) → Apart T e → Apart T (labelElem ν σ κ e)
  | .tree d, ha => by rw [labelElem]; exact ha
  | .regression d, ha => by
    rw [labelElem, Apart]
    rw [Apart] at ha
    intro o ho
    simp only [labelRegression, List.mem_map] at ho
    obtain ⟨o, ho, rfl⟩ := ho
    exact (h.keeps _).trans (ha o ho)
  | .mining hd segs, ha => by
    rw [labelElem, Apart]
    rw [Apart] at ha
    obtain ⟨a1, a2, a3, a4⟩ := ha
    refine ⟨a1, ?_, ?_, apartSegs_label h segs a4⟩
    · intro o ho
      simp only [labelHead, List.mem_map] at ho
      obtain ⟨o, ho, rfl⟩ := ho
      exact (h.keeps _).trans (a2 o ho)
    · intro t ht
      simp only [labelHead, List.mem_map] at ht
      obtain ⟨t, ht, rfl⟩ := ht
      exact (h.keeps _).trans (a3 t ht)
  | .other k, _ => by rw [labelElem, Apart]; trivial
theorem apartSegs_label {ν : String → String} (h : Names σ κ T) : (segs : List (SegDoc F)) → ApartSegs T segs →
    ApartSegs T (labelSegs ν σ κ segs)
  | [], _ => by rw [labelSegs, ApartSegs]; trivial
  | .mk id ps es :: segs, ha => by
    rw [ApartSegs] at ha
    rw [labelSegs, ApartSegs]
    exact ⟨apartElems_label h es ha.1, apartSegs_label h segs ha.2⟩
theorem apartElems_label {ν : String → String} (h : Names σ κ T) : (es : List (ModelElem F)) → ApartElems T es →
    ApartElems T (labelElems ν σ κ es)
  | [], _ => by rw [labelElems, ApartElems]; trivial
  | e :: es, ha => by
    rw [ApartElems] at ha
    rw [labelElems, ApartElems]
    exact ⟨apart_label h e ha.1, apartElems_label h es ha.2⟩
end

omit [Arith F] [Lib F] [Trans F] in
theorem labelOut_back (h : Names σ κ T) {x y : Out F} (hxy : LabelOut σ.symm κ.symm T x y) : LabelOut σ κ T y x := by
  cases x with
  | none => cases y with
    | none => trivial
    | some m => exact hxy.elim
  | some m => cases y with
    | none => exact hxy.elim
    | some m' =>
      obtain ⟨h1, h2⟩ := hxy
      have h3 : ∀ k : String, m[κ k]? = (m'[k]?).map (labelVal σ) := by
        intro k
        have := h1 (κ k)
        rw [Equiv.symm_apply_apply] at this
        rw [this]
        cases m[κ k]? with
        | none => rfl
        | some v => cases v <;> simp [labelVal]
      refine ⟨h3, fun k s hk => ?_⟩
      have := h3 k
      rw [hk] at this
      rw [← h.keeps]
      exact h2 _ _ this

omit [Arith F] [Lib F] [Trans F] in
theorem labelRes_back (h : Names σ κ T) {x y : Res (Out F)} (hxy : LabelRes σ.symm κ.symm T x y) : LabelRes σ κ T y x := by
  cases x <;> cases y <;> first | exact hxy.elim | exact hxy.symm | exact labelOut_back h hxy

theorem newModel_labelled (hn : Names σ κ T) (dd : List DataField) (e : ModelElem F) (td : TD F) (ha : Apart T e) :
    Alike (Labelled σ κ T) (newModel dd e td) (newModel (dd.map (labelData σ T)) (labelElem ν σ κ e) td) := by
  have h1 := newModel_label (ν := ν) hn dd e td ha
  have h2 := newModel_label (ν := ν.symm) hn.back (dd.map (labelData σ T)) (labelElem ν σ κ e) td (apart_label hn e ha)
  rw [labelData_back σ.symm_apply_apply, labelElem_back ν.symm_apply_apply σ.symm_apply_apply κ.symm_apply_apply] at h2
  revert h1 h2
  generalize newModel dd e td = x
  generalize newModel (dd.map (labelData σ T)) (labelElem ν σ κ e) td = y
  obtain ⟨x, t⟩ := x
  obtain ⟨y, t'⟩ := y
  rintro ⟨h1, h2⟩ ⟨-, h3⟩
  refine ⟨h1, ?_⟩
  cases x with
  | error f => cases y with
    | error f' => exact h2
    | ok b => exact h2.elim
  | ok a => cases y with
    | error f' => exact h2.elim
    | ok b =>
      refine fun row => ⟨fun o => h2 o row, fun o' => ?_⟩
      obtain ⟨o, h4, h5⟩ := h3 o' row
      exact ⟨o, labelRes_back hn h4, h5.symm⟩

/-! ## Nodes only -/

omit [Arith F] [Lib F] [Trans F] in
theorem labelRegression_id (d : RegressionDoc F) : labelRegression _root_.id _root_.id d = d := by
  unfold labelRegression labelOutput
  simp

omit [Arith F] [Lib F] [Trans F] in
theorem labelHead_id (h : MiningHead F) : labelHead _root_.id _root_.id h = h := by
  unfold labelHead labelOutput
  simp

mutual
theorem newModel_nodes (dd : List DataField) : (e : ModelElem F) → ∀ td : TD F,
    Alike Covered (newModel dd e td) (newModel dd (labelElem ν _root_.id _root_.id e) td)
  | .tree d, td => by
    rw [labelElem, newModel, newModel]
    have key := newTreeModel_label ν (Equiv.refl _) (dd := dd) (dd' := dd) td d (fun _ => rfl) (by simp)
    rw [show labelTree ν _root_.id d = { d with node := labelNode ν (Equiv.refl _) d.node } by
      unfold labelTree; split_ifs <;> rfl]
    revert key
    generalize newTreeModel dd td d = x
    generalize newTreeModel dd td { d with node := labelNode ν (Equiv.refl _) d.node } = y
    obtain ⟨x, t⟩ := x
    obtain ⟨y, t'⟩ := y
    rintro ⟨h1, h2⟩
    cases x with
    | error f => cases y with
      | error f' => exact ⟨h1, h2⟩
      | ok b => exact h2.elim
    | ok a => cases y with
      | error f' => exact h2.elim
      | ok b =>
        refine ⟨h1, ?_⟩
        rintro row r row' ⟨o, rfl, rfl⟩
        obtain ⟨o', h3, h4⟩ := treeEvaluate_label h2 o row
        refine ⟨o', ?_, by rw [EModel.evaluate, EModel.evaluate]; exact h3⟩
        rw [EModel.evaluate, EModel.evaluate]
        simp only [labelRes_id] at h4
        rcases h4 with ⟨h5, -⟩ | ⟨a, h5, h6⟩
        · exact h5
        · exact h6.trans h5.symm
  | .regression d, td => by
    rw [labelElem, labelRegression_id, newModel]
    exact ⟨rfl, fun _ _ _ h => h⟩
  | .mining h segs, td => by
    rw [labelElem, labelHead_id, newModel, newModel]
    have hv := validate_eq dd h segs
    have hv' := validate_eq dd h (labelSegs ν _root_.id _root_.id segs)
    rw [hv, hv']
    generalize (if h.method = .empty then MultipleModelMethod.sum else h.method) = mth
    simp only
    by_cases c1 : mth = .average ∨ mth = .modelChain ∨ mth = .sum ∨ mth = .selectFirst
    · simp only [if_pos c1]
      by_cases c2 : (h.outputs.all (fun f => decide (f.feature = .empty ∨ f.feature = .probability))) = true
      · simp only [if_pos c2, MiningState.init]
        have key := compileSegments_nodes dd segs (td ++ h.localTransformations)
        revert key
        generalize compileSegments dd segs (td ++ h.localTransformations) = x
        generalize compileSegments dd (labelSegs ν _root_.id _root_.id segs) (td ++ h.localTransformations) = y
        obtain ⟨x, ms, t⟩ := x
        obtain ⟨y, ms', t'⟩ := y
        rintro ⟨h3, h4, h5⟩
        simp only at h3 h4 h5
        subst h3; subst h5
        cases y with
        | error f => exact ⟨rfl, rfl⟩
        | ok b =>
          refine ⟨rfl, ?_⟩
          exact mining_covered _ (labelSegs_length (σ := Equiv.refl _) (κ := Equiv.refl _) segs) h4
      · simp only [if_neg c2]
        exact ⟨rfl, rfl⟩
    · simp only [if_neg c1]
      exact ⟨rfl, rfl⟩
  | .other k, td => ⟨rfl, rfl⟩
theorem compileSegments_nodes (dd : List DataField) : (segs : List (SegDoc F)) → ∀ td : TD F,
    (compileSegments dd (labelSegs ν _root_.id _root_.id segs) td).1 = (compileSegments dd segs td).1 ∧
    List.Forall₂ Covered (compileSegments dd segs td).2.1
      (compileSegments dd (labelSegs ν _root_.id _root_.id segs) td).2.1 ∧
    (compileSegments dd (labelSegs ν _root_.id _root_.id segs) td).2.2 = (compileSegments dd segs td).2.2
  | [], td => ⟨rfl, .nil, rfl⟩
  | .mk id ps [] :: segs, td => ⟨rfl, .nil, rfl⟩
  | .mk id ps [e] :: segs, td => by
    rw [labelSegs, labelElems, labelElems, compileSegments, compileSegments]
    have key := newModel_nodes dd e td
    revert key
    generalize newModel dd e td = x
    generalize newModel dd (labelElem ν _root_.id _root_.id e) td = y
    obtain ⟨x, t⟩ := x
    obtain ⟨y, t'⟩ := y
    rintro ⟨h2, h1⟩
    cases x with
    | error f => cases y with
      | error f' => simp only at h1; subst h1; exact ⟨rfl, .nil, h2⟩
      | ok b => exact h1.elim
    | ok a => cases y with
      | error f' => exact h1.elim
      | ok b =>
        simp only at h2 ⊢
        subst h2
        obtain ⟨h3, h4, h5⟩ := compileSegments_nodes dd segs t'
        exact ⟨h3, .cons h1 h4, h5⟩
  | .mk id ps (e1 :: e2 :: es) :: segs, td => by
    rw [labelSegs, labelElems, labelElems, compileSegments, compileSegments]
    · refine ⟨?_, .nil, rfl⟩
      have := labelElems_length (ν := ν) (σ := Equiv.refl _) (κ := Equiv.refl _) es
      rw [show (⇑(Equiv.refl String) : String → String) = _root_.id from rfl] at this
      simp only [List.length_cons, this]
    all_goals simp
end

theorem newModel_inter (ν : Equiv.Perm String) (dd : List DataField) (e : ModelElem F) (td : TD F) :
    Alike Inter (newModel dd e td) (newModel dd (labelElem ν _root_.id _root_.id e) td) := by
  have h1 := newModel_nodes (ν := ν) dd e td
  have h2 := newModel_nodes (ν := ν.symm) dd (labelElem ν _root_.id _root_.id e) td
  rw [labelElem_back ν.symm_apply_apply (fun _ => rfl) (fun _ => rfl)] at h2
  revert h1 h2
  generalize newModel dd e td = x
  generalize newModel dd (labelElem ν _root_.id _root_.id e) td = y
  obtain ⟨x, t⟩ := x
  obtain ⟨y, t'⟩ := y
  rintro ⟨h1, h2⟩ ⟨-, h3⟩
  refine ⟨h1, ?_⟩
  cases x with
  | error f => cases y with
    | error f' => exact h2
    | ok b => exact h2.elim
  | ok a => cases y with
    | error f' => exact h2.elim
    | ok b => exact fun row r row' => ⟨h2 row r row', h3 row r row'⟩

end

end Gopmml
