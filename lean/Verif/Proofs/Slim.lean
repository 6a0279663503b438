import Verif.Spec.Slim
import Verif.Proofs.Prune

/-!
# What the answers of a document do not depend on
-/

namespace Gopmml
open Spec

set_option linter.unusedSectionVars false
set_option linter.unusedSimpArgs false

variable {F : Type} [Arith F] [Lib F] [Trans F]

/-! ## Evaluators -/

def TreeModel.slim (m : TreeModel F) : TreeModel F :=
  { m with model := { m.model with miningFields := [], verification := none } }

def slimRegression (d : RegressionDoc F) : RegressionDoc F :=
  { d with tables := d.tables.map plainTable, verification := none }

def MiningState.slim (s : MiningState F) : MiningState F :=
  { s with
    head := { s.head with miningFields := [], verification := none }
    segments := s.segments.map fun _ => .mk "" [] []
    targetField := "" }

mutual
def EModel.slim : EModel F → EModel F
  | .tree m => .tree m.slim
  | .regression d => .regression (slimRegression d)
  | .mining s ms => .mining s.slim (slimModels ms)
def slimModels : List (EModel F) → List (EModel F)
  | [] => []
  | m :: ms => m.slim :: slimModels ms
end

theorem slimModels_map (ms : List (EModel F)) : slimModels ms = ms.map EModel.slim := by
  induction ms with
  | nil => rfl
  | cons m ms ih => rw [slimModels, ih]; rfl

theorem linearLoop_plain (row : Row F) (qs : List (NumericPredictor F)) : ∀ y, linearLoop row y (qs.map plainTerm) = linearLoop row y qs := by
  induction qs with
  | nil => intro y; rfl
  | cons q qs ih =>
    intro y
    simp only [List.map_cons, linearLoop, ih]
    rfl

theorem binaryLoop_plain (n : Normalization) (row : Row F) (qs : List (NumericPredictor F)) :
    ∀ y, binaryLoop n row y (qs.map plainTerm) = binaryLoop n row y qs := by
  induction qs with
  | nil => intro y; rfl
  | cons q qs ih =>
    intro y
    simp only [List.map_cons, binaryLoop, ih]
    rfl

theorem binaryTables_plain (n : Normalization) (outs : List OutputField) (row : Row F) (ts : List (RegressionTable F)) :
    ∀ fp out, binaryTables n outs row fp out (ts.map plainTable) = binaryTables n outs row fp out ts := by
  induction ts with
  | nil => intro fp out; rfl
  | cons t ts ih =>
    intro fp out
    have h : ((plainTable t).predictors ≠ []) ↔ t.predictors ≠ [] := by simp [plainTable]
    have h2 : binaryLoop n row (plainTable t).intercept (plainTable t).predictors = binaryLoop n row t.intercept t.predictors :=
      binaryLoop_plain n row _ _
    simp only [List.map_cons, binaryTables, ih, h, h2]
    rfl

theorem linearAll_plain (row : Row F) (ts : List (RegressionTable F)) : linearAll row (ts.map plainTable) = linearAll row ts := by
  induction ts with
  | nil => rfl
  | cons t ts ih =>
    have h2 : linearLoop row (plainTable t).intercept (plainTable t).predictors = linearLoop row t.intercept t.predictors :=
      linearLoop_plain row _ _
    simp only [List.map_cons, linearAll, ih, h2]

theorem regression_slim (d : RegressionDoc F) (row : Row F) : (slimRegression d).evaluate row = d.evaluate row := by
  have h1 : (slimRegression d).evalRegression row = d.evalRegression row := by
    unfold RegressionDoc.evalRegression slimRegression
    rcases hd : d.tables with _ | ⟨t, _ | ⟨u, ts⟩⟩
    · rfl
    · have h2 : linearLoop row (plainTable t).intercept (plainTable t).predictors = linearLoop row t.intercept t.predictors :=
        linearLoop_plain row _ _
      simp only [List.map_cons, List.map_nil, h2]
    · simp
  have h2 : (slimRegression d).evalBinary row = d.evalBinary row := by
    unfold RegressionDoc.evalBinary slimRegression
    simp only [binaryTables_plain]
  have h3 : (slimRegression d).evalMulticlass row = d.evalMulticlass row := by
    have hc : ∀ g : String → String, ((d.tables.map plainTable).map fun t => g t.targetCategory) =
        d.tables.map fun t => g t.targetCategory := fun g => by
      rw [List.map_map]; rfl
    unfold RegressionDoc.evalMulticlass slimRegression
    simp only [linearAll_plain, hc fun k => (outFieldMap d.outputs)[k]?.getD ""]
  simp only [RegressionDoc.evaluate, h1, h2, h3]
  rfl

theorem tree_slim (o : MapOrd) (m : TreeModel F) (row : Row F) :
    (m.slim.evaluate o row).res = (m.evaluate o row).res ∧ (m.slim.evaluate o row).row = (m.evaluate o row).row ∧
      (m.slim.evaluate o row).model = (m.evaluate o row).model.slim := by
  have hc : m.slim.ctx = m.ctx := rfl
  have ho : ∀ s r, m.slim.output s r = m.output s r := fun _ _ => rfl
  unfold TreeModel.evaluate
  simp only [hc, ho]
  by_cases h1 : m.validated = true
  · by_cases h2 : m.compiled = true
    · have h1' : m.slim.validated = true := h1
      have h2' : m.slim.compiled = true := h2
      simp only [h1, h2, h1', h2', not_true_eq_false, if_false]
      have h3 : m.slim.model.localTransformations = m.model.localTransformations := rfl
      have h4 : m.slim.root = m.root := rfl
      rw [h3, h4]
      cases handleInput m.model.localTransformations row with
      | mk r row' =>
        cases r with
        | error e => exact ⟨rfl, rfl, rfl⟩
        | ok u =>
          dsimp only
          cases evalNode m.ctx o row' m.root with
          | error e => exact ⟨rfl, rfl, rfl⟩
          | ok x => exact ⟨rfl, rfl, rfl⟩
    · have h1' : m.slim.validated = true := h1
      have h2' : ¬ m.slim.compiled = true := h2
      rw [if_neg (not_not_intro h1), if_neg (not_not_intro h1'), if_pos h2, if_pos h2']
      exact ⟨rfl, rfl, rfl⟩
  · have h1' : ¬ m.slim.validated = true := h1
    rw [if_pos h1, if_pos h1']
    exact ⟨rfl, rfl, rfl⟩

/-- The same call, with the evaluator slimmed. -/
def Ev.slimBy {α S T : Type} (f : S → T) (e : Ev F α S) : Ev F α T := ⟨e.res, e.row, f e.model⟩

mutual
theorem evaluate_slim (o : MapOrd) : (m : EModel F) → ∀ row : Row F,
    EModel.evaluate o m.slim row = (EModel.evaluate o m row).slimBy EModel.slim
  | .tree m, row => by
    obtain ⟨h1, h2, h3⟩ := tree_slim o m row
    simp only [EModel.slim, EModel.evaluate, h1, h2, h3, Ev.slimBy]
  | .regression d, row => by
    simp only [EModel.slim, EModel.evaluate, regression_slim, Ev.slimBy]
  | .mining s ms, row => by
    have hs := fun o fn i sm row => sumSegments_slim o fn i sm ms row
    have hch := fun o i l row => chainSegments_slim o i l ms row
    have hf := fun o row => selectFirst_slim o ms row
    have e1 : s.slim.validated = s.validated := rfl
    have e2 : s.slim.compiled = s.compiled := rfl
    have e3 : s.slim.defaultValues = s.defaultValues := rfl
    have e4 : s.slim.head.localTransformations = s.head.localTransformations := rfl
    have e5 : s.slim.head.method = s.head.method := rfl
    have e6 : s.slim.head.functionName = s.head.functionName := rfl
    have e7 : initScores s.slim = initScores s := rfl
    have e8 : ∀ o sm, sumFinish o s.slim sm = sumFinish o s sm := fun _ _ => rfl
    have e9 : s.slim.segments.length = s.segments.length := List.length_map _
    simp only [EModel.slim, EModel.evaluate, e1, e2, e3, e4, e5, e6, e7, e8, e9, hs, hch, hf]
    by_cases h1 : s.validated = true
    · by_cases h2 : s.compiled = true
      · simp only [h1, h2, not_true_eq_false, if_false]
        cases imputeLoop ((o.at_ 0).range s.defaultValues) row with
        | mk r row' =>
          cases r with
          | error e => rfl
          | ok u =>
            dsimp only
            cases handleInput s.head.localTransformations row' with
            | mk r2 row2 =>
              cases r2 with
              | error e => rfl
              | ok u2 =>
                dsimp only
                cases s.head.method <;> rfl
      · simp only [h1, h2, not_true_eq_false, if_false, not_false_eq_true, if_true]
        rfl
    · simp only [h1, not_false_eq_true, if_true]
      rfl
theorem selectFirst_slim (o : MapOrd) : (ms : List (EModel F)) → ∀ row : Row F,
    selectFirst o (slimModels ms) row = (selectFirst o ms row).slimBy slimModels
  | [], row => rfl
  | m :: ms, row => by
    simp only [slimModels, selectFirst, evaluate_slim o m row]
    rfl
theorem chainSegments_slim (o : MapOrd) (i : Nat) (l : Out F) : (ms : List (EModel F)) → ∀ row : Row F,
    chainSegments o i l (slimModels ms) row = (chainSegments o i l ms row).slimBy slimModels
  | [], row => rfl
  | m :: ms, row => by
    have h2 := fun i l row => chainSegments_slim o i l ms row
    have h1 := fun o row => evaluate_slim o m row
    simp only [slimModels, chainSegments, h1, h2]
    cases writeAll ((o.at_ (2 * i)).range (l.getD ∅)) row with
    | mk r row' =>
      cases r with
      | error e => rfl
      | ok u =>
        dsimp only [Ev.slimBy]
        cases (EModel.evaluate (o.at_ (2 * i + 1)) m row').res <;> rfl
theorem sumSegments_slim (o : MapOrd) (fn : MiningFunction) (i : Nat) (sm : GoMap F) : (ms : List (EModel F)) →
    ∀ row : Row F, sumSegments o fn i sm (slimModels ms) row = (sumSegments o fn i sm ms row).slimBy slimModels
  | [], row => rfl
  | m :: ms, row => by
    have h2 := fun i sm row => sumSegments_slim o fn i sm ms row
    have h1 := fun o row => evaluate_slim o m row
    simp only [slimModels, sumSegments, h1, h2]
    dsimp only [Ev.slimBy]
    cases (EModel.evaluate (o.at_ (2 * i)) m row).res <;> rfl
end

theorem callAll_slim (calls : List (MapOrd × Row F)) : ∀ m : EModel F, callAll m.slim calls = callAll m calls := by
  induction calls with
  | nil => intro m; rfl
  | cons c calls ih =>
    intro m
    have h := ih (EModel.evaluate c.1 m c.2).model
    simp only [callAll, evaluate_slim, Ev.slimBy, h]

/-! ## Building them -/

theorem findTarget_plain (fs : List MiningField) : ∀ t,
    findTarget t ((fs.map plainField).map MiningField.withDefaults) = findTarget t (fs.map MiningField.withDefaults) := by
  unfold findTarget
  induction fs with
  | nil => intro t; rfl
  | cons f fs ih => intro t; exact ih _

theorem buildDefaults_plain (fs : List MiningField) : buildDefaults (F := F) (fs.map plainField) = buildDefaults fs := by
  unfold buildDefaults
  rw [List.foldl_map]
  rfl

theorem slimAll_length (es : List (ModelElem F)) : (slimAll es).length = es.length := by
  induction es with
  | nil => rfl
  | cons e es ih => rw [slimAll, List.length_cons, List.length_cons, ih]

theorem slimSegs_length (segs : List (SegDoc F)) : (slimSegs segs).length = segs.length := by
  induction segs with
  | nil => rfl
  | cons s segs ih =>
    cases s
    rw [slimSegs, List.length_cons, List.length_cons, ih]

/-- Built alike: the same error, or evaluators that are alike. -/
def AlikeSlim (x y : Res (EModel F) × TD F) : Prop := x.1.map EModel.slim = y.1.map EModel.slim ∧ x.2 = y.2

theorem tree_validates (m : TreeModel F) (h : m.model.functionName ≠ .classification ∧ m.model.functionName ≠ .regression) :
    m.validate = (fail .unsupportedMiningFunction, m) := by
  unfold TreeModel.validate
  exact if_pos h

theorem tree_validated (m : TreeModel F) (h : ¬ (m.model.functionName ≠ .classification ∧ m.model.functionName ≠ .regression)) :
    m.validate = (.ok (), { m with
      model := { m.model with miningFields := m.model.miningFields.map MiningField.withDefaults }
      validated := true }) := by
  unfold TreeModel.validate
  exact if_neg h

theorem newTree_slim (dd : List DataField) (d : TreeDoc F) (td : TD F) :
    AlikeSlim (newModel dd (slim (.tree d)) td) (newModel dd (.tree d) td) := by
  simp only [slim, newModel, newTreeModel]
  by_cases h : d.functionName ≠ .classification ∧ d.functionName ≠ .regression
  · rw [tree_validates _ h, tree_validates _ h]
    exact ⟨rfl, rfl⟩
  · rw [tree_validated _ h, tree_validated _ h]
    simp only [TreeModel.init, TreeModel.compile, findTarget_plain]
    cases newNode (buildTypes dd (td ++ d.localTransformations)) d.node with
    | error e => exact ⟨rfl, rfl⟩
    | ok r => exact ⟨rfl, rfl⟩

def MiningState.sumByDefault (s : MiningState F) : MiningState F :=
  { s with head := { s.head with method := if s.head.method = .empty then .sum else s.head.method } }

theorem mining_validates (s : MiningState F) :
    (∃ e, ∀ s' : MiningState F, s'.head.method = s.head.method → s'.head.outputs = s.head.outputs →
      s'.validate = (fail e, s'.sumByDefault)) ∨
    ∀ s' : MiningState F, s'.head.method = s.head.method → s'.head.outputs = s.head.outputs →
      s'.validate = (.ok (), { s'.sumByDefault with validated := true }) := by
  by_cases c1 : s.sumByDefault.head.method = .average ∨ s.sumByDefault.head.method = .modelChain ∨
      s.sumByDefault.head.method = .sum ∨ s.sumByDefault.head.method = .selectFirst
  · by_cases c2 : (s.head.outputs.all fun f => decide (f.feature = .empty ∨ f.feature = .probability)) = true
    · refine .inr fun s' h1 h2 => ?_
      unfold MiningState.validate
      unfold MiningState.sumByDefault at c1
      rw [← h1] at c1
      rw [← h2] at c2
      exact (if_pos c1).trans (if_pos c2)
    · refine .inl ⟨.unsupportedOutputFeature, fun s' h1 h2 => ?_⟩
      unfold MiningState.validate
      unfold MiningState.sumByDefault at c1
      rw [← h1] at c1
      rw [← h2] at c2
      exact (if_pos c1).trans (if_neg c2)
  · refine .inl ⟨.unsupportedMultipleModelMethod, fun s' h1 h2 => ?_⟩
    unfold MiningState.validate
    unfold MiningState.sumByDefault at c1
    rw [← h1] at c1
    exact if_neg c1

mutual
theorem newModel_slim (dd : List DataField) : (e : ModelElem F) → ∀ td : TD F,
    AlikeSlim (newModel dd (slim e) td) (newModel dd e td)
  | .tree d, td => newTree_slim dd d td
  | .regression d, td => by
    have h : plainTable ∘ plainTable = plainTable (F := F) := by
      funext t
      simp only [Function.comp, plainTable, List.map_map]
      rfl
    refine ⟨?_, rfl⟩
    simp only [slim, newModel, Except.map, EModel.slim, slimRegression, List.map_map, h]
  | .other k, td => ⟨rfl, rfl⟩
  | .mining h segs, td => by
    have hs := compileSegments_slim dd segs (td ++ h.localTransformations)
    have hl : (slimSegs segs).map (fun _ => SegDoc.mk (F := F) "" [] []) = segs.map fun _ => SegDoc.mk "" [] [] := by
      rw [List.map_const', List.map_const', slimSegs_length]
    simp only [slim, newModel]
    rcases mining_validates (MiningState.init dd h segs) with ⟨e, hv⟩ | hv
    · rw [hv _ rfl rfl, hv (MiningState.init dd { h with miningFields := h.miningFields.map plainField, verification := none } (slimSegs segs)) rfl rfl]
      exact ⟨rfl, rfl⟩
    · rw [hv _ rfl rfl, hv (MiningState.init dd { h with miningFields := h.miningFields.map plainField, verification := none } (slimSegs segs)) rfl rfl]
      · dsimp only [MiningState.sumByDefault, MiningState.init]
        revert hs
        generalize compileSegments dd (slimSegs segs) (td ++ h.localTransformations) = x
        generalize compileSegments dd segs (td ++ h.localTransformations) = y
        rintro ⟨h1, h2, h3⟩
        obtain ⟨x1, x2, x3⟩ := x
        obtain ⟨y1, y2, y3⟩ := y
        dsimp only at h1 h2 h3
        subst h1
        subst h3
        cases x1 with
        | error e => exact ⟨rfl, rfl⟩
        | ok u =>
          refine ⟨?_, rfl⟩
          simp only [Except.map, EModel.slim, MiningState.slim, MiningState.prepare, slimModels_map, h2, hl,
            buildDefaults_plain]
theorem compileSegments_slim (dd : List DataField) : (segs : List (SegDoc F)) → ∀ td : TD F,
    (compileSegments dd (slimSegs segs) td).1 = (compileSegments dd segs td).1 ∧
    (compileSegments dd (slimSegs segs) td).2.1.map EModel.slim = (compileSegments dd segs td).2.1.map EModel.slim ∧
    (compileSegments dd (slimSegs segs) td).2.2 = (compileSegments dd segs td).2.2
  | [], td => ⟨rfl, rfl, rfl⟩
  | .mk id ps [] :: segs, td => ⟨rfl, rfl, rfl⟩
  | .mk id ps [e] :: segs, td => by
    have h1 := newModel_slim dd e td
    have h2 := fun td => compileSegments_slim dd segs td
    simp only [slimSegs, slimAll, compileSegments]
    revert h1
    generalize newModel dd (slim e) td = x
    generalize newModel dd e td = y
    rintro ⟨h1, h3⟩
    obtain ⟨x1, x2⟩ := x
    obtain ⟨y1, y2⟩ := y
    dsimp only at h1 h3
    subst h3
    cases x1 with
    | error e =>
      cases y1 with
      | error e' =>
        simp only [Except.map, Except.error.injEq] at h1
        subst h1
        exact ⟨rfl, rfl, rfl⟩
      | ok m' => simp [Except.map] at h1
    | ok m =>
      cases y1 with
      | error e' => simp [Except.map] at h1
      | ok m' =>
        simp only [Except.map, Except.ok.injEq] at h1
        obtain ⟨k1, k2, k3⟩ := h2 x2
        refine ⟨k1, ?_, k3⟩
        simp only [List.map_cons, h1, k2]
  | .mk id ps (e :: e' :: es) :: segs, td => by
    simp only [slimSegs, slimAll, compileSegments, List.length_cons, slimAll_length]
    exact ⟨trivial, trivial, trivial⟩
end

/-- Documents whose models are alike have the same answers. -/
theorem answers_alike {dd : List DataField} {e e' : ModelElem F} {td : TD F}
    (h : AlikeSlim (newModel dd e td) (newModel dd e' td)) (calls : List (MapOrd × Row F)) :
    (match (newModel dd e td).1 with | .error f => (.error (.build f) : Except Crash _) | .ok m => callAll m calls) =
      match (newModel dd e' td).1 with | .error f => .error (.build f) | .ok m => callAll m calls := by
  revert h
  generalize newModel dd e td = x
  generalize newModel dd e' td = y
  rintro ⟨h1, -⟩
  obtain ⟨x1, x2⟩ := x
  obtain ⟨y1, y2⟩ := y
  dsimp only at h1
  cases x1 with
  | error e =>
    cases y1 with
    | error e' =>
      simp only [Except.map, Except.error.injEq] at h1
      subst h1
      rfl
    | ok m' => simp [Except.map] at h1
  | ok m =>
    cases y1 with
    | error e' => simp [Except.map] at h1
    | ok m' =>
      simp only [Except.map, Except.ok.injEq] at h1
      dsimp only
      rw [← callAll_slim calls m, h1, callAll_slim]

theorem answersOf_slim (p : Pmml F) (calls : List (MapOrd × Row F)) : answersOf (slimDoc p) calls = answersOf p calls := by
  unfold answersOf slimDoc
  cases p.models with
  | nil => rfl
  | cons e es => exact answers_alike (newModel_slim p.dataDictionary e p.transformations) calls

/-! ## What is said -/

namespace Said
open Spec.Said

variable {F : Type} [Arith F] [Lib F]

def slimSeg : SegDoc F → SegDoc F
  | .mk _ _ es => .mk "" [] (slimAll es)

theorem slimSegs_map (segs : List (SegDoc F)) : slimSegs segs = segs.map slimSeg := by
  induction segs with
  | nil => rfl
  | cons s segs ih => cases s; rw [slimSegs, ih]; rfl

theorem slimAll_map (es : List (ModelElem F)) : slimAll es = es.map slim := by
  induction es with
  | nil => rfl
  | cons e es ih => rw [slimAll, ih]; rfl

theorem schema_core {x x' : List Xml} (h : Pruned coreNames coreAttrs x x') :
    (schema x).map plainField = (schema x').map plainField := by
  unfold schema
  rw [List.map_map, List.map_map]
  exact named_gather (g := fun as _ => plainField (miningField as)) (by decide) (.inr fun _ _ => rfl)
    (fun _ _ _ hs => by simp (disch := decide) only [plainField, miningField, prunedAttrs_text hs, prunedAttrs_last hs])
    (fun _ _ _ _ _ => rfl) (inside_pruned (by decide) h)

theorem tree_core (as : Attrs) {x x' : List Xml} (h : Pruned coreNames coreAttrs x x') :
    slim (.tree (tree (F := F) as x)) = slim (.tree (tree as x')) := by
  simp only [slim, tree, deriveds_pruned (inside_pruned (k := "LocalTransformations") (by decide) h), schema_core h,
    root_pruned h]

theorem regressionTable_core (as : Attrs) {x x' : List Xml} (h : Pruned coreNames coreAttrs x x') :
    plainTable (regressionTable (F := F) as x) = plainTable (regressionTable as x') := by
  unfold plainTable regressionTable
  congr 1
  dsimp only
  rw [List.map_map, List.map_map]
  exact named_gather (g := fun as _ => plainTerm (predictor as)) (by decide) (.inr fun _ _ => rfl)
    (fun _ _ _ hs => by simp (disch := decide) only [plainTerm, predictor, prunedAttrs_text hs, prunedAttrs_num hs])
    (fun _ _ _ _ _ => rfl) h

theorem regression_core (as : Attrs) {x x' : List Xml} (h : Pruned coreNames coreAttrs x x') :
    slim (.regression (regression (F := F) as x)) = slim (.regression (regression as x')) := by
  have h1 := named_gather (k := "RegressionTable") (g := fun as ch => plainTable (regressionTable (F := F) as ch)) (by decide)
    (.inl (by decide))
    (fun _ _ _ hs => by simp (disch := decide) only [regressionTable, prunedAttrs_text hs, prunedAttrs_num hs])
    (fun _ as _ _ hr => regressionTable_core as hr) h
  have h2 : ∀ ch : List Xml, ((named "RegressionTable" ch).map fun e => regressionTable (F := F) e.2.1 e.2.2).map plainTable =
      (named "RegressionTable" ch).map fun e => plainTable (regressionTable (F := F) e.2.1 e.2.2) := fun ch => by
    rw [List.map_map]; rfl
  simp only [slim, regression, outputs_pruned h, h2, h1]

theorem mining_core (as : Attrs) {x x' : List Xml} (h : Pruned coreNames coreAttrs x x')
    (hs : (segmentations (F := F) x).map slimSeg = (segmentations x').map slimSeg) :
    slim (.mining (miningHead (F := F) as x) (segmentations x)) = slim (.mining (miningHead as x') (segmentations x')) := by
  have h1 : AttrsPruned coreAttrs (attrsOf "Segmentation" x) (attrsOf "Segmentation" x') := attrsOf_pruned (by decide) h
  have h2 : text "multipleModelMethod" (attrsOf "Segmentation" x) =
      text "multipleModelMethod" (attrsOf "Segmentation" x') := prunedAttrs_text h1 (by decide)
  simp only [slim, miningHead, h2, deriveds_pruned (inside_pruned (k := "LocalTransformations") (by decide) h),
    schema_core h, outputs_pruned h, targets_pruned h, slimSegs_map, hs]

def corePart (F : Type) [Arith F] [Lib F] : (i : Part) → List Xml → List (partType F i)
  | .models => fun ch => (models (F := F) ch).map slim
  | .segmentations => fun ch => (segmentations (F := F) ch).map slimSeg
  | .segments => fun ch => (segments (F := F) ch).map slimSeg

theorem part_core {x x' : List Xml} (h : Pruned coreNames coreAttrs x x') : ∀ i, corePart F i x = corePart F i x' := by
  refine gather (f := corePart F) (fun i => ?_) ?_ h
  · cases i with
    | models =>
      refine gathered_items (f := fun ch => (models (F := F) ch).map slim) (item := fun x => (modelOf x).map slim) rfl
        (fun _ _ => List.map_append) ?_ ?_ ?_
      · intro n as ch hn
        have h1 : n ∉ ["AssociationModel", "BaselineModel", "BayesianNetworkModel", "ClusteringModel",
            "GaussianProcessModel", "GeneralRegressionModel", "NaiveBayesModel", "NearestNeighborModel",
            "NeuralNetwork", "RuleSetModel", "Scorecard", "SequenceModel", "SupportVectorMachineModel",
            "TextModel", "TimeSeriesModel"] := by
          intro h1
          simp only [List.mem_cons, List.not_mem_nil, or_false] at h1
          rcases h1 with rfl | rfl | rfl | rfl | rfl | rfl | rfl | rfl | rfl | rfl | rfl | rfl | rfl | rfl | rfl <;>
            exact hn (by decide)
        simp only [modelOf, said_ne (k := "TreeModel") (by decide) hn, said_ne (k := "RegressionModel") (by decide) hn,
          said_ne (k := "MiningModel") (by decide) hn, h1, if_false, List.map_nil]
      · intro n as ch hn
        simp only [modelOf, leaf_ne (k := "TreeModel") (by decide) hn, leaf_ne (k := "RegressionModel") (by decide) hn,
          leaf_ne (k := "MiningModel") (by decide) hn, if_false]
      · intro n as as' ch hs
        simp (disch := decide) only [modelOf, tree, regression, miningHead, prunedAttrs_text hs, prunedAttrs_num hs]
    | segmentations =>
      refine gathered_items (f := fun ch => (segmentations (F := F) ch).map slimSeg)
        (item := fun x => (segmentation x).map slimSeg) rfl (fun _ _ => List.map_append) ?_ ?_ ?_
      · intro n as ch hn
        simp only [segmentation, said_ne (k := "Segmentation") (by decide) hn, if_false, List.map_nil]
      · intro n as ch hn
        simp only [segmentation, leaf_ne (k := "Segmentation") (by decide) hn, if_false]
      · intro n as as' ch hs
        simp only [segmentation]
    | segments =>
      refine gathered_items (f := fun ch => (segments (F := F) ch).map slimSeg)
        (item := fun x => (segment x).map slimSeg) rfl (fun _ _ => List.map_append) ?_ ?_ ?_
      · intro n as ch hn
        simp only [segment, said_ne (k := "Segment") (by decide) hn, if_false, List.map_nil]
      · intro n as ch hn
        simp only [segment, leaf_ne (k := "Segment") (by decide) hn, if_false]
      · intro n as as' ch hs
        simp (disch := decide) only [segment, prunedAttrs_text hs]
  · intro i n as ch ch' hn _ hr ih
    have h1 : (models (F := F) ch).map slim = (models ch').map slim := ih .models
    have h2 : (segmentations (F := F) ch).map slimSeg = (segmentations ch').map slimSeg := ih .segmentations
    have h3 : (segments (F := F) ch).map slimSeg = (segments ch').map slimSeg := ih .segments
    cases i with
    | models =>
      show (modelOf (F := F) (.elem n as ch) ++ []).map slim = (modelOf (.elem n as ch') ++ []).map slim
      rw [List.append_nil, List.append_nil]
      unfold modelOf
      split
      · simp only [List.map_cons, List.map_nil, tree_core as hr]
      · split
        · simp only [List.map_cons, List.map_nil, regression_core as hr]
        · split
          · simp only [List.map_cons, List.map_nil, mining_core as hr h2]
          · rfl
    | segmentations =>
      show (segmentation (F := F) (.elem n as ch) ++ []).map slimSeg = (segmentation (.elem n as ch') ++ []).map slimSeg
      rw [List.append_nil, List.append_nil]
      unfold segmentation
      split
      · exact h3
      · rfl
    | segments =>
      show (segment (F := F) (.elem n as ch) ++ []).map slimSeg = (segment (.elem n as ch') ++ []).map slimSeg
      rw [List.append_nil, List.append_nil]
      unfold segment
      split
      · simp only [List.map_cons, List.map_nil, slimSeg, slimAll_map, h1]
      · rfl

theorem pmml_core (as as' : Attrs) {x x' : List Xml}
    (h : Pruned coreNames coreAttrs x x') : slimDoc (pmml (F := F) as x) = slimDoc (pmml as' x') := by
  have h1 := named_gather (k := "DataField") (g := fun as ch => dataField as ch) (by decide) (.inl (by decide))
    (fun _ _ _ hs => by simp (disch := decide) only [dataField, prunedAttrs_text hs])
    (fun _ as _ _ hr => by
      unfold dataField
      congr 1
      exact named_gather (g := fun as _ => text "value" as) (by decide) (.inr fun _ _ => rfl)
        (fun _ _ _ hs => prunedAttrs_text hs (by decide)) (fun _ _ _ _ _ => rfl) hr)
    (inside_pruned (k := "DataDictionary") (by decide) h)
  have h2 : (models (F := F) x).map slim = (models x').map slim := part_core h .models
  have h3 : ∀ ms : List (ModelElem F), ms.head?.toList.map slim = (ms.map slim).head?.toList := by
    intro ms
    cases ms <;> rfl
  simp only [slimDoc, pmml, h1, h3, h2, deriveds_pruned (inside_pruned (k := "TransformationDictionary") (by decide) h)]

end Said
end Gopmml
