import Verif.Proofs.Structs

/-!
# Decoders succeed as the struct tags say: models and documents
-/

namespace Gopmml.Structs

open Gopmml

variable {F : Type} [Arith F] [Lib F]

set_option linter.unusedSectionVars false
set_option linter.unusedSimpArgs false

theorem no_attrs {s : GoStruct} (h : s.attrs = []) (as : Attrs) : as.all (attrReads F s) = true := by
  rw [List.all_eq_true]
  intro a _
  rw [attrReads, h]
  rfl

theorem localChild_isOk (n : String) (as : Attrs) (ch : List Xml) (ds : List (DerivedField F)) :
    (localChild n as ch ds).isOk = childReads F sLocalTransformations (.elem n as ch) := by
  rw [childReads_elem]
  on_names n ["DerivedField", "Extension"] do
    simp [localChild, sLocalTransformations, find, isOk_ok, isOk_map, decodeDerived_isOk, harm, *]

theorem local_isOk (as : Attrs) (ch : List Xml) (ds : List (DerivedField F)) :
    (reflectLoop localChild ch ds).isOk = reads F "LocalTransformations" as ch := by
  rw [reads_eq (s := sLocalTransformations) (by simp [find, goStructs]), no_attrs rfl, Bool.true_and,
    reflectLoop_isOk localChild_isOk]

theorem miningFieldAttr_isOk (k v : String) (m : MiningField) :
    (miningFieldAttr F k v m).isOk = attrReads F sMiningField (k, v) := by
  on_names k ["highValue", "importance", "invalidValueTreatment", "lowValue", "missingValueReplacement",
      "missingValueTreatment", "name", "optype", "outliers", "usageType"] do
    simp [miningFieldAttr, attrReads, sMiningField, find, Kind.reads, isOk_map, isOk_ok, *]

theorem miningField_isOk (as : Attrs) (ch : List Xml) (m : MiningField) :
    (attrLoop (miningFieldAttr F) as m).isOk = reads F "MiningField" as ch := by
  rw [reads_eq (s := sMiningField) (by simp [find, goStructs]), ext_regular rfl rfl, Bool.and_true,
    attrLoop_isOk miningFieldAttr_isOk]

theorem schemaChild_isOk (n : String) (as : Attrs) (ch : List Xml) (fs : List MiningField) :
    (schemaChild F n as ch fs).isOk = childReads F sMiningSchema (.elem n as ch) := by
  rw [childReads_elem]
  on_names n ["MiningField", "Extension"] do
    simp [schemaChild, sMiningSchema, find, isOk_ok, isOk_map, miningField_isOk as ch, harm, *]

theorem schema_isOk (as : Attrs) (ch : List Xml) (fs : List MiningField) :
    (reflectLoop (schemaChild F) ch fs).isOk = reads F "MiningSchema" as ch := by
  rw [reads_eq (s := sMiningSchema) (by simp [find, goStructs]), no_attrs rfl, Bool.true_and,
    reflectLoop_isOk schemaChild_isOk]

theorem outputAttr_isOk (k v : String) (f : OutputField) :
    (outputAttr k v f).isOk = attrReads F sOutputField (k, v) := by
  on_names k ["algorithm", "dataType", "displayName", "feature", "isMultiValued", "name", "opType", "rank", "rankBasis",
      "rankOrder", "ruleFeature", "segmentId", "targetField", "value"] do
    simp [outputAttr, attrReads, sOutputField, find, Kind.reads, isOk_map, isOk_ok, *]

theorem outputField_isOk (as : Attrs) (ch : List Xml) (f : OutputField) :
    (attrLoop outputAttr as f).isOk = reads F "OutputField" as ch := by
  rw [reads_eq (s := sOutputField) (by simp [find, goStructs]), ext_regular rfl rfl, Bool.and_true,
    attrLoop_isOk (outputAttr_isOk (F := F))]

theorem outputChild_isOk (n : String) (as : Attrs) (ch : List Xml) (fs : List OutputField) :
    (outputChild n as ch fs).isOk = childReads F sOutput (.elem n as ch) := by
  rw [childReads_elem]
  on_names n ["OutputField", "Extension"] do
    simp [outputChild, sOutput, find, isOk_ok, isOk_map, outputField_isOk (F := F) as ch, harm, *]

theorem output_isOk (as : Attrs) (ch : List Xml) (fs : List OutputField) :
    (reflectLoop outputChild ch fs).isOk = reads F "Output" as ch := by
  rw [reads_eq (s := sOutput) (by simp [find, goStructs]), no_attrs rfl, Bool.true_and,
    reflectLoop_isOk (outputChild_isOk (F := F))]

theorem targetAttr_isOk (k v : String) (t : Target F) : (targetAttr k v t).isOk = attrReads F sTarget (k, v) := by
  on_names k ["castInteger", "field", "max", "min", "optype", "rescaleConstant", "rescaleFactor"] do
    simp [targetAttr, attrReads, sTarget, find, Kind.reads, isOk_map, isOk_ok, *]

theorem target_children (ch : List Xml) : childrenRead F sTarget ch = true := by
  induction ch with
  | nil => exact childrenRead_nil _
  | cons c cs ih =>
    rw [childrenRead_cons, ih]
    cases c with
    | text => rw [childReads_text]; rfl
    | elem n as ch =>
      rw [childReads_elem]
      on_names n ["Extension", "TargetValue"] do simp [find, sTarget, harm, *]

theorem target_isOk (as : Attrs) (ch : List Xml) (t : Target F) :
    (attrLoop targetAttr as t).isOk = reads F "Target" as ch := by
  rw [reads_eq (s := sTarget) (by simp [find, goStructs]), target_children, Bool.and_true, attrLoop_isOk targetAttr_isOk]

theorem targetsChild_isOk (n : String) (as : Attrs) (ch : List Xml) (ts : List (Target F)) :
    (targetsChild n as ch ts).isOk = childReads F sTargets (.elem n as ch) := by
  rw [childReads_elem]
  on_names n ["Target", "Extension"] do
    simp [targetsChild, sTargets, find, isOk_ok, isOk_map, target_isOk as ch, harm, *]

theorem targets_isOk (as : Attrs) (ch : List Xml) (ts : List (Target F)) :
    (reflectLoop targetsChild ch ts).isOk = reads F "Targets" as ch := by
  rw [reads_eq (s := sTargets) (by simp [find, goStructs]), no_attrs rfl, Bool.true_and,
    reflectLoop_isOk targetsChild_isOk]

theorem verificationAttr_isOk (k v : String) (f : VerificationField F) :
    (verificationAttr k v f).isOk = attrReads F sVerificationField (k, v) := by
  on_names k ["field", "column", "precision", "zeroThreshold"] do
    simp [verificationAttr, attrReads, sVerificationField, find, Kind.reads, isOk_map, isOk_ok, *]

theorem verificationField_isOk (as : Attrs) (ch : List Xml) (f : VerificationField F) :
    (attrLoop verificationAttr as f).isOk = reads F "VerificationField" as ch := by
  rw [reads_eq (s := sVerificationField) (by simp [find, goStructs]), ext_regular rfl rfl, Bool.and_true,
    attrLoop_isOk verificationAttr_isOk]

theorem verificationFieldsChild_isOk (n : String) (as : Attrs) (ch : List Xml) (fs : List (VerificationField F)) :
    (verificationFieldsChild n as ch fs).isOk = childReads F sVerificationFields (.elem n as ch) := by
  rw [childReads_elem]
  on_names n ["VerificationField", "Extension"] do
    simp [verificationFieldsChild, sVerificationFields, find, isOk_ok, isOk_map, verificationField_isOk as ch, harm, *]

theorem verificationFields_isOk (as : Attrs) (ch : List Xml) (fs : List (VerificationField F)) :
    (reflectLoop verificationFieldsChild ch fs).isOk = reads F "VerificationFields" as ch := by
  rw [reads_eq (s := sVerificationFields) (by simp [find, goStructs]), no_attrs rfl, Bool.true_and,
    reflectLoop_isOk verificationFieldsChild_isOk]

theorem countAttr_isOk (k v : String) (u : Unit) :
    (countAttr k v u).isOk = attrReads F sModelVerification (k, v) := by
  on_names k ["fieldCount", "recordCount"] do
    simp [countAttr, attrReads, sModelVerification, find, Kind.reads, isOk_map, isOk_ok, *]

theorem verificationChild_isOk (n : String) (as : Attrs) (ch : List Xml) (m : ModelVerification F) :
    (verificationChild n as ch m).isOk = childReads F sModelVerification (.elem n as ch) := by
  rw [childReads_elem]
  on_names n ["InlineTable", "VerificationFields", "Extension"] do
    simp [verificationChild, sModelVerification, find, isOk_ok, isOk_map, decodeTable_isOk as,
      verificationFields_isOk as, harm, *]

theorem decodeVerification_isOk (as : Attrs) (ch : List Xml) (m : Option (ModelVerification F)) :
    (decodeVerification as ch m).isOk = reads F "ModelVerification" as ch := by
  rw [reads_eq (s := sModelVerification) (by simp [find, goStructs]),
    ← attrLoop_isOk (countAttr_isOk (F := F)) as (), decodeVerification]
  cases attrLoop countAttr as () with
  | error e => rfl
  | ok y =>
    dsimp only
    rw [isOk_map, reflectLoop_isOk verificationChild_isOk]
    rfl

/-! ## Models -/

section
variable [Reflect] (hR : ∀ n as ch, Reflect.ok n as ch = reads F n as ch)
include hR

theorem skip_isOk (n : String) (as : Attrs) (ch : List Xml) : (skip n as ch).isOk = reads F n as ch := by
  rw [skip, hR]
  cases reads F n as ch <;> rfl

theorem treeAttr_isOk (k v : String) (d : TreeDoc F) : (treeAttr k v d).isOk = attrReads F sTreeModel (k, v) := by
  on_names k ["algorithmName", "functionName", "isScorable", "missingValuePenalty", "missingValueStrategy", "modelName",
      "noTrueChildStrategy", "splitCharacteristic"] do
    simp [treeAttr, attrReads, sTreeModel, find, Kind.reads, isOk_map, isOk_ok, *]

theorem treeChild_isOk (n : String) (as : Attrs) (ch : List Xml) (d : TreeDoc F) :
    (treeChild n as ch d).isOk = childReads F sTreeModel (.elem n as ch) := by
  rw [childReads_elem]
  on_names n ["LocalTransformations", "MiningSchema", "ModelExplanation", "ModelStats", "ModelVerification", "Node",
      "Output", "Targets", "Extension"] do
    simp [treeChild, sTreeModel, find, isOk_ok, isOk_map, local_isOk as, schema_isOk as, skip_isOk hR,
      decodeVerification_isOk, decodeNode_isOk, output_isOk (F := F) as, targets_isOk as, harm, *]

theorem decodeTree_isOk (as : Attrs) (ch : List Xml) :
    (decodeTree (F := F) as ch).isOk = reads F "TreeModel" as ch := by
  rw [reads_eq (s := sTreeModel) (by simp [find, goStructs]), ← attrLoop_isOk (treeAttr_isOk hR) as TreeDoc.zero,
    decodeTree]
  cases attrLoop treeAttr as (TreeDoc.zero : TreeDoc F) with
  | error e => rfl
  | ok y =>
    dsimp only
    rw [reflectLoop_isOk (treeChild_isOk hR)]
    rfl

theorem predictorAttr_isOk (k v : String) (p : NumericPredictor F) :
    (predictorAttr k v p).isOk = attrReads F sNumericPredictor (k, v) := by
  on_names k ["name", "coefficient", "exponent"] do
    simp [predictorAttr, attrReads, sNumericPredictor, find, Kind.reads, isOk_map, isOk_ok, *]

theorem predictor_isOk (as : Attrs) (ch : List Xml) (p : NumericPredictor F) :
    (attrLoop predictorAttr as p).isOk = reads F "NumericPredictor" as ch := by
  rw [reads_eq (s := sNumericPredictor) (by simp [find, goStructs]), ext_regular rfl rfl, Bool.and_true,
    attrLoop_isOk (predictorAttr_isOk hR)]

theorem regTableAttr_isOk (k v : String) (t : RegressionTable F) :
    (regTableAttr k v t).isOk = attrReads F sRegressionTable (k, v) := by
  on_names k ["intercept", "targetCategory"] do
    simp [regTableAttr, attrReads, sRegressionTable, find, Kind.reads, isOk_map, isOk_ok, *]

theorem regTableChild_isOk (n : String) (as : Attrs) (ch : List Xml) (t : RegressionTable F) :
    (regTableChild n as ch t).isOk = childReads F sRegressionTable (.elem n as ch) := by
  rw [childReads_elem]
  on_names n ["NumericPredictor", "Extension"] do
    simp [regTableChild, sRegressionTable, find, isOk_ok, isOk_map, predictor_isOk hR as ch, harm, *]

theorem decodeRegTable_isOk (as : Attrs) (ch : List Xml) :
    (decodeRegTable (F := F) as ch).isOk = reads F "RegressionTable" as ch := by
  rw [reads_eq (s := sRegressionTable) (by simp [find, goStructs]),
    ← attrLoop_isOk (regTableAttr_isOk hR) as ⟨Arith.zero, "", []⟩, decodeRegTable]
  cases attrLoop regTableAttr as (⟨Arith.zero, "", []⟩ : RegressionTable F) with
  | error e => rfl
  | ok y =>
    dsimp only
    rw [reflectLoop_isOk (regTableChild_isOk hR)]
    rfl

theorem regressionAttr_isOk (k v : String) (d : RegressionDoc F) :
    (regressionAttr k v d).isOk = attrReads F sRegressionModel (k, v) := by
  on_names k ["algorithmName", "functionName", "isScorable", "modelName", "normalizationMethod"] do
    simp [regressionAttr, attrReads, sRegressionModel, find, Kind.reads, isOk_map, isOk_ok, *]

theorem regressionChild_isOk (n : String) (as : Attrs) (ch : List Xml) (d : RegressionDoc F) :
    (regressionChild n as ch d).isOk = childReads F sRegressionModel (.elem n as ch) := by
  rw [childReads_elem]
  on_names n ["LocalTransformations", "MiningSchema", "RegressionTable", "ModelExplanation", "ModelStats",
      "ModelVerification", "Output", "Targets", "Extension"] do
    simp [regressionChild, sRegressionModel, find, isOk_ok, isOk_map, local_isOk as, schema_isOk as, skip_isOk hR,
      decodeVerification_isOk, decodeRegTable_isOk hR, output_isOk (F := F) as, targets_isOk as, harm, *]

theorem decodeRegression_isOk (as : Attrs) (ch : List Xml) :
    (decodeRegression (F := F) as ch).isOk = reads F "RegressionModel" as ch := by
  rw [reads_eq (s := sRegressionModel) (by simp [find, goStructs]),
    ← attrLoop_isOk (regressionAttr_isOk hR) as ⟨.other "", .empty, [], [], none⟩, decodeRegression]
  cases attrLoop regressionAttr as (⟨.other "", .empty, [], [], none⟩ : RegressionDoc F) with
  | error e => rfl
  | ok y =>
    dsimp only
    rw [reflectLoop_isOk (regressionChild_isOk hR)]
    rfl

def leafModels : List String := "TreeModel" :: "RegressionModel" :: otherModels

theorem leafModel_reads (n : String) (as : Attrs) (ch : List Xml) :
    (leafModel (F := F) n as ch).map Except.isOk = if n ∈ leafModels then some (reads F n as ch) else none := by
  unfold leafModel
  by_cases h1 : n = "TreeModel"
  · subst h1
    rw [if_pos rfl, Option.map_some, isOk_map, decodeTree_isOk hR, if_pos (by simp [leafModels])]
  rw [if_neg h1]
  by_cases h2 : n = "RegressionModel"
  · subst h2
    rw [if_pos rfl, Option.map_some, isOk_map, decodeRegression_isOk hR, if_pos (by simp [leafModels])]
  rw [if_neg h2]
  by_cases h3 : n ∈ otherModels
  · rw [if_pos h3, Option.map_some, isOk_map, skip_isOk hR, if_pos (by simp [leafModels, h3])]
  · rw [if_neg h3, if_neg (by simp [leafModels, h1, h2, h3])]
    rfl

theorem miningAttr_isOk (k v : String) (h : MiningHead F) :
    (miningAttr k v h).isOk = attrReads F sMiningModel (k, v) := by
  on_names k ["algorithmName", "functionName", "isScorable", "modelName"] do
    simp [miningAttr, attrReads, sMiningModel, find, Kind.reads, isOk_map, isOk_ok, *]

theorem miningChild_isOk (n : String) (hn : n ≠ "Segmentation") (as : Attrs) (ch : List Xml) (h : MiningHead F) :
    (miningChild n as ch h).isOk = childReads F sMiningModel (.elem n as ch) := by
  rw [childReads_elem]
  on_names n ["ModelVerification", "MiningSchema", "LocalTransformations", "Output", "Targets", "Extension"] do
    simp [miningChild, sMiningModel, find, isOk_ok, isOk_map, local_isOk as, schema_isOk as,
      decodeVerification_isOk, output_isOk (F := F) as, targets_isOk as, harm, *]

omit hR in
theorem segmentation_attrs (as : Attrs) : as.all (attrReads F sSegmentation) = true := by
  rw [List.all_eq_true]
  rintro ⟨k, v⟩ _
  on_names k ["multipleModelMethod"] do simp [attrReads, sSegmentation, find, Kind.reads, *]

omit hR in
theorem segment_attrs (as : Attrs) : as.all (attrReads F sSegment) = true := by
  rw [List.all_eq_true]
  rintro ⟨k, v⟩ _
  on_names k ["id"] do simp [attrReads, sSegment, find, Kind.reads, *]

omit hR in
theorem segment_regular : regular sSegment = true := by decide +kernel

omit hR in
theorem segment_names (n : String) : n ∈ names sSegment ↔ n ∈ preds ∨ n = "MiningModel" ∨ n ∈ leafModels := by
  simp only [names, sSegment, preds, leafModels, otherModels, List.map_cons, List.map_nil, List.mem_cons,
    List.not_mem_nil, or_false]
  tauto

omit hR in
theorem childReads_segmentation (as : Attrs) (ch : List Xml) :
    childReads F sMiningModel (.elem "Segmentation" as ch) = childrenRead F sSegmentation ch := by
  rw [childReads_regular (by decide +kernel), if_pos (by simp [names, sMiningModel]),
    reads_eq (s := sSegmentation) (by simp [find, goStructs]), segmentation_attrs, Bool.true_and]

omit hR in
theorem childReads_segment (as : Attrs) (ch : List Xml) :
    childReads F sSegmentation (.elem "Segment" as ch) = childrenRead F sSegment ch := by
  rw [childReads_regular (by decide +kernel), if_pos (by simp [names, sSegmentation]),
    reads_eq (s := sSegment) (by simp [find, goStructs]), segment_attrs, Bool.true_and]

omit hR in
theorem childReads_not_segment (n : String) (hn : n ≠ "Segment") (as : Attrs) (ch : List Xml) :
    childReads F sSegmentation (.elem n as ch) = true := by
  rw [childReads_elem]
  on_names n ["Extension"] do simp [sSegmentation, find, harm, *]

mutual
theorem miningItem_isOk : (x : Xml) → (y : MiningHead F × List (SegDoc F)) →
    (miningItem x y).isOk = childReads F sMiningModel x
  | .text _ _, y => by rw [miningItem, childReads_text]; rfl
  | .elem n as ch, (h, segs) => by
    rw [miningItem]
    by_cases h1 : n = "Segmentation"
    · have := segmentationBody_isOk ch segs
      rw [if_pos h1, h1, childReads_segmentation, ← this]
      cases segmentationBody ch segs <;> rfl
    · rw [if_neg h1, ← miningChild_isOk hR n h1 as ch h]
      cases miningChild n as ch h <;> rfl
theorem miningBody_isOk : (xs : List Xml) → (y : MiningHead F × List (SegDoc F)) →
    (miningBody xs y).isOk = childrenRead F sMiningModel xs
  | [], y => by rw [miningBody, childrenRead_nil]; rfl
  | x :: xs, y => by
    rw [miningBody, childrenRead_cons, ← miningItem_isOk x y]
    cases miningItem x y with
    | error e => rfl
    | ok y' => dsimp only; rw [miningBody_isOk xs y']; rfl
theorem segmentationItem_isOk : (x : Xml) → (y : List (SegDoc F)) →
    (segmentationItem x y).isOk = childReads F sSegmentation x
  | .text _ _, y => by rw [segmentationItem, childReads_text]; rfl
  | .elem n as ch, segs => by
    rw [segmentationItem]
    by_cases h1 : n = "Segment"
    · have := (consumed_isOk "Segment" _).trans (segmentBody_done ch ([], []))
      rw [if_pos h1, h1, childReads_segment, ← this]
      cases consumed "Segment" (segmentBody ch (([], []) : List (Pred F) × List (ModelElem F))) <;> rfl
    · rw [if_neg h1, childReads_not_segment n h1]
      rfl
theorem segmentationBody_isOk : (xs : List Xml) → (y : List (SegDoc F)) →
    (segmentationBody xs y).isOk = childrenRead F sSegmentation xs
  | [], y => by rw [segmentationBody, childrenRead_nil]; rfl
  | x :: xs, y => by
    rw [segmentationBody, childrenRead_cons, ← segmentationItem_isOk x y]
    cases segmentationItem x y with
    | error e => rfl
    | ok y' => dsimp only; rw [segmentationBody_isOk xs y']; rfl
theorem segmentItem_done : (x : Xml) → (y : List (Pred F) × List (ModelElem F)) →
    done (segmentItem x y) = childReads F sSegment x
  | .text _ _, y => by rw [segmentItem, childReads_text]; rfl
  | .elem n as ch, (ps, ms) => by
    rw [segmentItem, childReads_regular segment_regular]
    have hl := decodePred_reads (F := F) n as ch
    cases hp : decodePred (F := F) n as ch with
    | some r =>
      rw [hp, Option.map_some] at hl
      have hn : n ∈ preds := by
        refine Decidable.byContradiction fun hn => ?_; rw [if_neg hn] at hl; cases hl
      have hm : n ∈ names sSegment := (segment_names n).2 (.inl hn)
      rw [if_pos hn] at hl
      rw [if_pos hm, ← Option.some_inj.1 hl]
      cases r <;> rfl
    | none =>
      rw [hp, Option.map_none] at hl
      have hn : n ∉ preds := by
        intro hn; rw [if_pos hn] at hl; cases hl
      dsimp only
      by_cases h1 : n = "MiningModel"
      · rw [if_pos h1, h1, if_pos ((segment_names _).2 (.inr (.inl rfl))),
          reads_eq (s := sMiningModel) (by simp [find, goStructs]),
          ← attrLoop_isOk (miningAttr_isOk hR) as MiningHead.zero]
        cases attrLoop miningAttr as (MiningHead.zero : MiningHead F) with
        | error e => rfl
        | ok h =>
          have := miningBody_isOk ch (h, [])
          rw [← this]
          dsimp only
          cases miningBody ch (h, []) <;> rfl
      · rw [if_neg h1]
        have hl := leafModel_reads hR n as ch
        cases hm : leafModel (F := F) n as ch with
        | some r =>
          rw [hm, Option.map_some] at hl
          have hn' : n ∈ leafModels := by
            refine Decidable.byContradiction fun hn => ?_; rw [if_neg hn] at hl; cases hl
          rw [if_pos hn'] at hl
          have hm : n ∈ names sSegment := (segment_names n).2 (.inr (.inr hn'))
          rw [if_pos hm, ← Option.some_inj.1 hl]
          cases r <;> rfl
        | none =>
          rw [hm, Option.map_none] at hl
          have hn' : n ∉ leafModels := by
            intro hn; rw [if_pos hn] at hl; cases hl
          have hm : n ∉ names sSegment := by
            rw [segment_names]; simp [hn, h1, hn']
          rw [if_neg hm]
          dsimp only
          cases segmentBody ch (ps, ms) <;> rfl
theorem segmentBody_done : (xs : List Xml) → (y : List (Pred F) × List (ModelElem F)) →
    done (segmentBody xs y) = childrenRead F sSegment xs
  | [], y => by rw [segmentBody, childrenRead_nil]; rfl
  | x :: xs, y => by
    rw [segmentBody, childrenRead_cons, ← segmentItem_done x y]
    rcases segmentItem x y with e | ⟨y', _ | _⟩
    · rfl
    · rfl
    · dsimp only
      rw [segmentBody_done xs y']
      rfl
end

theorem decodeMining_isOk (as : Attrs) (ch : List Xml) :
    (decodeMining (F := F) as ch).isOk = reads F "MiningModel" as ch := by
  rw [reads_eq (s := sMiningModel) (by simp [find, goStructs]),
    ← attrLoop_isOk (miningAttr_isOk hR) as MiningHead.zero, decodeMining]
  cases attrLoop miningAttr as (MiningHead.zero : MiningHead F) with
  | error e => rfl
  | ok h =>
    dsimp only
    rw [isOk_map, miningBody_isOk hR]
    rfl

theorem decodeModel_reads (n : String) (as : Attrs) (ch : List Xml) :
    (decodeModel (F := F) n as ch).map Except.isOk =
      if n ∈ "MiningModel" :: leafModels then some (reads F n as ch) else none := by
  unfold decodeModel
  by_cases h : n = "MiningModel"
  · subst h
    rw [if_pos rfl, Option.map_some, decodeMining_isOk hR, if_pos (by simp)]
  · rw [if_neg h, leafModel_reads hR]
    simp [h]

/-! ## The document -/

theorem intervalAttr_isOk (k v : String) (u : Unit) :
    (intervalAttr F k v u).isOk = attrReads F sInterval (k, v) := by
  on_names k ["closure", "leftMargin", "rightMargin"] do
    simp [intervalAttr, attrReads, sInterval, find, Kind.reads, isOk_map, isOk_ok, *]

theorem interval_isOk (as : Attrs) (ch : List Xml) (u : Unit) :
    (attrLoop (intervalAttr F) as u).isOk = reads F "Interval" as ch := by
  rw [reads_eq (s := sInterval) (by simp [find, goStructs]), ext_regular rfl rfl, Bool.and_true,
    attrLoop_isOk (intervalAttr_isOk hR)]

theorem dataFieldAttr_isOk (k v : String) (d : DataField) :
    (dataFieldAttr k v d).isOk = attrReads F sDataField (k, v) := by
  on_names k ["dataType", "displayName", "isCyclic", "name", "optype", "taxonomy"] do
    simp [dataFieldAttr, attrReads, sDataField, find, Kind.reads, isOk_map, isOk_ok, *]

theorem dataFieldChild_isOk (n : String) (as : Attrs) (ch : List Xml) (d : DataField) :
    (dataFieldChild F n as ch d).isOk = childReads F sDataField (.elem n as ch) := by
  rw [childReads_elem]
  on_names n ["Interval", "Value", "Extension"] do
    simp [dataFieldChild, sDataField, find, isOk_ok, isOk_map, interval_isOk hR as ch, harm, *]

theorem decodeDataField_isOk (as : Attrs) (ch : List Xml) :
    (decodeDataField F as ch).isOk = reads F "DataField" as ch := by
  rw [reads_eq (s := sDataField) (by simp [find, goStructs]),
    ← attrLoop_isOk (dataFieldAttr_isOk hR) as ⟨"", .other "", []⟩, decodeDataField]
  cases attrLoop dataFieldAttr as (⟨"", .other "", []⟩ : DataField) with
  | error e => rfl
  | ok h =>
    dsimp only
    rw [reflectLoop_isOk (dataFieldChild_isOk hR)]
    rfl

theorem dictChild_isOk (n : String) (as : Attrs) (ch : List Xml) (dd : List DataField) :
    (dictChild F n as ch dd).isOk = childReads F sDataDictionary (.elem n as ch) := by
  rw [childReads_elem]
  on_names n ["DataField", "Taxonomy", "Extension"] do
    simp [dictChild, sDataDictionary, find, isOk_ok, isOk_map, decodeDataField_isOk hR, skip_isOk hR, harm, *]

theorem dictAttr_isOk (k v : String) (u : Unit) :
    (dictAttr k v u).isOk = attrReads F sDataDictionary (k, v) := by
  on_names k ["numberOfFields"] do
    simp [dictAttr, attrReads, sDataDictionary, find, Kind.reads, isOk_map, isOk_ok, *]

theorem decodeDict_isOk (as : Attrs) (ch : List Xml) (dd : List DataField) :
    (decodeDict F as ch dd).isOk = reads F "DataDictionary" as ch := by
  rw [reads_eq (s := sDataDictionary) (by simp [find, goStructs]), ← attrLoop_isOk (dictAttr_isOk hR) as (), decodeDict]
  cases attrLoop dictAttr as () with
  | error e => rfl
  | ok h =>
    dsimp only
    rw [reflectLoop_isOk (dictChild_isOk hR)]
    rfl

omit hR in
theorem function_attrs (as : Attrs) : as.all (attrReads F sDefineFunction) = true := by
  rw [List.all_eq_true]
  rintro ⟨k, v⟩ _
  on_names k ["dataType", "name", "optype"] do simp [attrReads, sDefineFunction, find, Kind.reads, *]

theorem transChild_isOk (n : String) (as : Attrs) (ch : List Xml) (td : List (DerivedField F)) :
    (transChild n as ch td).isOk = childReads F sTransformationDictionary (.elem n as ch) := by
  have hf : reads F "DefineFunction" as ch = childrenRead F sDefineFunction ch := by
    rw [reads_eq (s := sDefineFunction) (by simp [find, goStructs]), function_attrs, Bool.true_and]
  rw [childReads_elem]
  on_names n ["DefineFunction", "DerivedField", "Extension"] do
    simp [transChild, localChild, sTransformationDictionary, find, isOk_ok, isOk_map, consumed_isOk,
      bodyLoop_done (functionHandle_isOk (F := F)), decodeDerived_isOk, harm, *]

theorem trans_isOk (as : Attrs) (ch : List Xml) (td : List (DerivedField F)) :
    (reflectLoop transChild ch td).isOk = reads F "TransformationDictionary" as ch := by
  rw [reads_eq (s := sTransformationDictionary) (by simp [find, goStructs]), no_attrs rfl, Bool.true_and,
    reflectLoop_isOk (transChild_isOk hR)]

omit hR in
theorem pmml_names (n : String) : n ∈ names sPMML ↔
    (n = "Header" ∨ n = "MiningBuildTask") ∨ n = "DataDictionary" ∨ n = "TransformationDictionary" ∨
      n ∈ "MiningModel" :: leafModels := by
  simp only [names, sPMML, leafModels, otherModels, List.map_cons, List.map_nil, List.mem_cons,
    List.not_mem_nil, or_false]
  tauto

theorem pmmlHandle_isOk (n : String) (as : Attrs) (ch : List Xml) (p : Pmml F) :
    (pmmlHandle n as ch p).elim false Except.isOk = childReads F sPMML (.elem n as ch) := by
  rw [childReads_regular (by decide +kernel), pmmlHandle]
  by_cases h : n = "Header" ∨ n = "MiningBuildTask"
  · rw [if_pos h]
    rcases h with h | h <;> subst h <;> simp [names, sPMML, harm, isOk_ok]
  rw [if_neg h]
  by_cases h1 : n = "DataDictionary"
  · subst h1
    rw [if_pos rfl, Option.elim_some, isOk_map, decodeDict_isOk hR, if_pos (by simp [names, sPMML])]
  rw [if_neg h1]
  by_cases h2 : n = "TransformationDictionary"
  · subst h2
    rw [if_pos rfl, Option.elim_some, isOk_map, trans_isOk hR as, if_pos (by simp [names, sPMML])]
  rw [if_neg h2, elim_of_map (decodeModel_reads hR n as ch)]
  have : (n ∈ names sPMML) ↔ n ∈ "MiningModel" :: leafModels := by
    rw [pmml_names]; simp [h, h1, h2]
  simp only [this]
  by_cases hc : n ∈ "MiningModel" :: leafModels <;> simp [hc, sPMML]

omit hR in
theorem pmml_attrs (as : Attrs) : as.all (attrReads F sPMML) = true := by
  rw [List.all_eq_true]
  rintro ⟨k, v⟩ _
  on_names k ["version"] do simp [attrReads, sPMML, find, Kind.reads, *]

theorem decodePmml_isOk (as : Attrs) (ch : List Xml) : (decodePmml (F := F) as ch).isOk = reads F "PMML" as ch := by
  rw [reads_eq (s := sPMML) (by simp [find, goStructs]), pmml_attrs, Bool.true_and, decodePmml, consumed_isOk,
    bodyLoop_done (pmmlHandle_isOk hR)]

end

/-! ## `ChildParent` has a decoder of its own -/

theorem extension_isOk (as : Attrs) (ch : List Xml) : (decodeExtension as ch).isOk = true := by
  rw [decodeExtension, attrLoop_isOk (P := fun _ => true), all_true]
  intro k v s
  unfold extensionAttr
  split_ifs <;> rfl

theorem childParentAttr_isOk (k v : String) (c : ChildParent F) :
    (childParentAttr k v c).isOk = attrReads F sChildParent (k, v) := by
  by_cases hv : v = "yes"
  · subst hv
    on_names k ["childField", "isRecursive", "parentField", "parentLevelField"] do
      simp [childParentAttr, attrReads, sChildParent, find, Kind.reads, isOk_map, isOk_ok, *]
  by_cases hn : v = "no"
  · subst hn
    on_names k ["childField", "isRecursive", "parentField", "parentLevelField"] do
      simp [childParentAttr, attrReads, sChildParent, find, Kind.reads, isOk_map, isOk_ok, *]
  have he : (Except.error (.syntax v) : Dec (ChildParent F)).isOk = false := rfl
  on_names k ["childField", "isRecursive", "parentField", "parentLevelField"] do
    simp [childParentAttr, attrReads, sChildParent, find, Kind.reads, isOk_map, isOk_ok, *]

theorem childParentHandle_isOk (n : String) (as : Attrs) (ch : List Xml) (c : ChildParent F) :
    (childParentHandle n as ch c).elim false Except.isOk = childReads F sChildParent (.elem n as ch) := by
  rw [childReads_elem]
  on_names n ["Extension", "FieldColumnPair", "InlineTable", "TableLocator"] do
    simp [childParentHandle, sChildParent, find, isOk_ok, isOk_map, extension_isOk, pair_isOk, decodeTable_isOk as,
      harm, *]

theorem decodeChildParent_isOk (as : Attrs) (ch : List Xml) :
    (decodeChildParent (F := F) as ch).isOk = reads F "ChildParent" as ch := by
  rw [reads_eq (s := sChildParent) (by simp [find, goStructs]),
    ← attrLoop_isOk childParentAttr_isOk as ChildParent.zero, decodeChildParent]
  cases attrLoop childParentAttr as (ChildParent.zero : ChildParent F) with
  | error e => rfl
  | ok h =>
    dsimp only
    rw [consumed_isOk, bodyLoop_done childParentHandle_isOk]
    rfl

end Gopmml.Structs
