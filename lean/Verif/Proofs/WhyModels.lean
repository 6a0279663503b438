import Verif.Proofs.WhyParts

/-!
# The error of a decoder is the first in the document: models and documents
-/

namespace Gopmml.Why

open Gopmml Structs Spec.Why

variable {F : Type} [Arith F] [Lib F]

set_option linter.unusedSectionVars false
set_option linter.unusedSimpArgs false

theorem localChild_err (n : String) (as : Attrs) (ch : List Xml) (ds : List (DerivedField F)) :
    err (localChild n as ch ds) = childWhy F "LocalTransformations" sLocalTransformations (.elem n as ch) := by
  rw [childWhy_elem]
  on_names n ["DerivedField", "Extension"] do
    simp [localChild, sLocalTransformations, find, err_ok, err_map, decodeDerived_err, harmW, *]

theorem local_err (as : Attrs) (ch : List Xml) (ds : List (DerivedField F)) : err (reflectLoop localChild ch ds) = why F "LocalTransformations" as ch := by
  rw [why_eq (s := sLocalTransformations) (by simp [find, goStructs]) (by decide +kernel), noneWhy (no_attrs rfl as), Option.none_or, reflectLoop_err localChild_err]

theorem miningFieldAttr_err (k v : String) (m : MiningField) : err (miningFieldAttr F k v m) = attrWhy F sMiningField (k, v) :=
  err_attr (miningFieldAttr_isOk k v m) (by attr_err miningFieldAttr)

theorem miningField_err (as : Attrs) (ch : List Xml) (m : MiningField) : err (attrLoop (miningFieldAttr F) as m) = why F "MiningField" as ch := by
  rw [why_eq (s := sMiningField) (by simp [find, goStructs]) (by decide +kernel), childrenWhy_reads _ _ ch (ext_regular rfl rfl ch), Option.or_none, attrLoop_err miningFieldAttr_err]

theorem schemaChild_err (n : String) (as : Attrs) (ch : List Xml) (fs : List MiningField) :
    err (schemaChild F n as ch fs) = childWhy F "MiningSchema" sMiningSchema (.elem n as ch) := by
  rw [childWhy_elem]
  on_names n ["MiningField", "Extension"] do
    simp [schemaChild, sMiningSchema, find, err_ok, err_map, miningField_err as ch, harmW, *]

theorem schema_err (as : Attrs) (ch : List Xml) (fs : List MiningField) : err (reflectLoop (schemaChild F) ch fs) = why F "MiningSchema" as ch := by
  rw [why_eq (s := sMiningSchema) (by simp [find, goStructs]) (by decide +kernel), noneWhy (no_attrs rfl as), Option.none_or, reflectLoop_err schemaChild_err]

theorem outputAttr_err (k v : String) (f : OutputField) : err (outputAttr k v f) = attrWhy F sOutputField (k, v) :=
  err_attr (outputAttr_isOk k v f) (by attr_err outputAttr)

theorem outputField_err (as : Attrs) (ch : List Xml) (f : OutputField) : err (attrLoop outputAttr as f) = why F "OutputField" as ch := by
  rw [why_eq (s := sOutputField) (by simp [find, goStructs]) (by decide +kernel), childrenWhy_reads _ _ ch (ext_regular rfl rfl ch), Option.or_none, attrLoop_err (outputAttr_err (F := F))]

theorem outputChild_err (n : String) (as : Attrs) (ch : List Xml) (fs : List OutputField) :
    err (outputChild n as ch fs) = childWhy F "Output" sOutput (.elem n as ch) := by
  rw [childWhy_elem]
  on_names n ["OutputField", "Extension"] do
    simp [outputChild, sOutput, find, err_ok, err_map, outputField_err (F := F) as ch, harmW, *]

theorem output_err (as : Attrs) (ch : List Xml) (fs : List OutputField) : err (reflectLoop outputChild ch fs) = why F "Output" as ch := by
  rw [why_eq (s := sOutput) (by simp [find, goStructs]) (by decide +kernel), noneWhy (no_attrs rfl as), Option.none_or, reflectLoop_err (outputChild_err (F := F))]

theorem targetAttr_err (k v : String) (t : Target F) : err (targetAttr k v t) = attrWhy F sTarget (k, v) :=
  err_attr (targetAttr_isOk k v t) (by attr_err targetAttr)

theorem target_err (as : Attrs) (ch : List Xml) (t : Target F) : err (attrLoop targetAttr as t) = why F "Target" as ch := by
  rw [why_eq (s := sTarget) (by simp [find, goStructs]) (by decide +kernel), childrenWhy_reads _ _ ch (target_children ch), Option.or_none, attrLoop_err targetAttr_err]

theorem targetsChild_err (n : String) (as : Attrs) (ch : List Xml) (ts : List (Target F)) :
    err (targetsChild n as ch ts) = childWhy F "Targets" sTargets (.elem n as ch) := by
  rw [childWhy_elem]
  on_names n ["Target", "Extension"] do
    simp [targetsChild, sTargets, find, err_ok, err_map, target_err as ch, harmW, *]

theorem targets_err (as : Attrs) (ch : List Xml) (ts : List (Target F)) : err (reflectLoop targetsChild ch ts) = why F "Targets" as ch := by
  rw [why_eq (s := sTargets) (by simp [find, goStructs]) (by decide +kernel), noneWhy (no_attrs rfl as), Option.none_or, reflectLoop_err targetsChild_err]

theorem verificationAttr_err (k v : String) (f : VerificationField F) : err (verificationAttr k v f) = attrWhy F sVerificationField (k, v) :=
  err_attr (verificationAttr_isOk k v f) (by attr_err verificationAttr)

theorem verificationField_err (as : Attrs) (ch : List Xml) (f : VerificationField F) : err (attrLoop verificationAttr as f) = why F "VerificationField" as ch := by
  rw [why_eq (s := sVerificationField) (by simp [find, goStructs]) (by decide +kernel), childrenWhy_reads _ _ ch (ext_regular rfl rfl ch), Option.or_none, attrLoop_err verificationAttr_err]

theorem verificationFieldsChild_err (n : String) (as : Attrs) (ch : List Xml) (fs : List (VerificationField F)) :
    err (verificationFieldsChild n as ch fs) = childWhy F "VerificationFields" sVerificationFields (.elem n as ch) := by
  rw [childWhy_elem]
  on_names n ["VerificationField", "Extension"] do
    simp [verificationFieldsChild, sVerificationFields, find, err_ok, err_map, verificationField_err as ch, harmW, *]

theorem verificationFields_err (as : Attrs) (ch : List Xml) (fs : List (VerificationField F)) : err (reflectLoop verificationFieldsChild ch fs) = why F "VerificationFields" as ch := by
  rw [why_eq (s := sVerificationFields) (by simp [find, goStructs]) (by decide +kernel), noneWhy (no_attrs rfl as), Option.none_or, reflectLoop_err verificationFieldsChild_err]

theorem countAttr_err (k v : String) (u : Unit) : err (countAttr k v u) = attrWhy F sModelVerification (k, v) :=
  err_attr (countAttr_isOk k v u) (by attr_err countAttr)

theorem verificationChild_err (n : String) (as : Attrs) (ch : List Xml) (m : ModelVerification F) :
    err (verificationChild n as ch m) = childWhy F "ModelVerification" sModelVerification (.elem n as ch) := by
  rw [childWhy_elem]
  on_names n ["InlineTable", "VerificationFields", "Extension"] do
    simp [verificationChild, sModelVerification, find, err_ok, err_map, decodeTable_err as, verificationFields_err as, harmW, *]

theorem decodeVerification_err (as : Attrs) (ch : List Xml) (m : Option (ModelVerification F)) :
    err (decodeVerification as ch m) = why F "ModelVerification" as ch := by
  rw [why_eq (s := sModelVerification) (by simp [find, goStructs]) (by decide +kernel),
    ← attrLoop_err (countAttr_err (F := F)) as (), decodeVerification]
  cases attrLoop countAttr as () with
  | error e => rfl
  | ok y =>
    dsimp only
    rw [err_map, reflectLoop_err verificationChild_err]
    rfl

/-! ## Models -/

section
variable [Reflect] (hR : ∀ n as ch, Reflect.ok n as ch = reads F n as ch)
include hR

theorem skip_err {n : String} (hn : n ∈ unnamed) (as : Attrs) (ch : List Xml) :
    err (skip n as ch) = why F n as ch := by
  rw [skip, hR, why_unnamed hn]
  cases reads F n as ch <;> rfl

theorem skips_err (as : Attrs) (ch : List Xml) :
    err (skip "ModelExplanation" as ch) = why F "ModelExplanation" as ch ∧
    err (skip "ModelStats" as ch) = why F "ModelStats" as ch ∧
    err (skip "Taxonomy" as ch) = why F "Taxonomy" as ch :=
  ⟨skip_err hR (by decide +kernel) as ch, skip_err hR (by decide +kernel) as ch, skip_err hR (by decide +kernel) as ch⟩

theorem treeAttr_err (k v : String) (d : TreeDoc F) : err (treeAttr k v d) = attrWhy F sTreeModel (k, v) :=
  err_attr (treeAttr_isOk hR k v d) (by attr_err treeAttr)

theorem treeChild_err (n : String) (as : Attrs) (ch : List Xml) (d : TreeDoc F) :
    err (treeChild n as ch d) = childWhy F "TreeModel" sTreeModel (.elem n as ch) := by
  rw [childWhy_elem]
  on_names n ["LocalTransformations", "MiningSchema", "ModelExplanation", "ModelStats", "ModelVerification", "Node", "Output", "Targets", "Extension"] do
    simp [treeChild, sTreeModel, find, err_ok, err_map, local_err as, schema_err as, skips_err hR,
      decodeVerification_err, decodeNode_err, output_err (F := F) as, targets_err as, harmW, *]

theorem decodeTree_err (as : Attrs) (ch : List Xml) : err (decodeTree (F := F) as ch) = why F "TreeModel" as ch := by
  rw [why_eq (s := sTreeModel) (by simp [find, goStructs]) (by decide +kernel), ← attrLoop_err (treeAttr_err hR) as TreeDoc.zero, decodeTree]
  cases attrLoop treeAttr as (TreeDoc.zero : TreeDoc F) with
  | error e => rfl
  | ok y =>
    dsimp only
    rw [reflectLoop_err (treeChild_err hR)]
    rfl

theorem predictorAttr_err (k v : String) (p : NumericPredictor F) : err (predictorAttr k v p) = attrWhy F sNumericPredictor (k, v) :=
  err_attr (predictorAttr_isOk hR k v p) (by attr_err predictorAttr)

theorem predictor_err (as : Attrs) (ch : List Xml) (p : NumericPredictor F) : err (attrLoop predictorAttr as p) = why F "NumericPredictor" as ch := by
  rw [why_eq (s := sNumericPredictor) (by simp [find, goStructs]) (by decide +kernel), childrenWhy_reads _ _ ch (ext_regular rfl rfl ch), Option.or_none, attrLoop_err (predictorAttr_err hR)]

theorem regTableAttr_err (k v : String) (t : RegressionTable F) : err (regTableAttr k v t) = attrWhy F sRegressionTable (k, v) :=
  err_attr (regTableAttr_isOk hR k v t) (by attr_err regTableAttr)

theorem regTableChild_err (n : String) (as : Attrs) (ch : List Xml) (t : RegressionTable F) :
    err (regTableChild n as ch t) = childWhy F "RegressionTable" sRegressionTable (.elem n as ch) := by
  rw [childWhy_elem]
  on_names n ["NumericPredictor", "Extension"] do
    simp [regTableChild, sRegressionTable, find, err_ok, err_map, predictor_err hR as ch, harmW, *]

theorem decodeRegTable_err (as : Attrs) (ch : List Xml) : err (decodeRegTable (F := F) as ch) = why F "RegressionTable" as ch := by
  rw [why_eq (s := sRegressionTable) (by simp [find, goStructs]) (by decide +kernel), ← attrLoop_err (regTableAttr_err hR) as ⟨Arith.zero, "", []⟩, decodeRegTable]
  cases attrLoop regTableAttr as (⟨Arith.zero, "", []⟩ : RegressionTable F) with
  | error e => rfl
  | ok y =>
    dsimp only
    rw [reflectLoop_err (regTableChild_err hR)]
    rfl

theorem regressionAttr_err (k v : String) (d : RegressionDoc F) : err (regressionAttr k v d) = attrWhy F sRegressionModel (k, v) :=
  err_attr (regressionAttr_isOk hR k v d) (by attr_err regressionAttr)

theorem regressionChild_err (n : String) (as : Attrs) (ch : List Xml) (d : RegressionDoc F) :
    err (regressionChild n as ch d) = childWhy F "RegressionModel" sRegressionModel (.elem n as ch) := by
  rw [childWhy_elem]
  on_names n ["LocalTransformations", "MiningSchema", "RegressionTable", "ModelExplanation", "ModelStats", "ModelVerification", "Output", "Targets", "Extension"] do
    simp [regressionChild, sRegressionModel, find, err_ok, err_map, local_err as, schema_err as, skips_err hR,
      decodeVerification_err, decodeRegTable_err hR, output_err (F := F) as, targets_err as, harmW, *]

theorem decodeRegression_err (as : Attrs) (ch : List Xml) : err (decodeRegression (F := F) as ch) = why F "RegressionModel" as ch := by
  rw [why_eq (s := sRegressionModel) (by simp [find, goStructs]) (by decide +kernel), ← attrLoop_err (regressionAttr_err hR) as ⟨.other "", .empty, [], [], none⟩, decodeRegression]
  cases attrLoop regressionAttr as (⟨.other "", .empty, [], [], none⟩ : RegressionDoc F) with
  | error e => rfl
  | ok y =>
    dsimp only
    rw [reflectLoop_err (regressionChild_err hR)]
    rfl

omit hR in
theorem other_unnamed : ∀ n ∈ otherModels, n ∈ unnamed := by decide +kernel

theorem leafModel_err (n : String) (as : Attrs) (ch : List Xml) :
    (leafModel (F := F) n as ch).map err = if n ∈ leafModels then some (why F n as ch) else none := by
  unfold leafModel
  by_cases h1 : n = "TreeModel"
  · subst h1
    rw [if_pos rfl, Option.map_some, err_map, decodeTree_err hR, if_pos (by simp [leafModels])]
  rw [if_neg h1]
  by_cases h2 : n = "RegressionModel"
  · subst h2
    rw [if_pos rfl, Option.map_some, err_map, decodeRegression_err hR, if_pos (by simp [leafModels])]
  rw [if_neg h2]
  by_cases h3 : n ∈ otherModels
  · rw [if_pos h3, Option.map_some, err_map, skip_err hR (other_unnamed n h3), if_pos (by simp [leafModels, h3])]
  · rw [if_neg h3, if_neg (by simp [leafModels, h1, h2, h3])]
    rfl

theorem miningAttr_err (k v : String) (h : MiningHead F) : err (miningAttr k v h) = attrWhy F sMiningModel (k, v) :=
  err_attr (miningAttr_isOk hR k v h) (by attr_err miningAttr)

theorem miningChild_err (n : String) (hn : n ≠ "Segmentation") (as : Attrs) (ch : List Xml) (h : MiningHead F) :
    err (miningChild n as ch h) = childWhy F "MiningModel" sMiningModel (.elem n as ch) := by
  rw [childWhy_elem]
  on_names n ["ModelVerification", "MiningSchema", "LocalTransformations", "Output", "Targets", "Extension"] do
    simp [miningChild, sMiningModel, find, err_ok, err_map, local_err as, schema_err as,
      decodeVerification_err, output_err (F := F) as, targets_err as, harmW, *]

omit hR in
theorem childWhy_segmentation (as : Attrs) (ch : List Xml) :
    childWhy F "MiningModel" sMiningModel (.elem "Segmentation" as ch) = childrenWhy F "Segmentation" sSegmentation ch := by
  rw [childWhy_regular _ (by decide +kernel), if_pos (by simp [names, sMiningModel]),
    why_eq (s := sSegmentation) (by simp [find, goStructs]) (by decide +kernel), noneWhy (segmentation_attrs as),
    Option.none_or]

omit hR in
theorem childWhy_segment (as : Attrs) (ch : List Xml) :
    childWhy F "Segmentation" sSegmentation (.elem "Segment" as ch) = childrenWhy F "Segment" sSegment ch := by
  rw [childWhy_regular _ (by decide +kernel), if_pos (by simp [names, sSegmentation]),
    why_eq (s := sSegment) (by simp [find, goStructs]) (by decide +kernel), noneWhy (segment_attrs as), Option.none_or]

mutual
theorem miningItem_err : (x : Xml) → (y : MiningHead F × List (SegDoc F)) →
    err (miningItem x y) = childWhy F "MiningModel" sMiningModel x
  | .text _ _, y => by rw [miningItem, childWhy_text]; rfl
  | .elem n as ch, (h, segs) => by
    rw [miningItem]
    by_cases h1 : n = "Segmentation"
    · have := segmentationBody_err ch segs
      rw [if_pos h1, h1, childWhy_segmentation, ← this]
      cases segmentationBody ch segs <;> rfl
    · rw [if_neg h1, ← miningChild_err hR n h1 as ch h]
      cases miningChild n as ch h <;> rfl
theorem miningBody_err : (xs : List Xml) → (y : MiningHead F × List (SegDoc F)) →
    err (miningBody xs y) = childrenWhy F "MiningModel" sMiningModel xs
  | [], y => by rw [miningBody, childrenWhy_nil]; rfl
  | x :: xs, y => by
    rw [miningBody, childrenWhy_cons, ← miningItem_err x y]
    cases miningItem x y with
    | error e => rfl
    | ok y' => dsimp only; rw [miningBody_err xs y']; rfl
theorem segmentationItem_err : (x : Xml) → (y : List (SegDoc F)) →
    err (segmentationItem x y) = childWhy F "Segmentation" sSegmentation x
  | .text _ _, y => by rw [segmentationItem, childWhy_text]; rfl
  | .elem n as ch, segs => by
    rw [segmentationItem]
    by_cases h1 : n = "Segment"
    · have := segmentBody_err ch ([], [])
      rw [if_pos h1, h1, childWhy_segment, ← this]
      cases consumed "Segment" (segmentBody ch (([], []) : List (Pred F) × List (ModelElem F))) <;> rfl
    · rw [if_neg h1, childWhy_reads _ _ _ (childReads_not_segment n h1 as ch)]
      rfl
theorem segmentationBody_err : (xs : List Xml) → (y : List (SegDoc F)) →
    err (segmentationBody xs y) = childrenWhy F "Segmentation" sSegmentation xs
  | [], y => by rw [segmentationBody, childrenWhy_nil]; rfl
  | x :: xs, y => by
    rw [segmentationBody, childrenWhy_cons, ← segmentationItem_err x y]
    cases segmentationItem x y with
    | error e => rfl
    | ok y' => dsimp only; rw [segmentationBody_err xs y']; rfl
theorem segmentItem_err : (x : Xml) → (y : List (Pred F) × List (ModelElem F)) →
    err (consumed "Segment" (segmentItem x y)) = childWhy F "Segment" sSegment x
  | .text _ _, y => by rw [segmentItem, childWhy_text]; rfl
  | .elem n as ch, (ps, ms) => by
    rw [segmentItem, childWhy_regular _ segment_regular]
    have hl := decodePred_err (F := F) n as ch
    cases hp : decodePred (F := F) n as ch with
    | some r =>
      rw [hp, Option.map_some] at hl
      have hn : n ∈ preds := by
        refine Decidable.byContradiction fun hn => ?_; rw [if_neg hn] at hl; cases hl
      have hm : n ∈ names sSegment := (segment_names n).2 (.inl hn)
      rw [if_pos hn] at hl
      rw [if_pos hm, ← Option.some_inj.1 hl]
      cases r <;> rfl
    | none =>
      rw [hp, Option.map_none] at hl
      have hn : n ∉ preds := by
        intro hn; rw [if_pos hn] at hl; cases hl
      dsimp only
      by_cases h1 : n = "MiningModel"
      · rw [if_pos h1, h1, if_pos ((segment_names _).2 (.inr (.inl rfl))),
          why_eq (s := sMiningModel) (by simp [find, goStructs]) (by decide +kernel),
          ← attrLoop_err (miningAttr_err hR) as MiningHead.zero]
        cases attrLoop miningAttr as (MiningHead.zero : MiningHead F) with
        | error e => rfl
        | ok h =>
          have := miningBody_err ch (h, [])
          rw [← this]
          dsimp only
          cases miningBody ch (h, []) <;> rfl
      · rw [if_neg h1]
        have hl := leafModel_err hR n as ch
        cases hm : leafModel (F := F) n as ch with
        | some r =>
          rw [hm, Option.map_some] at hl
          have hn' : n ∈ leafModels := by
            refine Decidable.byContradiction fun hn => ?_; rw [if_neg hn] at hl; cases hl
          rw [if_pos hn'] at hl
          have hm : n ∈ names sSegment := (segment_names n).2 (.inr (.inr hn'))
          rw [if_pos hm, ← Option.some_inj.1 hl]
          cases r <;> rfl
        | none =>
          rw [hm, Option.map_none] at hl
          have hn' : n ∉ leafModels := by
            intro hn; rw [if_pos hn] at hl; cases hl
          have hm : n ∉ names sSegment := by
            rw [segment_names]; simp [hn, h1, hn']
          rw [if_neg hm, if_pos (by decide +kernel), ← segmentBody_err ch (ps, ms)]
          dsimp only
          rcases segmentBody ch (ps, ms) with e | ⟨_, _ | _⟩ <;> rfl
theorem segmentBody_err : (xs : List Xml) → (y : List (Pred F) × List (ModelElem F)) →
    err (consumed "Segment" (segmentBody xs y)) = childrenWhy F "Segment" sSegment xs
  | [], y => by rw [segmentBody, childrenWhy_nil]; rfl
  | x :: xs, y => by
    rw [segmentBody, childrenWhy_cons, ← segmentItem_err x y]
    rcases segmentItem x y with e | ⟨y', _ | _⟩
    · rfl
    · rfl
    · dsimp only
      rw [segmentBody_err xs y']
      rfl
end

theorem decodeMining_err (as : Attrs) (ch : List Xml) :
    err (decodeMining (F := F) as ch) = why F "MiningModel" as ch := by
  rw [why_eq (s := sMiningModel) (by simp [find, goStructs]) (by decide +kernel),
    ← attrLoop_err (miningAttr_err hR) as MiningHead.zero, decodeMining]
  cases attrLoop miningAttr as (MiningHead.zero : MiningHead F) with
  | error e => rfl
  | ok h =>
    dsimp only
    rw [err_map, miningBody_err hR]
    rfl

theorem decodeModel_err (n : String) (as : Attrs) (ch : List Xml) :
    (decodeModel (F := F) n as ch).map err =
      if n ∈ "MiningModel" :: leafModels then some (why F n as ch) else none := by
  unfold decodeModel
  by_cases h : n = "MiningModel"
  · subst h
    rw [if_pos rfl, Option.map_some, decodeMining_err hR, if_pos (by simp)]
  · rw [if_neg h, leafModel_err hR]
    simp [h]

/-! ## The document -/

theorem intervalAttr_err (k v : String) (u : Unit) : err (intervalAttr F k v u) = attrWhy F sInterval (k, v) :=
  err_attr (intervalAttr_isOk hR k v u) (by attr_err intervalAttr)

theorem interval_err (as : Attrs) (ch : List Xml) (u : Unit) : err (attrLoop (intervalAttr F) as u) = why F "Interval" as ch := by
  rw [why_eq (s := sInterval) (by simp [find, goStructs]) (by decide +kernel), childrenWhy_reads _ _ ch (ext_regular rfl rfl ch), Option.or_none, attrLoop_err (intervalAttr_err hR)]

theorem dataFieldAttr_err (k v : String) (d : DataField) : err (dataFieldAttr k v d) = attrWhy F sDataField (k, v) :=
  err_attr (dataFieldAttr_isOk hR k v d) (by attr_err dataFieldAttr)

theorem dataFieldChild_err (n : String) (as : Attrs) (ch : List Xml) (d : DataField) :
    err (dataFieldChild F n as ch d) = childWhy F "DataField" sDataField (.elem n as ch) := by
  rw [childWhy_elem]
  on_names n ["Interval", "Value", "Extension"] do
    simp [dataFieldChild, sDataField, find, err_ok, err_map, interval_err hR as ch, harmW, *]

theorem decodeDataField_err (as : Attrs) (ch : List Xml) : err (decodeDataField F as ch) = why F "DataField" as ch := by
  rw [why_eq (s := sDataField) (by simp [find, goStructs]) (by decide +kernel), ← attrLoop_err (dataFieldAttr_err hR) as ⟨"", .other "", []⟩, decodeDataField]
  cases attrLoop dataFieldAttr as (⟨"", .other "", []⟩ : DataField) with
  | error e => rfl
  | ok y =>
    dsimp only
    rw [reflectLoop_err (dataFieldChild_err hR)]
    rfl

theorem dictChild_err (n : String) (as : Attrs) (ch : List Xml) (dd : List DataField) :
    err (dictChild F n as ch dd) = childWhy F "DataDictionary" sDataDictionary (.elem n as ch) := by
  rw [childWhy_elem]
  on_names n ["DataField", "Taxonomy", "Extension"] do
    simp [dictChild, sDataDictionary, find, err_ok, err_map, decodeDataField_err hR, skips_err hR, harmW, *]

theorem dictAttr_err (k v : String) (u : Unit) : err (dictAttr k v u) = attrWhy F sDataDictionary (k, v) :=
  err_attr (dictAttr_isOk hR k v u) (by attr_err dictAttr)

theorem decodeDict_err (as : Attrs) (ch : List Xml) (dd : List DataField) : err (decodeDict F as ch dd) = why F "DataDictionary" as ch := by
  rw [why_eq (s := sDataDictionary) (by simp [find, goStructs]) (by decide +kernel), ← attrLoop_err (dictAttr_err hR) as (), decodeDict]
  cases attrLoop dictAttr as (() : Unit) with
  | error e => rfl
  | ok y =>
    dsimp only
    rw [reflectLoop_err (dictChild_err hR)]
    rfl

theorem transChild_err (n : String) (as : Attrs) (ch : List Xml) (td : List (DerivedField F)) :
    err (transChild n as ch td) = childWhy F "TransformationDictionary" sTransformationDictionary (.elem n as ch) := by
  have hf : why F "DefineFunction" as ch = childrenWhy F "DefineFunction" sDefineFunction ch := by
    rw [why_eq (s := sDefineFunction) (by simp [find, goStructs]) (by decide +kernel), noneWhy (function_attrs as),
      Option.none_or]
  rw [childWhy_elem]
  on_names n ["DefineFunction", "DerivedField", "Extension"] do
    simp [transChild, localChild, sTransformationDictionary, find, err_ok, err_map,
      bodyLoop_err (functionHandle_err (F := F)), decodeDerived_err, harmW, *]

theorem trans_err (as : Attrs) (ch : List Xml) (td : List (DerivedField F)) : err (reflectLoop transChild ch td) = why F "TransformationDictionary" as ch := by
  rw [why_eq (s := sTransformationDictionary) (by simp [find, goStructs]) (by decide +kernel), noneWhy (no_attrs rfl as), Option.none_or, reflectLoop_err (transChild_err hR)]

theorem pmmlHandle_err (n : String) (as : Attrs) (ch : List Xml) (p : Pmml F) :
    (pmmlHandle n as ch p).elim ((childrenWhy F "PMML" sPMML ch).or (some (.leftover "PMML"))) err =
      childWhy F "PMML" sPMML (.elem n as ch) := by
  rw [childWhy_regular _ (by decide +kernel), pmmlHandle]
  by_cases h : n = "Header" ∨ n = "MiningBuildTask"
  · rw [if_pos h]
    rcases h with h | h <;> subst h <;> simp [names, sPMML, harmW, err_ok]
  rw [if_neg h]
  by_cases h1 : n = "DataDictionary"
  · subst h1
    rw [if_pos rfl, Option.elim_some, err_map, decodeDict_err hR, if_pos (by simp [names, sPMML])]
  rw [if_neg h1]
  by_cases h2 : n = "TransformationDictionary"
  · subst h2
    rw [if_pos rfl, Option.elim_some, err_map, trans_err hR as, if_pos (by simp [names, sPMML])]
  rw [if_neg h2, elim_err (decodeModel_err hR n as ch)]
  have : (n ∈ names sPMML) ↔ n ∈ "MiningModel" :: leafModels := by
    rw [pmml_names]; simp [h, h1, h2]
  simp only [this]
  rw [show GoStruct.strict sPMML = true from rfl, if_pos rfl]

theorem decodePmml_err (as : Attrs) (ch : List Xml) : err (decodePmml (F := F) as ch) = why F "PMML" as ch := by
  rw [why_eq (s := sPMML) (by simp [find, goStructs]) (by decide +kernel), noneWhy (pmml_attrs as), Option.none_or,
    decodePmml, bodyLoop_err (pmmlHandle_err hR)]

end

/-! ## `ChildParent` has a decoder of its own -/

theorem childParentAttr_err (k v : String) (c : ChildParent F) :
    err (childParentAttr k v c) = attrWhy F sChildParent (k, v) :=
  err_attr (childParentAttr_isOk k v c) (by attr_err childParentAttr)

theorem childParentHandle_err (n : String) (as : Attrs) (ch : List Xml) (c : ChildParent F) :
    (childParentHandle n as ch c).elim ((childrenWhy F "ChildParent" sChildParent ch).or (some (.leftover "ChildParent")))
      err = childWhy F "ChildParent" sChildParent (.elem n as ch) := by
  have he : err (decodeExtension as ch) = none := err_isOk (extension_isOk as ch)
  rw [childWhy_elem]
  on_names n ["Extension", "FieldColumnPair", "InlineTable", "TableLocator"] do
    simp [childParentHandle, sChildParent, find, err_ok, err_map, he, pair_err, decodeTable_err as, harmW, *]

theorem decodeChildParent_err (as : Attrs) (ch : List Xml) :
    err (decodeChildParent (F := F) as ch) = why F "ChildParent" as ch := by
  rw [why_eq (s := sChildParent) (by simp [find, goStructs]) (by decide +kernel),
    ← attrLoop_err childParentAttr_err as ChildParent.zero, decodeChildParent]
  cases attrLoop childParentAttr as (ChildParent.zero : ChildParent F) with
  | error e => rfl
  | ok h =>
    dsimp only
    rw [bodyLoop_err childParentHandle_err]
    rfl

end Gopmml.Why
