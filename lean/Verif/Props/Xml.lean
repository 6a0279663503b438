import Verif.Proofs.Xml
import Verif.Model.Samples

/-!
# Decoding documents: C56, C57
-/

namespace Gopmml.Props
open Gopmml

section
variable {F : Type} [Arith F] [Lib F]

/-! ## C57: unknown child elements -/

omit [Arith F] [Lib F] in
theorem decodePred_known {n : String} {as : Attrs} {ch : List Xml} {r : Dec (Pred F)}
    (h : decodePred n as ch = some r) : n ∈ Spec.predKinds := by
  unfold decodePred leafPred at h
  unfold Spec.predKinds
  split_ifs at h <;> simp_all

omit [Arith F] [Lib F] in
theorem decodeExpr_known {n : String} {as : Attrs} {ch : List Xml} {r : Dec (Expr F)}
    (h : decodeExpr n as ch = some r) : n ∈ Spec.exprKinds := by
  unfold decodeExpr leafExpr otherExpr at h
  unfold Spec.exprKinds
  split_ifs at h with h1 h2 h3 h4 h5
  · simp [h1]
  · simp [h2]
  · simp [h3]
  · simp [h4]
  · simp only [Bool.or_eq_true, decide_eq_true_eq] at h5
    rcases h5 with ((((h5 | h5) | h5) | h5) | h5) | h5 <;> simp [h5]

theorem decodeModel_known [Reflect] {n : String} {as : Attrs} {ch : List Xml} {r : Dec (ModelElem F)}
    (h : decodeModel n as ch = some r) : n ∈ Spec.modelKinds := by
  unfold decodeModel leafModel otherModels at h
  unfold Spec.modelKinds
  split_ifs at h with h1 h2 h3 h4
  · simp [h1]
  · simp [h2]
  · simp [h3]
  · simp only [List.mem_cons, List.not_mem_nil, or_false] at h4
    rcases h4 with h4 | h4 | h4 | h4 | h4 | h4 | h4 | h4 | h4 | h4 | h4 | h4 | h4 | h4 | h4 <;>
      simp [h4]

theorem bodyLoop_children {σ : Type} {h : String → Attrs → List Xml → σ → Option (Dec σ)}
    {name : String} {cs : List Xml} {s s' : σ} (hr : consumed name (bodyLoop h cs s) = .ok s')
    {n : String} {as : Attrs} {ch : List Xml} (hm : Xml.elem n as ch ∈ cs) :
    ∃ t t', h n as ch t = some (.ok t') :=
  readAll_mem ((consumed_bodyLoop h).1 hr) (n, as, ch) (Xml.mem_elems.2 hm)

omit [Arith F] [Lib F] in
theorem map_some_ok {α β : Type} {o : Option (Dec α)} {f : α → β} {b : β}
    (h : (o.map fun r => r.map f) = some (.ok b)) : ∃ a, o = some (.ok a) := by
  cases o with
  | none => simp at h
  | some r =>
    cases r with
    | error e => simp [Except.map] at h
    | ok a => exact ⟨a, rfl⟩

omit [Arith F] [Lib F] in
theorem map_ok {α β : Type} {o : Dec α} {f : α → β} {b : β} (h : o.map f = .ok b) :
    ∃ a, o = .ok a ∧ f a = b := by
  cases o with
  | error e => simp [Except.map] at h
  | ok a => exact ⟨a, rfl, by simpa [Except.map] using h⟩

/-- C57 (Node): a decoded node has only known child elements, whatever state it was decoded into. -/
theorem C57_node {as : Attrs} {ch : List Xml} {x y : Node F} (h : decodeNode as ch x = .ok y)
    {n : String} {as' : Attrs} {ch' : List Xml} (hm : Xml.elem n as' ch' ∈ ch) :
    n ∈ Spec.nodeKinds := by
  unfold decodeNode at h
  cases ha : attrLoop nodeAttr as x with
  | error e => simp [ha] at h
  | ok z =>
    simp only [ha, nodeBody_eq] at h
    obtain ⟨t, t', ht⟩ := bodyLoop_children h hm
    unfold nodeHandle at ht
    unfold Spec.nodeKinds
    split_ifs at ht with h1 h2 h3 h4
    · rcases h1 with h1 | h1 <;> simp [h1]
    · simp [h2]
    · simp [h3]
    · rcases h4 with h4 | h4 <;> simp [h4]
    · obtain ⟨p, hp⟩ := map_some_ok ht
      have := decodePred_known hp
      simp [this]

omit [Arith F] [Lib F] in
/-- C57 (CompoundPredicate) -/
theorem C57_compound {as : Attrs} {ch : List Xml} {p : Pred F}
    (h : decodePred "CompoundPredicate" as ch = some (.ok p))
    {n : String} {as' : Attrs} {ch' : List Xml} (hm : Xml.elem n as' ch' ∈ ch) :
    n ∈ Spec.compoundKinds := by
  simp only [decodePred, if_true, Option.some.injEq, compoundBody_eq] at h
  obtain ⟨ps, h, -⟩ := map_ok h
  obtain ⟨t, t', ht⟩ := bodyLoop_children h hm
  unfold compoundHandle at ht
  split_ifs at ht with h1
  · simp [h1, Spec.compoundKinds]
  · obtain ⟨p, hp⟩ := map_some_ok ht
    exact List.mem_cons_of_mem _ (decodePred_known hp)

omit [Arith F] [Lib F] in
/-- C57 (Apply) -/
theorem C57_apply {as : Attrs} {ch : List Xml} {x : Expr F}
    (h : decodeExpr "Apply" as ch = some (.ok x))
    {n : String} {as' : Attrs} {ch' : List Xml} (hm : Xml.elem n as' ch' ∈ ch) :
    n ∈ Spec.applyKinds := by
  simp only [decodeExpr, if_true, Option.some.injEq, applyBody_eq] at h
  obtain ⟨ps, h, -⟩ := map_ok h
  obtain ⟨t, t', ht⟩ := bodyLoop_children h hm
  unfold applyHandle at ht
  split_ifs at ht with h1
  · simp [h1, Spec.applyKinds]
  · obtain ⟨p, hp⟩ := map_some_ok ht
    exact List.mem_cons_of_mem _ (decodeExpr_known hp)

omit [Arith F] [Lib F] in
/-- C57 (DerivedField) -/
theorem C57_derived {as : Attrs} {ch : List Xml} {d : DerivedField F}
    (h : decodeDerived as ch = .ok d)
    {n : String} {as' : Attrs} {ch' : List Xml} (hm : Xml.elem n as' ch' ∈ ch) :
    n ∈ Spec.derivedKinds := by
  unfold decodeDerived at h
  cases ha : attrLoop (derivedAttr (F := F)) as ⟨"", .other "", .other "", .other ""⟩ with
  | error e => simp [ha] at h
  | ok z =>
    simp only [ha] at h
    obtain ⟨t, t', ht⟩ := bodyLoop_children h hm
    unfold derivedHandle at ht
    split_ifs at ht with h1
    · rcases h1 with h1 | h1 <;> simp [h1, Spec.derivedKinds]
    · obtain ⟨p, hp⟩ := map_some_ok ht
      exact List.mem_cons_of_mem _ (List.mem_cons_of_mem _ (decodeExpr_known hp))

omit [Arith F] [Lib F] in
/-- C57 (DefineFunction): an unknown child fails the transformation dictionary. -/
theorem C57_function {as : Attrs} {ch : List Xml} {td td' : List (DerivedField F)}
    (h : transChild "DefineFunction" as ch td = .ok td')
    {n : String} {as' : Attrs} {ch' : List Xml} (hm : Xml.elem n as' ch' ∈ ch) :
    n ∈ Spec.functionKinds := by
  simp only [transChild, if_true] at h
  obtain ⟨u, h, -⟩ := map_ok h
  obtain ⟨t, t', ht⟩ := bodyLoop_children h hm
  unfold functionHandle at ht
  split_ifs at ht with h1
  · rcases h1 with h1 | h1 <;> simp [h1, Spec.functionKinds]
  · obtain ⟨p, hp⟩ := map_some_ok ht
    exact List.mem_cons_of_mem _ (List.mem_cons_of_mem _ (decodeExpr_known hp))

/-- C57 (Segment): in particular an `Extension`, which the schema allows, is refused. -/
theorem C57_segment [Reflect] {as : Attrs} {ch : List Xml} {s : SegDoc F}
    (h : decodeSegment as ch = .ok s)
    {n : String} {as' : Attrs} {ch' : List Xml} (hm : Xml.elem n as' ch' ∈ ch) :
    n ∈ Spec.segmentKinds := by
  simp only [decodeSegment, segmentBody_eq] at h
  obtain ⟨r, h, -⟩ := map_ok h
  obtain ⟨t, t', ht⟩ := bodyLoop_children h hm
  unfold segmentHandle at ht
  unfold Spec.segmentKinds
  cases hp : decodePred (F := F) n as' ch' with
  | some r => exact List.mem_append_left _ (decodePred_known hp)
  | none =>
    simp only [hp] at ht
    obtain ⟨m, hm⟩ := map_some_ok ht
    exact List.mem_append_right _ (decodeModel_known hm)

omit [Arith F] [Lib F] in
/-- C57 (InlineTable): only rows. -/
theorem C57_table {ch : List Xml} {rows rows' : List (GoMap (GoVal F))}
    (h : decodeTable ch rows = .ok rows')
    {n : String} {as' : Attrs} {ch' : List Xml} (hm : Xml.elem n as' ch' ∈ ch) :
    n ∈ Spec.tableKinds := by
  unfold decodeTable at h
  obtain ⟨t, t', ht⟩ := bodyLoop_children h hm
  unfold tableHandle at ht
  split_ifs at ht with h1
  simp [h1, Spec.tableKinds]

/-- C57 (PMML): in particular an `Extension`, which the schema allows, is refused. -/
theorem C57_pmml [Reflect] {as : Attrs} {ch : List Xml} {p : Pmml F} (h : decodePmml as ch = .ok p)
    {n : String} {as' : Attrs} {ch' : List Xml} (hm : Xml.elem n as' ch' ∈ ch) :
    n ∈ Spec.pmmlKinds := by
  unfold decodePmml at h
  obtain ⟨t, t', ht⟩ := bodyLoop_children h hm
  unfold pmmlHandle at ht
  unfold Spec.pmmlKinds
  split_ifs at ht with h1 h2 h3
  · rcases h1 with h1 | h1 <;> simp [h1]
  · simp [h2]
  · simp [h3]
  · obtain ⟨m, hm⟩ := map_some_ok ht
    exact List.mem_append_right _ (decodeModel_known hm)

/-! ### At any depth of a document -/

/-- The element of kind `k` with this content decodes (into some variable). -/
def Decodes (F : Type) [Arith F] [Lib F] [Reflect] (k : String) (ch : List Xml) : Prop :=
  (k = "PMML" → ∃ as, ∃ p : Pmml F, decodePmml as ch = .ok p) ∧
  (k = "TransformationDictionary" → ∃ t t' : List (DerivedField F), reflectLoop transChild ch t = .ok t') ∧
  (k = "DefineFunction" → ∃ as, ∃ t t' : List (DerivedField F), transChild k as ch t = .ok t') ∧
  (k = "DerivedField" → ∃ as, ∃ d : DerivedField F, decodeDerived as ch = .ok d) ∧
  (k = "Apply" → ∃ as, ∃ x : Expr F, decodeExpr k as ch = some (.ok x)) ∧
  (k = "MapValues" → ∃ as, ∃ m : MapValues F, decodeMap as ch = .ok m) ∧
  (k = "InlineTable" → ∃ t t' : List (GoMap (GoVal F)), decodeTable ch t = .ok t') ∧
  (k = "TreeModel" → ∃ as, ∃ d : TreeDoc F, decodeTree as ch = .ok d) ∧
  (k = "RegressionModel" → ∃ as, ∃ d : RegressionDoc F, decodeRegression as ch = .ok d) ∧
  (k = "MiningModel" → ∃ as, ∃ d : ModelElem F, decodeMining as ch = .ok d) ∧
  (k = "LocalTransformations" → ∃ t t' : List (DerivedField F), reflectLoop localChild ch t = .ok t') ∧
  (k = "ModelVerification" → ∃ as, ∃ m m' : Option (ModelVerification F),
    decodeVerification as ch m = .ok m') ∧
  (k = "Segmentation" → ∃ t t' : List (SegDoc F), reflectLoop segmentationChild ch t = .ok t') ∧
  (k = "Segment" → ∃ as, ∃ s : SegDoc F, decodeSegment as ch = .ok s) ∧
  (k = "Node" → ∃ as, ∃ x y : Node F, decodeNode as ch x = .ok y) ∧
  (k = "CompoundPredicate" → ∃ as, ∃ p : Pred F, decodePred k as ch = some (.ok p))

variable [Reflect]

omit [Arith F] [Lib F] [Reflect] in
theorem decodeExpr_apply_or_map {P : String → List Xml → Prop} {n : String} {as : Attrs} {ch : List Xml}
    {x : Expr F} (h : decodeExpr n as ch = some (.ok x)) (hn : n = "Apply" ∨ n = "MapValues")
    (h1 : ∀ x : Expr F, decodeExpr "Apply" as ch = some (.ok x) → P "Apply" ch)
    (h2 : ∀ m : MapValues F, decodeMap as ch = .ok m → P "MapValues" ch) : P n ch := by
  rcases hn with rfl | rfl
  · exact h1 x h
  · simp only [decodeExpr, leafExpr, String.reduceEq, if_false, if_true, Option.some.injEq] at h
    obtain ⟨m, hm, -⟩ := map_ok h
    exact h2 m hm

theorem decodeModel_parts {P : String → List Xml → Prop} {n : String} {as : Attrs} {ch : List Xml}
    {x : ModelElem F} (h : decodeModel n as ch = some (.ok x))
    (hn : n = "TreeModel" ∨ n = "RegressionModel" ∨ n = "MiningModel")
    (h1 : ∀ d : TreeDoc F, decodeTree as ch = .ok d → P "TreeModel" ch)
    (h2 : ∀ d : RegressionDoc F, decodeRegression as ch = .ok d → P "RegressionModel" ch)
    (h3 : ∀ d : ModelElem F, decodeMining as ch = .ok d → P "MiningModel" ch) : P n ch := by
  rcases hn with rfl | rfl | rfl
  · simp only [decodeModel, leafModel, String.reduceEq, if_false, if_true, Option.some.injEq] at h
    obtain ⟨d, hd, -⟩ := map_ok h
    exact h1 d hd
  · simp only [decodeModel, leafModel, String.reduceEq, if_false, if_true, Option.some.injEq] at h
    obtain ⟨d, hd, -⟩ := map_ok h
    exact h2 d hd
  · simp only [decodeModel, if_true, Option.some.injEq] at h
    exact h3 x h

set_option maxHeartbeats 4000000 in
theorem decodes_part {k k' : String} {ch ch' : List Xml} {as' : Attrs} (h : Decodes F k ch)
    (hm : Xml.elem k' as' ch' ∈ ch) (hp : k' ∈ Spec.parts k) : Decodes F k' ch' := by
  unfold Spec.parts at hp
  by_cases h1 : k = "PMML"
  · subst h1
    simp [Decodes] at h
    obtain ⟨as, p, h⟩ := h
    unfold decodePmml at h
    obtain ⟨t, t', ht⟩ := bodyLoop_children h hm
    simp only [if_true, List.mem_cons, List.not_mem_nil, or_false] at hp
    rcases hp with rfl | hp
    · simp only [pmmlHandle, String.reduceEq, or_self, if_false, if_true, Option.some.injEq] at ht
      obtain ⟨l, hl, -⟩ := map_ok ht
      simp [Decodes]
      exact ⟨_, _, hl⟩
    · have ht' : ∃ m : ModelElem F, decodeModel k' as' ch' = some (.ok m) := by
        rcases hp with rfl | rfl | rfl <;>
        · simp only [pmmlHandle, String.reduceEq, or_self, if_false] at ht
          exact map_some_ok ht
      obtain ⟨m, hd⟩ := ht'
      exact decodeModel_parts (P := Decodes F) hd hp (fun d hd => by simp [Decodes]; exact ⟨_, _, hd⟩)
        (fun d hd => by simp [Decodes]; exact ⟨_, _, hd⟩)
        (fun d hd => by simp [Decodes]; exact ⟨_, _, hd⟩)
  rw [if_neg h1] at hp
  by_cases h1 : k = "TransformationDictionary"
  · subst h1
    simp [Decodes] at h
    obtain ⟨s, s', h⟩ := h
    obtain ⟨t, t', ht⟩ := reflectLoop_mem h _ _ _ hm
    simp only [if_true, List.mem_cons, List.not_mem_nil, or_false] at hp
    rcases hp with rfl | rfl
    · simp [Decodes]
      exact ⟨_, _, _, ht⟩
    · simp only [transChild, localChild, String.reduceEq, if_false, if_true] at ht
      obtain ⟨d, hd, -⟩ := map_ok ht
      simp [Decodes]
      exact ⟨_, _, hd⟩
  rw [if_neg h1] at hp
  by_cases h1 : k = "DefineFunction"
  · subst h1
    simp [Decodes] at h
    obtain ⟨as, s, s', h⟩ := h
    simp only [transChild, if_true] at h
    obtain ⟨u, h, -⟩ := map_ok h
    obtain ⟨t, t', ht⟩ := bodyLoop_children h hm
    simp only [if_true, List.mem_cons, List.not_mem_nil, or_false] at hp
    have hn : ¬(k' = "Extension" ∨ k' = "ParameterField") := by rcases hp with rfl | rfl <;> simp
    simp only [functionHandle, if_neg hn] at ht
    obtain ⟨x, hx⟩ := map_some_ok ht
    exact decodeExpr_apply_or_map (P := Decodes F) hx hp
      (fun d hd => by simp [Decodes]; exact ⟨_, _, hd⟩)
      (fun d hd => by simp [Decodes]; exact ⟨_, _, hd⟩)
  rw [if_neg h1] at hp
  by_cases h1 : k = "DerivedField"
  · subst h1
    simp [Decodes] at h
    obtain ⟨as, d, h⟩ := h
    unfold decodeDerived at h
    cases ha : attrLoop (derivedAttr (F := F)) as ⟨"", .other "", .other "", .other ""⟩ with
    | error e => simp [ha] at h
    | ok z =>
      simp only [ha] at h
      obtain ⟨t, t', ht⟩ := bodyLoop_children h hm
      simp only [if_true, List.mem_cons, List.not_mem_nil, or_false] at hp
      have hn : ¬(k' = "Extension" ∨ k' = "Value") := by rcases hp with rfl | rfl <;> simp
      simp only [derivedHandle, if_neg hn] at ht
      obtain ⟨x, hx⟩ := map_some_ok ht
      exact decodeExpr_apply_or_map (P := Decodes F) hx hp
        (fun d hd => by simp [Decodes]; exact ⟨_, _, hd⟩)
        (fun d hd => by simp [Decodes]; exact ⟨_, _, hd⟩)
  rw [if_neg h1] at hp
  by_cases h1 : k = "Apply"
  · subst h1
    simp [Decodes] at h
    obtain ⟨as, d, h⟩ := h
    simp only [decodeExpr, if_true, Option.some.injEq, applyBody_eq] at h
    obtain ⟨u, h, -⟩ := map_ok h
    obtain ⟨t, t', ht⟩ := bodyLoop_children h hm
    simp only [if_true, List.mem_cons, List.not_mem_nil, or_false] at hp
    have hn : ¬(k' = "Extension") := by rcases hp with rfl | rfl <;> simp
    simp only [applyHandle, if_neg hn] at ht
    obtain ⟨x, hx⟩ := map_some_ok ht
    exact decodeExpr_apply_or_map (P := Decodes F) hx hp
      (fun d hd => by simp [Decodes]; exact ⟨_, _, hd⟩)
      (fun d hd => by simp [Decodes]; exact ⟨_, _, hd⟩)
  rw [if_neg h1] at hp
  by_cases h1 : k = "MapValues"
  · subst h1
    simp [Decodes] at h
    obtain ⟨as, d, h⟩ := h
    unfold decodeMap at h
    cases ha : attrLoop (mapAttr (F := F)) as ⟨none, .other "", [], []⟩ with
    | error e => simp [ha] at h
    | ok z =>
      simp only [ha] at h
      obtain ⟨t, t', ht⟩ := reflectLoop_mem h _ _ _ hm
      simp only [if_true, List.mem_cons, List.not_mem_nil, or_false] at hp
      subst hp
      simp only [mapChild, String.reduceEq, if_false, if_true] at ht
      obtain ⟨l, hl, -⟩ := map_ok ht
      simp [Decodes]
      exact ⟨_, _, hl⟩
  rw [if_neg h1] at hp
  by_cases h1 : k = "TreeModel"
  · subst h1
    simp [Decodes] at h
    obtain ⟨as, d, h⟩ := h
    unfold decodeTree at h
    cases ha : attrLoop treeAttr as (TreeDoc.zero (F := F)) with
    | error e => simp [ha] at h
    | ok z =>
      simp only [ha] at h
      obtain ⟨t, t', ht⟩ := reflectLoop_mem h _ _ _ hm
      simp only [if_true, List.mem_cons, List.not_mem_nil, or_false] at hp
      rcases hp with rfl | rfl | rfl <;>
      · simp only [treeChild, String.reduceEq, or_self, if_false, if_true] at ht
        obtain ⟨l, hl, -⟩ := map_ok ht
        simp [Decodes]
        first | exact ⟨_, _, hl⟩ | exact ⟨_, _, _, hl⟩
  rw [if_neg h1] at hp
  by_cases h1 : k = "RegressionModel"
  · subst h1
    simp [Decodes] at h
    obtain ⟨as, d, h⟩ := h
    unfold decodeRegression at h
    cases ha : attrLoop regressionAttr as (⟨.other "", .empty, [], [], none⟩ : RegressionDoc F) with
    | error e => simp [ha] at h
    | ok z =>
      simp only [ha] at h
      obtain ⟨t, t', ht⟩ := reflectLoop_mem h _ _ _ hm
      simp only [if_true, List.mem_cons, List.not_mem_nil, or_false] at hp
      rcases hp with rfl | rfl <;>
      · simp only [regressionChild, String.reduceEq, or_self, if_false, if_true] at ht
        obtain ⟨l, hl, -⟩ := map_ok ht
        simp [Decodes]
        first | exact ⟨_, _, hl⟩ | exact ⟨_, _, _, hl⟩
  rw [if_neg h1] at hp
  by_cases h1 : k = "MiningModel"
  · subst h1
    simp [Decodes] at h
    obtain ⟨as, d, h⟩ := h
    unfold decodeMining at h
    cases ha : attrLoop miningAttr as (MiningHead.zero (F := F)) with
    | error e => simp [ha] at h
    | ok z =>
      simp only [ha, miningBody_eq] at h
      obtain ⟨u, h, -⟩ := map_ok h
      obtain ⟨t, t', ht⟩ := reflectLoop_mem h _ _ _ hm
      simp only [if_true, List.mem_cons, List.not_mem_nil, or_false] at hp
      rcases hp with rfl | rfl | rfl
      · simp only [miningHandle, miningChild, String.reduceEq, if_false, if_true] at ht
        obtain ⟨l, hl, -⟩ := map_ok ht
        obtain ⟨l, hl, -⟩ := map_ok hl
        simp [Decodes]
        exact ⟨_, _, hl⟩
      · simp only [miningHandle, miningChild, String.reduceEq, if_false, if_true] at ht
        obtain ⟨l, hl, -⟩ := map_ok ht
        obtain ⟨l, hl, -⟩ := map_ok hl
        simp [Decodes]
        exact ⟨_, _, _, hl⟩
      · simp only [miningHandle, if_true] at ht
        obtain ⟨l, hl, -⟩ := map_ok ht
        simp [Decodes]
        exact ⟨_, _, hl⟩
  rw [if_neg h1] at hp
  by_cases h1 : k = "LocalTransformations"
  · subst h1
    simp [Decodes] at h
    obtain ⟨s, s', h⟩ := h
    obtain ⟨t, t', ht⟩ := reflectLoop_mem h _ _ _ hm
    simp only [if_true, List.mem_cons, List.not_mem_nil, or_false] at hp
    subst hp
    simp only [localChild, if_true] at ht
    obtain ⟨d, hd, -⟩ := map_ok ht
    simp [Decodes]
    exact ⟨_, _, hd⟩
  rw [if_neg h1] at hp
  by_cases h1 : k = "ModelVerification"
  · subst h1
    simp [Decodes] at h
    obtain ⟨as, s, s', h⟩ := h
    unfold decodeVerification at h
    cases ha : attrLoop countAttr as () with
    | error e => simp [ha] at h
    | ok z =>
      simp only [ha] at h
      obtain ⟨u, h, -⟩ := map_ok h
      obtain ⟨t, t', ht⟩ := reflectLoop_mem h _ _ _ hm
      simp only [if_true, List.mem_cons, List.not_mem_nil, or_false] at hp
      subst hp
      simp only [verificationChild, if_true] at ht
      obtain ⟨d, hd, -⟩ := map_ok ht
      simp [Decodes]
      exact ⟨_, _, hd⟩
  rw [if_neg h1] at hp
  by_cases h1 : k = "Segmentation"
  · subst h1
    simp [Decodes] at h
    obtain ⟨s, s', h⟩ := h
    obtain ⟨t, t', ht⟩ := reflectLoop_mem h _ _ _ hm
    simp only [if_true, List.mem_cons, List.not_mem_nil, or_false] at hp
    subst hp
    simp only [segmentationChild, if_true] at ht
    obtain ⟨d, hd, -⟩ := map_ok ht
    simp [Decodes]
    exact ⟨_, _, hd⟩
  rw [if_neg h1] at hp
  by_cases h1 : k = "Segment"
  · subst h1
    simp [Decodes] at h
    obtain ⟨as, s, h⟩ := h
    simp only [decodeSegment, segmentBody_eq] at h
    obtain ⟨u, h, -⟩ := map_ok h
    obtain ⟨t, t', ht⟩ := bodyLoop_children h hm
    simp only [if_true, List.mem_cons, List.not_mem_nil, or_false] at hp
    unfold segmentHandle at ht
    cases hd : decodePred (F := F) k' as' ch' with
    | some r =>
      simp only [hd, Option.some.injEq] at ht
      obtain ⟨p, rfl, -⟩ := map_ok ht
      rcases hp with rfl | hp
      · simp [Decodes]
        exact ⟨_, _, hd⟩
      · have := decodePred_known hd
        rcases hp with rfl | rfl | rfl <;> simp [Spec.predKinds] at this
    | none =>
      simp only [hd] at ht
      obtain ⟨m, hd'⟩ := map_some_ok ht
      rcases hp with rfl | hp
      · simp [decodePred] at hd
      · exact decodeModel_parts (P := Decodes F) hd' hp
          (fun d hd => by simp [Decodes]; exact ⟨_, _, hd⟩)
          (fun d hd => by simp [Decodes]; exact ⟨_, _, hd⟩)
          (fun d hd => by simp [Decodes]; exact ⟨_, _, hd⟩)
  rw [if_neg h1] at hp
  by_cases h1 : k = "Node"
  · subst h1
    simp [Decodes] at h
    obtain ⟨as, x, y, h⟩ := h
    unfold decodeNode at h
    cases ha : attrLoop nodeAttr as x with
    | error e => simp [ha] at h
    | ok z =>
      simp only [ha, nodeBody_eq] at h
      obtain ⟨t, t', ht⟩ := bodyLoop_children h hm
      simp only [if_true, List.mem_cons, List.not_mem_nil, or_false] at hp
      rcases hp with rfl | rfl
      · simp only [nodeHandle, String.reduceEq, or_self, if_false, if_true, Option.some.injEq] at ht
        obtain ⟨c, hc, -⟩ := map_ok ht
        simp [Decodes]
        exact ⟨_, _, _, hc⟩
      · simp only [nodeHandle, String.reduceEq, or_self, if_false] at ht
        obtain ⟨p, hp⟩ := map_some_ok ht
        simp [Decodes]
        exact ⟨_, _, hp⟩
  rw [if_neg h1] at hp
  by_cases h1 : k = "CompoundPredicate"
  · subst h1
    simp [Decodes] at h
    obtain ⟨as, p, h⟩ := h
    simp only [decodePred, if_true, Option.some.injEq, compoundBody_eq] at h
    obtain ⟨u, h, -⟩ := map_ok h
    obtain ⟨t, t', ht⟩ := bodyLoop_children h hm
    simp only [if_true, List.mem_cons, List.not_mem_nil, or_false] at hp
    subst hp
    simp only [compoundHandle, String.reduceEq, if_false] at ht
    obtain ⟨p, hp⟩ := map_some_ok ht
    simp [Decodes]
    exact ⟨_, _, hp⟩
  rw [if_neg h1] at hp
  simp at hp

/-- C57: in a document that decodes, every element at any depth that is read by a hand-written
decoder has only child elements this decoder knows. -/
theorem C57_document {as : Attrs} {ch : List Xml} {p : Pmml F} (h : decodePmml as ch = .ok p)
    {k : String} {ch' : List Xml} (hw : Spec.Within "PMML" ch k ch') {ks : List String}
    (hk : Spec.knownIn k = some ks) {n : String} {as₂ : Attrs} {ch₂ : List Xml}
    (hm : Xml.elem n as₂ ch₂ ∈ ch') : n ∈ ks := by
  have hd : Decodes F k ch' := by
    clear hm hk
    induction hw with
    | self => simp [Decodes]; exact ⟨_, _, h⟩
    | part _ hm hp ih => exact decodes_part ih hm hp
  unfold Spec.knownIn at hk
  split_ifs at hk with h1 h1 h1 h1 h1 h1 h1 h1 <;> subst h1 <;> simp only [Option.some.injEq] at hk <;>
    subst hk <;> simp [Decodes] at hd
  · obtain ⟨as, p, hd⟩ := hd; exact C57_pmml hd hm
  · obtain ⟨as, x, y, hd⟩ := hd; exact C57_node hd hm
  · obtain ⟨as, p, hd⟩ := hd; exact C57_compound hd hm
  · obtain ⟨as, p, hd⟩ := hd; exact C57_apply hd hm
  · obtain ⟨as, p, hd⟩ := hd; exact C57_derived hd hm
  · obtain ⟨as, t, t', hd⟩ := hd; exact C57_function hd hm
  · obtain ⟨as, p, hd⟩ := hd; exact C57_segment hd hm
  · obtain ⟨t, t', hd⟩ := hd; exact C57_table hd hm

/-- C57: an unknown element anywhere among those parts makes decoding the document fail, whatever is
inside it. -/
theorem C57_unknown {as : Attrs} {ch : List Xml} {k : String} {ch' : List Xml}
    (hw : Spec.Within "PMML" ch k ch') {ks : List String} (hk : Spec.knownIn k = some ks)
    {n : String} {as₂ : Attrs} {ch₂ : List Xml} (hm : Xml.elem n as₂ ch₂ ∈ ch') (hn : n ∉ ks) :
    ∃ e, decodePmml (F := F) as ch = .error e := by
  cases h : decodePmml (F := F) as ch with
  | error e => exact ⟨e, rfl⟩
  | ok p => exact absurd (C57_document h hw hk hm) hn

end

section Examples
open Replay

private def modelDoc (inner : List Xml) : List Xml :=
  [.text "\n" "\n", .elem "Header" [] [],
   .elem "DataDictionary" [] [.elem "DataField" [("name", "x"), ("dataType", "double")] []],
   .elem "TreeModel" [("functionName", "regression")]
     [.elem "Node" [("id", "1"), ("score", "2"), ("recordCount", "1.5")]
       ([.elem "True" [] [], .text " " " "] ++ inner)]]

/-- What decoding the sample document with `inner` inside the root node says. -/
private def outcome (inner : List Xml) : Option DecErr :=
  letI : Reflect := ⟨fun _ _ _ => true⟩
  match decodePmml (F := F64) [("version", "4.3")] (modelDoc inner) with
  | .ok _ => none
  | .error e => some e

/-- Known elements decode; an unknown one is an error even if everything inside it is known. -/
example : outcome [.elem "Extension" [] [.elem "Foo" [] []],
      .elem "Node" [("id", "2"), ("score", "3")] [.elem "True" [] []]] = none ∧
    outcome [.elem "Foo" [] [.elem "Node" [("id", "2")] [.elem "True" [] []]]] =
      some (.leftover "Node") ∧
    outcome [.elem "Node" [("recordCount", "many")] []] = some (.syntax "many") := by
  decide +kernel

/-- The hypotheses of `C57_unknown`: the root node is within the document. -/
example (inner : List Xml) : Spec.Within "PMML" (modelDoc inner) "Node"
    ([.elem "True" [] [], .text " " " "] ++ inner) :=
  .part (k₁ := "TreeModel") (as := [("id", "1"), ("score", "2"), ("recordCount", "1.5")])
    (.part (k₁ := "PMML") (as := [("functionName", "regression")]) .self (by simp [modelDoc]; rfl)
      (by simp [Spec.parts])) (by simp) (by simp [Spec.parts])

/-- The schema allows `Extension` inside PMML and Segment; the decoders refuse it. -/
example : "Extension" ∉ Spec.pmmlKinds ∧ "Extension" ∉ Spec.segmentKinds ∧
    "Extension" ∉ Spec.tableKinds := by
  simp [Spec.pmmlKinds, Spec.segmentKinds, Spec.tableKinds, Spec.modelKinds, Spec.predKinds]

end Examples

end Gopmml.Props
