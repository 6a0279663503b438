import Verif.Proofs.SaidModels
import Verif.Props.Structs
import Verif.Props.Bytes

/-!
# Property C113: what an XML document says
-/

namespace Gopmml.Props
open Gopmml Spec Structs

variable {F : Type} [Arith F] [Lib F]

/-- **C113**: decoding a document succeeds exactly if its type says it can be read, and yields its content
collected by names. -/
theorem C113_content (as : Attrs) (ch : List Xml) (p : Pmml F) :
    decodeAll as ch = .ok p ↔ reads F "PMML" as ch = true ∧ p = Spec.Said.pmml as ch := by
  have key : ∀ q : Pmml F, decodeAll as ch = .ok q → q = Spec.Said.pmml as ch := by
    intro q hq
    let _ := goReflect F
    exact Said.decodePmml_said hq
  constructor
  · exact fun h => ⟨(C106_table as ch).1 ⟨p, h⟩, key p h⟩
  · rintro ⟨h, rfl⟩
    obtain ⟨q, hq⟩ := (C106_table (F := F) as ch).2 h
    rw [← key q hq, hq]

/-- **C113** (files): likewise for the bytes of a file. -/
theorem C113_file [NameTables] (bs : List UInt8) (p : Pmml F) :
    BytesReadAs bs p ↔ ∃ n as ch, XmlBytes.readBytes bs = some (.elem n as ch) ∧ reads F "PMML" as ch = true ∧
      p = Spec.Said.pmml as ch := by
  unfold BytesReadAs
  simp only [C113_content]

/-- **C113** (models): whatever is expected of the elements that are not looked at, a model that can be
decoded is what its element says. -/
theorem C113_model [Reflect] {n : String} {as : Attrs} {ch : List Xml} {m : ModelElem F}
    (h : decodeModel n as ch = some (.ok m)) : Spec.Said.modelOf (.elem n as ch) = [m] :=
  Said.decodeModel_said h

omit [Arith F] [Lib F] in
theorem record_get (es : List (String × Attrs × List Xml)) (r : GoMap (GoVal F)) (k : String) :
    (es.foldl (fun (r : GoMap (GoVal F)) (e : String × Attrs × List Xml) => r.insert e.1 (.str (Xml.chardata e.2.2))) r)[k]? =
      (((es.filter fun e => decide (e.1 = k)).getLast?).map fun e => GoVal.str (Xml.chardata e.2.2)).or r[k]? := by
  induction es generalizing r with
  | nil => simp
  | cons e es ih =>
    rw [List.foldl_cons, ih, List.filter_cons]
    by_cases h : e.1 = k
    · simp only [h, decide_true, if_true, List.getLast?_cons]
      cases (es.filter fun e => decide (e.1 = k)).getLast? <;> simp
    · have h' : compare e.1 k ≠ .eq := fun hc => h (Std.LawfulEqCmp.eq_of_compare hc)
      simp only [h, decide_false, Bool.false_eq_true, if_false, Std.ExtTreeMap.getElem?_insert, h']

omit [Arith F] [Lib F] in
/-- **C113** (cells): a row of a table has exactly the cells that are elements in it; of several of one name
the last counts, with all its text. -/
theorem C113_cells (ch : List Xml) (k : String) : (Spec.Said.record (F := F) ch)[k]? =
    ((named k ch).getLast?).map fun e => GoVal.str (Xml.chardata e.2.2) := by
  have := record_get (F := F) (Xml.elems ch) ∅ k
  simpa [Spec.Said.record, named] using this

/-! ## Sections in another order -/

theorem segments_append (xs ys : List Xml) : Spec.Said.segments (F := F) (xs ++ ys) =
    Spec.Said.segments xs ++ Spec.Said.segments ys := by
  induction xs with
  | nil => simp [Spec.Said.segments]
  | cons x xs ih => simp [Spec.Said.segments, ih]

theorem segmentations_inside (ch : List Xml) : Spec.Said.segmentations (F := F) ch =
    Spec.Said.segments (Spec.Said.inside "Segmentation" ch) := by
  induction ch with
  | nil => simp [Spec.Said.segmentations, Spec.Said.inside, named, Xml.elems, Spec.Said.segments]
  | cons c cs ih =>
    cases c with
    | text r v => rw [Spec.Said.segmentations, Spec.Said.segmentation, Said.inside_text, ih]; rfl
    | elem n as ch =>
      rw [Spec.Said.segmentations, Spec.Said.segmentation, Said.inside_elem, ih]
      by_cases h : n = "Segmentation"
      · simp [h, segments_append]
      · simp [h]

/-- **C113** (sections): what a model says depends on the last attribute of each name and on the elements
of each name alone: neither on the order of attributes or sections of different names, nor on text between them. -/
theorem C113_sections {n : String} {as as' : Attrs} {ch ch' : List Xml} (ha : ∀ k, lastAttr k as = lastAttr k as')
    (hc : ∀ k, named k ch = named k ch') :
    Spec.Said.modelOf (F := F) (.elem n as ch) = Spec.Said.modelOf (.elem n as' ch') := by
  have hi : ∀ k, Spec.Said.inside k ch = Spec.Said.inside k ch' := fun k => by simp only [Spec.Said.inside, hc]
  have ho : ∀ k, Spec.Said.attrsOf k ch = Spec.Said.attrsOf k ch' := fun k => by simp only [Spec.Said.attrsOf, hc]
  have ht : ∀ k, Spec.Said.text k as = Spec.Said.text k as' := fun k => by simp only [Spec.Said.text, ha]
  have hn : ∀ k, Spec.Said.num (F := F) k as = Spec.Said.num k as' := fun k => by
    simp only [Spec.Said.num, Spec.Said.numberIf, ha]
  simp only [Spec.Said.modelOf, Spec.Said.tree, Spec.Said.regression, Spec.Said.miningHead, segmentations_inside,
    Spec.Said.schema, Spec.Said.outputs, Spec.Said.targets, Spec.Said.verification, Spec.Said.root, hi, ho, ht, hn, hc]

theorem models_append (xs ys : List Xml) : Spec.Said.models (F := F) (xs ++ ys) =
    Spec.Said.models xs ++ Spec.Said.models ys := by
  induction xs with
  | nil => simp [Spec.Said.models]
  | cons x xs ih => simp [Spec.Said.models, ih]

theorem reads_perm {t : String} {as as' : Attrs} {ch ch' : List Xml} (ha : as.Perm as') (hc : ch.Perm ch') :
    reads F t as ch = reads F t as' ch' := by
  cases hs : find t goStructs with
  | none => rw [reads, reads, hs]
  | some s =>
    rw [reads_eq hs, reads_eq hs, Bool.eq_iff_iff, Bool.and_eq_true, Bool.and_eq_true, childrenRead_iff,
      childrenRead_iff, List.all_eq_true, List.all_eq_true]
    simp only [ha.mem_iff, hc.mem_iff]

/-- **C113** (rearranged): a document one of whose models has its attributes and its sections in another
order is decoded to the same document, or neither is. -/
theorem C113_rearranged {n : String} {as as' : Attrs} {ch ch' : List Xml}
    (hn : n = "TreeModel" ∨ n = "RegressionModel" ∨ n = "MiningModel") (ha : as.Perm as')
    (ha' : ∀ k, lastAttr k as = lastAttr k as') (hc : ch.Perm ch') (hc' : ∀ k, named k ch = named k ch')
    (pas : Attrs) (pre post : List Xml) (p : Pmml F) :
    decodeAll pas (pre ++ .elem n as ch :: post) = .ok p ↔ decodeAll pas (pre ++ .elem n as' ch' :: post) = .ok p := by
  rw [C113_content, C113_content]
  have h1 : reads F "PMML" pas (pre ++ .elem n as ch :: post) = reads F "PMML" pas (pre ++ .elem n as' ch' :: post) := by
    have hs : find "PMML" goStructs = some sPMML := by decide +kernel
    have hx : childReads F sPMML (.elem n as ch) = childReads F sPMML (.elem n as' ch') := by
      rw [childReads_elem, childReads_elem]
      cases hf : find n sPMML.fields with
      | none => rfl
      | some t =>
        dsimp only
        rw [reads_perm ha hc]
        have : t ≠ "float64" := by
          rintro rfl
          rcases hn with rfl | rfl | rfl <;> exact absurd hf (by decide +kernel)
        rw [if_neg this, if_neg this]
    rw [reads_eq hs, reads_eq hs]
    congr 1
    rw [Bool.eq_iff_iff, childrenRead_iff, childrenRead_iff]
    simp only [List.mem_append, List.mem_cons, or_imp, forall_and, forall_eq, hx]
  have h2 : Spec.Said.pmml (F := F) pas (pre ++ .elem n as ch :: post) =
      Spec.Said.pmml pas (pre ++ .elem n as' ch' :: post) := by
    have hd : ∀ k, k ≠ n → Spec.Said.inside k (pre ++ .elem n as ch :: post) =
        Spec.Said.inside k (pre ++ .elem n as' ch' :: post) := fun k hk => by
      rw [Said.inside_append, Said.inside_append, Said.inside_elem, Said.inside_elem, if_neg (Ne.symm hk), if_neg (Ne.symm hk)]
    have d1 : "DataDictionary" ≠ n := by rintro rfl; simp at hn
    have d2 : "TransformationDictionary" ≠ n := by rintro rfl; simp at hn
    simp only [Spec.Said.pmml, hd _ d1, hd _ d2, models_append, Spec.Said.models, C113_sections ha' hc']
  rw [h1, h2]

/-! ## Examples -/

namespace SaidExample
open Samples Replay

/-- A tree in two `Node` elements, with a repeated attribute, two schemas and a text between them. -/
def scattered : List Xml :=
  [.elem "MiningSchema" [] [.elem "MiningField" [("name", "a")] []],
   .elem "Node" [("id", "x"), ("score", "s")] [.elem "True" [] [], .elem "Node" [("id", "1")] [.elem "False" [] []]],
   .text " " " ",
   .elem "MiningSchema" [] [.elem "MiningField" [("usageType", "target"), ("name", "y"), ("name", "b")] []],
   .elem "Node" [("id", "y"), ("recordCount", "")] [.elem "Node" [("id", "2")] [.elem "True" [] []]]]

-- C113: it can be decoded, to one root with the id of the last part, the score of the first and both children.
example : ∃ p : Pmml F64, decodeAll [("version", "4.4")] [.elem "TreeModel" [("functionName", "classification")] scattered] = .ok p ∧
    ∃ t, p.models = [.tree t] ∧
      t.miningFields.map (·.name) = ["a", "b"] ∧
      t.node = .mk "y" "" "s" Arith.zero [] [.mk "1" "" "" Arith.zero [] [] (some .false_),
        .mk "2" "" "" Arith.zero [] [] (some .true_)] (some .true_) := by
  refine ⟨_, (C113_content _ _ _).2 ⟨by decide +kernel, rfl⟩, _, rfl, by decide +kernel, ?_⟩
  rfl

/-- The same sections with the two names apart. -/
def gathered : List Xml :=
  [.elem "MiningSchema" [] [.elem "MiningField" [("name", "a")] []],
   .elem "MiningSchema" [] [.elem "MiningField" [("usageType", "target"), ("name", "y"), ("name", "b")] []],
   .elem "Node" [("id", "x"), ("score", "s")] [.elem "True" [] [], .elem "Node" [("id", "1")] [.elem "False" [] []]],
   .elem "Node" [("id", "y"), ("recordCount", "")] [.elem "Node" [("id", "2")] [.elem "True" [] []]],
   .text " " " "]

-- The hypotheses of `C113_rearranged` hold for them.
example (p : Pmml F64) :
    decodeAll [] ([] ++ .elem "TreeModel" [("modelName", "m"), ("functionName", "classification")] scattered :: []) = .ok p ↔
    decodeAll [] ([] ++ .elem "TreeModel" [("functionName", "classification"), ("modelName", "m")] gathered :: []) = .ok p := by
  refine C113_rearranged (.inl rfl) (.swap _ _ _) (fun k => ?_) ?_ (fun k => ?_) _ _ _ _
  · by_cases h1 : "modelName" = k
    · subst h1; decide
    · by_cases h2 : "functionName" = k
      · subst h2; decide
      · simp [lastAttr, h1, h2]
  · unfold scattered gathered
    refine .cons _ ?_
    refine List.Perm.trans (l₂ := [_, _, _, _]) ?_ (.trans (.swap _ _ _) (.cons _ (.cons _ (.swap _ _ _))))
    exact .cons _ (.swap _ _ _)
  · by_cases h1 : "MiningSchema" = k
    · subst h1; rfl
    · by_cases h2 : "Node" = k
      · subst h2; rfl
      · simp [named, scattered, gathered, Xml.elems, h1, h2]

-- Sections of one name cannot be exchanged: the last score counts.
example : (Spec.Said.root (F := F64) [.elem "Node" [("score", "1")] [], .elem "Node" [("score", "2")] []]).score = "2" ∧
    (Spec.Said.root (F := F64) [.elem "Node" [("score", "2")] [], .elem "Node" [("score", "1")] []]).score = "1" := by
  decide +kernel

-- Two tables of a verification are read as one, and of two cells of one name the second counts.
example : (Spec.Said.verification (F := F64) [.elem "ModelVerification" []
      [.elem "InlineTable" [] [.elem "row" [] [.elem "a" [] [.text "1" "1"], .elem "a" [] [.text "2" "2"]]]],
    .elem "ModelVerification" [] [.elem "InlineTable" [] [.elem "row" [] []]]]).map
      (fun v => v.rows.map fun r => r["a"]?) = some [some (.str "2"), none] := by
  simp only [Spec.Said.verification, Spec.Said.table, Spec.Said.inside, named, Xml.elems, decide_true, List.filter_cons,
    if_true, List.filter_nil, reduceCtorEq, if_false, Option.map_some, List.flatMap_cons, List.flatMap_nil,
    List.append_nil, List.cons_append, List.nil_append, List.map_cons, List.map_nil, C113_cells]
  rfl

end SaidExample

end Gopmml.Props
