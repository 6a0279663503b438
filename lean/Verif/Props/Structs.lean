import Verif.Spec.Structs
import Verif.Proofs.StructsModel
import Verif.Props.XmlText

/-!
# Which documents can be decoded (C106)
-/

namespace Gopmml.Props

open Gopmml Structs Spec

section
variable {F : Type} [Arith F] [Lib F]

/-- **C106** (the table decides): a document can be decoded exactly if the table of struct tags says so. -/
theorem C106_table (as : Attrs) (ch : List Xml) : (∃ p : Pmml F, decodeAll as ch = .ok p) ↔ reads F "PMML" as ch = true := by
  let _ := goReflect F
  have h := decodePmml_isOk (F := F) (fun _ _ _ => rfl) as ch
  rw [← h]
  unfold decodeAll
  cases decodePmml (F := F) as ch with
  | error e => exact ⟨fun ⟨p, hp⟩ => (nomatch hp), fun h => (nomatch h)⟩
  | ok p => exact ⟨fun _ => rfl, fun _ => ⟨p, rfl⟩⟩

theorem readable_iff (k : Kind) (v : String) : k.reads F v = true ↔ Readable F k v := by
  have hp : ∀ {α : Type} (s : String) (x : Option α), (parsed s x).isOk = true ↔ ∃ y, x = some y := by
    intro α s x
    rw [isOk_parsed, Option.isSome_iff_exists]
  cases k with
  | string => simp [Kind.reads, Readable]
  | yesNo => simp [Kind.reads, Readable]
  | count => simp [Kind.reads, Readable, Option.isSome_iff_exists]
  | float64 =>
    by_cases hv : v = ""
    · simp [Kind.reads, Readable, attrFloat, hv, isOk_ok]
    · simp [Kind.reads, Readable, attrFloat, hv, hp]
  | int =>
    by_cases hv : v = ""
    · simp [Kind.reads, Readable, attrInt, hv, isOk_ok]
    · simp [Kind.reads, Readable, attrInt, hv, hp]
  | uint =>
    by_cases hv : v = ""
    · simp [Kind.reads, Readable, attrUint, hv, isOk_ok]
    · simp [Kind.reads, Readable, attrUint, hv, hp]
  | bool =>
    by_cases hv : v = ""
    · simp [Kind.reads, Readable, attrBool, hv, isOk_ok]
    · simp [Kind.reads, Readable, attrBool, hv, hp]

theorem childrenRead_iff {s : GoStruct} (ch : List Xml) :
    childrenRead F s ch = true ↔ ∀ x ∈ ch, childReads F s x = true := by
  induction ch with
  | nil => simp [childrenRead_nil]
  | cons c cs ih => simp [childrenRead_cons, ih]

theorem attrs_iff {s : GoStruct} (as : Attrs) :
    as.all (attrReads F s) = true ↔ ∀ k v kind, (k, v) ∈ as → find k s.attrs = some kind → Readable F kind v := by
  rw [List.all_eq_true]
  constructor
  · intro h k v kind hm hf
    have := h _ hm
    rw [attrReads, hf] at this
    exact (readable_iff kind v).1 this
  · rintro h ⟨k, v⟩ hm
    rw [attrReads]
    cases hf : find k s.attrs with
    | none => rfl
    | some kind => exact (readable_iff kind v).2 (h k v kind hm hf)

/-- No place the decoder looks at offends. -/
def Clean (F : Type) [Arith F] [Lib F] (t : String) (as : Attrs) (ch : List Xml) : Prop :=
  ∀ u as' ch' s, Looked t as ch u as' ch' → find u goStructs = some s → ¬ Offends F s as' ch'

theorem clean_of_reads {t u : String} {as as' : Attrs} {ch ch' : List Xml} (hl : Looked t as ch u as' ch') :
    reads F t as ch = true → reads F u as' ch' = true := by
  induction hl with
  | here => exact id
  | inside hs hc hn hu _ ih =>
    intro h
    apply ih
    rw [reads_eq hs, Bool.and_eq_true] at h
    have := (childrenRead_iff _).1 h.2 _ hc
    rw [childReads_elem, hn] at this
    dsimp only at this
    rwa [if_neg hu] at this

theorem not_offends {u : String} {as : Attrs} {ch : List Xml} {s : GoStruct} (hs : find u goStructs = some s)
    (h : reads F u as ch = true) : ¬ Offends F s as ch := by
  rw [reads_eq hs, Bool.and_eq_true, attrs_iff, childrenRead_iff] at h
  rintro (⟨k, v, kind, hm, hf, hr⟩ | ⟨n, as', ch', hm, hf, hr⟩ | ⟨n, as', ch', hm, hf, hst⟩)
  · exact hr (h.1 k v kind hm hf)
  · have := h.2 _ hm
    rw [childReads_elem, hf] at this
    dsimp only at this
    rw [if_pos rfl, readable_iff] at this
    exact hr this
  · have := h.2 _ hm
    rw [childReads_elem, hf] at this
    dsimp only at this
    rw [hst] at this
    cases this

mutual
theorem childReads_of_clean {s : GoStruct} : (x : Xml) →
    (∀ n as ch, x = .elem n as ch → (∀ t, find n s.fields = some t → t ≠ "float64" → Clean F t as ch) ∧
      (find n s.fields = some "float64" → Readable F .float64 (Xml.chardata ch)) ∧
      (find n s.fields = none → s.strict = false)) → childReads F s x = true
  | .text _ _, _ => childReads_text s _ _
  | .elem n as ch, h => by
    obtain ⟨h1, h2, h3⟩ := h n as ch rfl
    rw [childReads_elem]
    cases hf : find n s.fields with
    | none => dsimp only; rw [h3 hf]; rfl
    | some t =>
      dsimp only
      by_cases ht : t = "float64"
      · rw [if_pos ht, readable_iff]; exact h2 (ht ▸ hf)
      · rw [if_neg ht]
        have hc := h1 t hf ht
        cases hs : find t goStructs with
        | none => rw [reads, hs]
        | some s' =>
          rw [reads_eq hs, Bool.and_eq_true, attrs_iff]
          refine ⟨fun k v kind hm hf => Classical.byContradiction fun hr =>
            hc t as ch s' (.here _ _ _) hs (.attribute k v kind hm hf hr), childrenRead_of_clean ch ?_⟩
          intro n' as' ch' hm
          exact ⟨fun t' hf' ht' u as'' ch'' s'' hl => hc u as'' ch'' s'' (.inside hs hm hf' ht' hl),
            fun hf' => Classical.byContradiction fun hr => hc t as ch s' (.here _ _ _) hs (.number n' as' ch' hm hf' hr),
            fun hf' => Bool.eq_false_iff.2 fun hst => hc t as ch s' (.here _ _ _) hs (.unknown n' as' ch' hm hf' hst)⟩
theorem childrenRead_of_clean {s : GoStruct} : (xs : List Xml) →
    (∀ n as ch, .elem n as ch ∈ xs → (∀ t, find n s.fields = some t → t ≠ "float64" → Clean F t as ch) ∧
      (find n s.fields = some "float64" → Readable F .float64 (Xml.chardata ch)) ∧
      (find n s.fields = none → s.strict = false)) → childrenRead F s xs = true
  | [], _ => childrenRead_nil s
  | x :: xs, h => by
    rw [childrenRead_cons, childReads_of_clean x (fun n as ch hx => h n as ch (hx ▸ List.mem_cons_self)),
      childrenRead_of_clean xs (fun n as ch hx => h n as ch (List.mem_cons_of_mem _ hx))]
    rfl
end

theorem reads_iff_clean (t : String) (as : Attrs) (ch : List Xml) : reads F t as ch = true ↔ Clean F t as ch := by
  constructor
  · intro h u as' ch' s hl hs
    exact not_offends hs (clean_of_reads hl h)
  · intro hc
    cases hs : find t goStructs with
    | none => rw [reads, hs]
    | some s' =>
      rw [reads_eq hs, Bool.and_eq_true, attrs_iff]
      refine ⟨fun k v kind hm hf => Classical.byContradiction fun hr =>
        hc t as ch s' (.here _ _ _) hs (.attribute k v kind hm hf hr), childrenRead_of_clean ch ?_⟩
      intro n' as' ch' hm
      exact ⟨fun t' hf' ht' u as'' ch'' s'' hl => hc u as'' ch'' s'' (.inside hs hm hf' ht' hl),
        fun hf' => Classical.byContradiction fun hr => hc t as ch s' (.here _ _ _) hs (.number n' as' ch' hm hf' hr),
        fun hf' => Bool.eq_false_iff.2 fun hst => hc t as ch s' (.here _ _ _) hs (.unknown n' as' ch' hm hf' hst)⟩

/-- **C106** (where decoding fails): a document cannot be decoded exactly if some element that is looked at offends. -/
theorem C106_fails (as : Attrs) (ch : List Xml) : (∃ e, decodeAll (F := F) as ch = .error e) ↔
    ∃ t as' ch' s, Looked "PMML" as ch t as' ch' ∧ find t goStructs = some s ∧ Offends F s as' ch' := by
  have h1 := C106_table (F := F) as ch
  rw [reads_iff_clean] at h1
  have h2 : (∃ e, decodeAll (F := F) as ch = .error e) ↔ ¬ ∃ p : Pmml F, decodeAll as ch = .ok p := by
    cases decodeAll (F := F) as ch with
    | error e => exact ⟨fun _ ⟨p, hp⟩ => (nomatch hp), fun _ => ⟨e, rfl⟩⟩
    | ok p => exact ⟨fun ⟨e, he⟩ => (nomatch he), fun h => (h ⟨p, rfl⟩).elim⟩
  rw [h2, h1, Clean]
  simp only [not_forall, not_not, exists_prop]

/-- **C106** (what does not matter): text, order, and what has no field. -/
theorem C106_edits {as as' : Attrs} {ch ch' : List Xml} (h : Edit sPMML ch ch') :
    (∃ p : Pmml F, decodeAll as ch = .ok p) ↔ ∃ p : Pmml F, decodeAll as' ch' = .ok p := by
  have hattrs : ∀ (s : GoStruct) (as : Attrs), as.all (attrReads F s) = (known s as).all (attrReads F s) := by
    intro s as
    rw [Bool.eq_iff_iff, List.all_eq_true, List.all_eq_true]
    constructor
    · exact fun h a ha => h a (List.mem_of_mem_filter ha)
    · intro h a ha
      by_cases hk : (find a.1 s.attrs).isSome
      · exact h a (List.mem_filter.2 ⟨ha, hk⟩)
      · rw [attrReads]
        cases hf : find a.1 s.attrs with
        | none => rfl
        | some k => rw [hf] at hk; exact (hk rfl).elim
  have key : ∀ {s : GoStruct} {xs ys : List Xml}, Edit s xs ys → childrenRead F s xs = childrenRead F s ys := by
    intro s xs ys h
    induction h with
    | nil => rfl
    | text raw val _ ih => rw [childrenRead_cons, childReads_text, Bool.true_and, ih]
    | elem hn hf ht ha _ _ ihc ih =>
      rw [childrenRead_cons, childrenRead_cons, childReads_elem, childReads_elem, hn, ih]
      dsimp only
      rw [if_neg hf, if_neg hf, reads_eq ht, reads_eq ht, ihc, hattrs, ha.all_eq, ← hattrs]
    | number hn hc _ ih =>
      rw [childrenRead_cons, childrenRead_cons, childReads_elem, childReads_elem, hn, ih]
      dsimp only
      rw [if_pos rfl, if_pos rfl, hc]
    | unlisted hn hs _ ih =>
      rw [childrenRead_cons, childReads_elem, hn, ih]
      dsimp only
      rw [hs]
      rfl
    | swap s x y xs => simp only [childrenRead_cons, Bool.and_left_comm]
    | symm _ ih => exact ih.symm
    | trans _ _ ih ih' => exact ih.trans ih'
  rw [C106_table, C106_table, reads_eq (s := sPMML) (by simp [find, goStructs]),
    reads_eq (s := sPMML) (by simp [find, goStructs]), @pmml_attrs F _ _ (goReflect F), @pmml_attrs F _ _ (goReflect F), key h]

/-- **C106** (unread models): of twelve kinds of models nothing is read; whatever is inside is accepted. -/
theorem C106_unread {k : String} (hk : k ∈ unread) (as as' : Attrs) (content : List Xml) :
    ∃ p : Pmml F, decodeAll as [.elem k as' content] = .ok p ∧ p.models = [.other k] := by
  let _ := goReflect F
  have hh : ∃ s, find k goStructs = some s ∧ harmlessStruct s = true := by
    have : unread.all (fun t => (find t goStructs).any harmlessStruct) = true := by decide +kernel
    have := List.all_eq_true.1 this k hk
    rw [Option.any_eq_true] at this
    obtain ⟨s, hs, h⟩ := this
    exact ⟨s, hs, h⟩
  obtain ⟨s, hs, hh⟩ := hh
  have hr : reads F k as' content = true := by
    rw [reads_eq hs, attrs_harmless hh, children_harmless hh]
    rfl
  have ho : k ∈ otherModels ∧ k ≠ "Header" ∧ k ≠ "MiningBuildTask" ∧ k ≠ "DataDictionary" ∧
      k ≠ "TransformationDictionary" ∧ k ≠ "MiningModel" ∧ k ≠ "TreeModel" ∧ k ≠ "RegressionModel" := by
    clear hs hr
    revert k
    decide +kernel
  have hskip : skip k as' content = .ok () := by
    rw [skip]
    exact if_pos hr
  refine ⟨⟨versionAttr as, [], [], [.other k]⟩, ?_, rfl⟩
  simp [decodeAll, decodePmml, bodyLoop, bodyItem, pmmlHandle, decodeModel, leafModel, ho, hskip, Except.map, consumed]

/-- **C106** (taxonomies): the hand-written decoder of hierarchies agrees with the table. -/
theorem C106_hierarchies (as : Attrs) (ch : List Xml) :
    (∃ c, decodeChildParent (F := F) as ch = .ok c) ↔ Clean F "ChildParent" as ch := by
  rw [← reads_iff_clean, ← decodeChildParent_isOk]
  cases decodeChildParent (F := F) as ch with
  | error e => exact ⟨fun ⟨p, hp⟩ => (nomatch hp), fun h => (nomatch h)⟩
  | ok p => exact ⟨fun _ => rfl, fun _ => ⟨p, rfl⟩⟩

theorem othersDecode : @OthersDecode (goReflect F) := by
  let _ := goReflect F
  intro k hk hn
  have : ∀ k ∈ modelKinds, k ∉ ["TreeModel", "RegressionModel", "MiningModel"] → (find k goStructs).isSome = true := by
    decide +kernel
  obtain ⟨s, hs⟩ := Option.isSome_iff_exists.1 (this k hk hn)
  change reads F k [] [] = true
  rw [reads_eq hs, childrenRead_nil]
  rfl

/-- **C106** (round trip): C58 without an assumption on elements the evaluator does not look at. -/
theorem C106_roundtrip {fmt : F → String} (p : Pmml F) (h : OkPmml fmt p) :
    decodeAll (pmmlXml fmt p).1 (pmmlXml fmt p).2 = .ok p := by
  let _ := goReflect F
  exact C58_roundtrip othersDecode p h

variable [Trans F]

/-- **C106** (the program): when `main` stops at decoding, and with what answers it runs otherwise. -/
theorem C106_program (as : Attrs) (ch : List Xml) (calls : List (MapOrd × Row F)) :
    (∃ e, runAll as ch calls = .error (.decode e)) ↔
      ∃ t as' ch' s, Looked "PMML" as ch t as' ch' ∧ find t goStructs = some s ∧ Offends F s as' ch' := by
  let _ := goReflect F
  rw [← C106_fails]
  unfold runAll runFile loadFile decodeAll
  cases decodePmml (F := F) as ch with
  | error e => simp
  | ok p =>
    simp only [reduceCtorEq, exists_false, iff_false, not_exists]
    intro e
    rcases p.models with _ | ⟨m, ms⟩
    · simp
    · dsimp only
      cases (newModel p.dataDictionary m p.transformations).1 with
      | error f => simp
      | ok m =>
        dsimp only
        have : ∀ (calls : List (MapOrd × Row F)) (m : EModel F), callAll m calls ≠ .error (.decode e) := by
          intro calls
          induction calls with
          | nil => intro m h; cases h
          | cons c cs ih =>
            intro m h
            rw [callAll] at h
            cases hr : (EModel.evaluate c.1 m c.2).res with
            | error f => rw [hr] at h; cases h
            | ok out =>
              rw [hr] at h
              dsimp only at h
              cases hc : callAll (EModel.evaluate c.1 m c.2).model cs with
              | error x => rw [hc] at h; cases h; exact ih _ hc
              | ok outs => rw [hc] at h; cases h
        exact this calls m

/-- **C106** (answers): C69 without that assumption. -/
theorem C106_answers {fmt : F → String} {p : Pmml F} (hp : OkPmml fmt p) {e : ModelElem F} {es : List (ModelElem F)}
    (he : p.models = e :: es) {m : EModel F} {td' : TD F}
    (hm : newModel p.dataDictionary e p.transformations = (.ok m, td')) (calls : List (MapOrd × Row F)) :
    (∀ outs, runAll (pmmlXml fmt p).1 (pmmlXml fmt p).2 calls = .ok outs ↔
      List.Forall₂ (fun c out => (EModel.evaluate c.1 m c.2).res = .ok out) calls outs) ∧
    ∀ x, runAll (pmmlXml fmt p).1 (pmmlXml fmt p).2 calls = .error x ↔
      ∃ f before c after, x = .evaluate f ∧ calls = before ++ c :: after ∧
        (∀ b ∈ before, ∃ out, (EModel.evaluate b.1 m b.2).res = .ok out) ∧
        (EModel.evaluate c.1 m c.2).res = .error f := by
  let _ := goReflect F
  exact C69_answers othersDecode hp he hm calls

/-- **C106** (texts): C103 without that assumption. -/
theorem C106_every_document [NameTables] {fmt : F → String} {p : Pmml F} (hp : OkPmml fmt p)
    (hw : Markup.Writable false (.elem "PMML" (pmmlXml fmt p).1 (pmmlXml fmt p).2)) {e : ModelElem F}
    {es : List (ModelElem F)} (he : p.models = e :: es) {m : EModel F} {td' : TD F}
    (hm : newModel p.dataDictionary e p.transformations = (.ok m, td')) :
    ∃ s : String, ∀ (calls : List (MapOrd × Row F)) outs, (letI := goReflect F; runText s calls) = .ok outs ↔
      List.Forall₂ (fun c out => (EModel.evaluate c.1 m c.2).res = .ok out) calls outs := by
  let _ := goReflect F
  exact C103_every_document othersDecode hp hw he hm

end

/-! ## Examples -/

namespace StructsExample
open Samples Replay MainExample

/-- A dictionary with a hierarchy, statistics with a number among the children, a model that is not evaluated. -/
def fine : List Xml :=
  [.elem "DataDictionary" [("numberOfFields", " 2 ")]
    [.elem "Taxonomy" [("name", "t")]
      [.elem "ChildParent" [("childField", "c"), ("isRecursive", "yes")]
        [.elem "InlineTable" [] [.elem "row" [] [.elem "c" [] [.text "a" "a"]]]]]],
   .elem "NeuralNetwork" [("threshold", "abc")] [.elem "Neuron" [("bias", "x")] []],
   .elem "TreeModel" [("isScorable", "1")]
    [.elem "ModelStats" []
      [.elem "UnivariateStats" [("weighted", "0")]
        [.elem "NumericInfo" [("mean", "1"), ("standardDeviation", "none")]
          [.elem "standardDeviation" [] [.text "0.5" "0.5"]]]]]]

example : (∃ p : Pmml F64, decodeAll [] fine = .ok p) := by
  rw [C106_table]
  decide +kernel

/-- `standardDeviation` of `NumericInfo` is a child: as an attribute it may be anything, as a child it must be a number. -/
def bad : List Xml :=
  [.elem "TreeModel" []
    [.elem "ModelStats" [] [.elem "UnivariateStats" []
      [.elem "NumericInfo" [] [.elem "standardDeviation" [] [.text "none" "none"]]]]]]

example : ∃ e, decodeAll (F := F64) [] bad = .error e := by
  rw [C106_fails]
  refine ⟨"NumericInfo", [], _, sNumericInfo,
    .inside (s := sPMML) (by decide +kernel) (List.mem_singleton.2 rfl) (u := "TreeModel") (by decide +kernel)
      (by decide +kernel)
      (.inside (s := sTreeModel) (by decide +kernel) (List.mem_singleton.2 rfl) (u := "ModelStats") (by decide +kernel)
        (by decide +kernel)
        (.inside (s := sModelStats) (by decide +kernel) (List.mem_singleton.2 rfl) (u := "UnivariateStats")
          (by decide +kernel) (by decide +kernel)
          (.inside (s := sUnivariateStats) (by decide +kernel) (List.mem_singleton.2 rfl) (u := "NumericInfo")
            (by decide +kernel) (by decide +kernel) (.here _ _ _)))), by decide +kernel,
    .number "standardDeviation" [] [.text "none" "none"] (by simp) (by decide +kernel) ?_⟩
  rw [← readable_iff]
  decide +kernel

/-- The same in another order, with text, a further attribute and a further element. -/
def edited : List Xml :=
  [.text " " " ", .elem "TreeModel" [("x", "y")]
    [.elem "Other" [] [], .elem "ModelStats" [] [.elem "UnivariateStats" []
      [.elem "NumericInfo" [] [.elem "standardDeviation" [("z", "")] [.text "no" "no", .text "ne" "ne"]]]]]]

example : Edit sPMML bad edited :=
  .symm <| .text _ _ <| .elem (t := "TreeModel") (s' := sTreeModel) (by decide +kernel) (by decide +kernel)
    (by decide +kernel) (by decide +kernel)
    (.unlisted (by decide +kernel) rfl <| .elem (t := "ModelStats") (s' := sModelStats) (by decide +kernel)
      (by decide +kernel) (by decide +kernel) (by decide +kernel)
      (.elem (t := "UnivariateStats") (s' := sUnivariateStats) (by decide +kernel) (by decide +kernel) (by decide +kernel)
        (by decide +kernel)
        (.elem (t := "NumericInfo") (s' := sNumericInfo) (by decide +kernel) (by decide +kernel) (by decide +kernel)
          (by decide +kernel)
          (.number (by decide +kernel) (by decide +kernel) (.nil _)) (.nil _)) (.nil _)) (.nil _)) (.nil _)

end StructsExample

end Gopmml.Props
