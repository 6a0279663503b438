import Verif.Proofs.WhyModels
import Verif.Props.Structs

/-!
# The error a document is refused with (C115)
-/

namespace Gopmml.Props

open Gopmml Structs Spec Spec.Why Gopmml.Why

section
variable {F : Type} [Arith F] [Lib F]

/-- **C115** (the first error): the error of the decoder is the first that the table of struct tags finds, in the order of
the document. -/
theorem C115_first (as : Attrs) (ch : List Xml) (e : DecErr) :
    decodeAll (F := F) as ch = .error e ↔ why F "PMML" as ch = some e := by
  let _ := goReflect F
  rw [← decodePmml_err (F := F) (fun _ _ _ => rfl) as ch]
  unfold decodeAll
  cases decodePmml (F := F) as ch with
  | error e' => exact ⟨fun h => by cases h; rfl, fun h => by cases h; rfl⟩
  | ok p => exact ⟨fun h => (nomatch h), fun h => (nomatch h)⟩

theorem childrenWhy_append (t : String) (s : GoStruct) (xs ys : List Xml) :
    childrenWhy F t s (xs ++ ys) = (childrenWhy F t s xs).or (childrenWhy F t s ys) := by
  induction xs with
  | nil => rw [childrenWhy_nil]; rfl
  | cons x xs ih => rw [List.cons_append, childrenWhy_cons, childrenWhy_cons, ih, Option.or_assoc]

theorem pmmlWhy (as : Attrs) (ch : List Xml) : why F "PMML" as ch = childrenWhy F "PMML" sPMML ch := by
  rw [why_eq (s := sPMML) (by simp [find, goStructs]) (by decide +kernel),
    noneWhy (@pmml_attrs F _ _ (goReflect F) as), Option.none_or]

/-- **C115** (later sections): what follows an error is not looked at, and sections that can be decoded do not change the
error of what follows. -/
theorem C115_later (as as' : Attrs) (pre post : List Xml) (e : DecErr) :
    (decodeAll (F := F) as pre = .error e → decodeAll (F := F) as (pre ++ post) = .error e) ∧
    ((∃ p : Pmml F, decodeAll as pre = .ok p) →
      (decodeAll (F := F) as (pre ++ post) = .error e ↔ decodeAll (F := F) as' post = .error e)) := by
  simp only [C115_first, pmmlWhy, childrenWhy_append]
  refine ⟨fun h => by rw [h]; rfl, ?_⟩
  rintro ⟨p, hp⟩
  have : childrenWhy F "PMML" sPMML pre = none := by
    rw [← pmmlWhy as]
    cases hw : why F "PMML" as pre with
    | none => rfl
    | some e' => rw [← C115_first, hp] at hw; cases hw
  rw [this, Option.none_or]

theorem strict_numbers {t : String} {s : GoStruct} (hs : find t goStructs = some s) (hst : s.strict = true) {n : String} :
    find n s.fields ≠ some "float64" := by
  have h : goStructs.all (fun x => !x.2.strict || x.2.fields.all fun f => f.2 != "float64") = true := by decide +kernel
  intro hf
  obtain ⟨m, hm⟩ := find_mem hs
  obtain ⟨k, hk⟩ := find_mem hf
  have := List.all_eq_true.1 h _ hm
  rw [hst, Bool.not_true, Bool.false_or, List.all_eq_true] at this
  have := this _ hk
  simp at this

/-- An error is found at the element itself, or at one that is met below it. -/
def Found (F : Type) [Arith F] [Lib F] (e : DecErr) (t : String) (cs : List Xml) : Prop :=
  (∀ as, Says F e t as cs) ∨ ∃ u as ch, Met t cs u as ch ∧ Says F e u as ch

theorem attr_says {u : String} {s : GoStruct} (hs : find u goStructs = some s) {as : Attrs} (ch : List Xml) {e : DecErr}
    (h : as.findSome? (attrWhy F s) = some e) : Says F e u as ch := by
  obtain ⟨⟨k, v⟩, hm, hw⟩ := List.exists_of_findSome?_eq_some h
  rw [attrWhy] at hw
  split_ifs at hw with hr
  cases hw
  rw [attrReads] at hr
  cases hf : find k s.attrs with
  | none => rw [hf] at hr; exact (hr rfl).elim
  | some kind =>
    rw [hf] at hr
    exact .attrText hs hm hf fun h => hr ((readable_iff kind v).2 h)

theorem inside_says {u : String} (hu : u ∈ unnamed) {as : Attrs} {ch : List Xml} (h : ¬ reads F u as ch = true) :
    Says F (.other u) u as ch := by
  rw [reads_iff_clean, Clean] at h
  simp only [not_forall, not_not, exists_prop] at h
  obtain ⟨v, as', ch', s, hl, hs, ho⟩ := h
  exact .inside hu hl hs ho

mutual
theorem child_found {t : String} {s : GoStruct} (hs : find t goStructs = some s) (ht : t ∉ unnamed) {e : DecErr} :
    (x : Xml) → childWhy F t s x = some e → ∀ cs, x ∈ cs → Found F e t cs
  | .text _ _, h => by rw [childWhy_text] at h; cases h
  | .elem n as ch, h => by
    intro cs hx
    rw [childWhy_elem] at h
    cases hf : find n s.fields with
    | none =>
      rw [hf] at h
      dsimp only at h
      split_ifs at h with hst
      cases hc : childrenWhy F t s ch with
      | none =>
        rw [hc, Option.none_or] at h
        cases h
        exact .inl fun as0 => .unknown hs hx hf hst
      | some e' =>
        rw [hc, Option.some_or] at h
        cases h
        rcases children_found hs ht ch hc ch (fun _ h => h) with h0 | ⟨u, as', ch', hm, hsay⟩
        · cases h0 [] with
          | attrText _ hm => simp at hm
          | number hs' hm hf' => exact (strict_numbers hs' (by rw [hs] at hs'; cases hs'; exact hst) hf').elim
          | unknown => exact .inl fun as0 => .unknown hs hx hf hst
          | inside hu => exact (ht hu).elim
        · exact .inr ⟨u, as', ch', .through hs hx hf hst hm, hsay⟩
    | some u =>
      rw [hf] at h
      dsimp only at h
      by_cases hu : u = "float64"
      · subst hu
        rw [if_pos rfl] at h
        split_ifs at h with hr
        cases h
        exact .inl fun as0 => .number hs hx hf fun h => hr ((readable_iff _ _).2 h)
      · rw [if_neg hu, why] at h
        by_cases hn : u ∈ unnamed
        · rw [if_pos hn] at h
          split_ifs at h with hr
          cases h
          exact .inr ⟨u, as, ch, .child hs hx hf, inside_says hn hr⟩
        · rw [if_neg hn] at h
          cases hs' : find u goStructs with
          | none => rw [hs'] at h; cases h
          | some s' =>
            rw [hs'] at h
            dsimp only at h
            cases ha : as.findSome? (attrWhy F s') with
            | some e' =>
              rw [ha, Option.some_or] at h
              cases h
              exact .inr ⟨u, as, ch, .child hs hx hf, attr_says hs' ch ha⟩
            | none =>
              rw [ha, Option.none_or] at h
              rcases children_found hs' hn ch h ch (fun _ h => h) with h0 | ⟨v, as', ch', hm, hsay⟩
              · exact .inr ⟨u, as, ch, .child hs hx hf, h0 as⟩
              · exact .inr ⟨v, as', ch', .inside hs hx hf hm, hsay⟩
theorem children_found {t : String} {s : GoStruct} (hs : find t goStructs = some s) (ht : t ∉ unnamed) {e : DecErr} :
    (xs : List Xml) → childrenWhy F t s xs = some e → ∀ cs, (∀ x ∈ xs, x ∈ cs) → Found F e t cs
  | [], h => by rw [childrenWhy_nil] at h; cases h
  | x :: xs, h => by
    intro cs hx
    rw [childrenWhy_cons] at h
    cases hc : childWhy F t s x with
    | some e' =>
      rw [hc, Option.some_or] at h
      cases h
      exact child_found hs ht x hc cs (hx x List.mem_cons_self)
    | none =>
      rw [hc, Option.none_or] at h
      exact children_found hs ht xs h cs fun y hy => hx y (List.mem_cons_of_mem _ hy)
end

/-- **C115** (what an error says): at an element of the document the error says what is wrong. -/
theorem C115_says (as : Attrs) (ch : List Xml) (e : DecErr) (h : decodeAll (F := F) as ch = .error e) :
    ∃ u as' ch', Place "PMML" as ch u as' ch' ∧ Says F e u as' ch' := by
  rw [C115_first, pmmlWhy] at h
  rcases children_found (s := sPMML) (by simp [find, goStructs]) (by decide +kernel) ch h ch (fun _ h => h) with
    h0 | ⟨u, as', ch', hm, hsay⟩
  · exact ⟨"PMML", as, ch, .inl ⟨rfl, rfl, rfl⟩, h0 as⟩
  · exact ⟨u, as', ch', .inr hm, hsay⟩

/-! ## Edits -/

theorem known_all (s : GoStruct) (as : Attrs) : as.all (attrReads F s) = (known s as).all (attrReads F s) := by
  rw [Bool.eq_iff_iff, List.all_eq_true, List.all_eq_true]
  constructor
  · exact fun h a ha => h a (List.mem_of_mem_filter ha)
  · intro h a ha
    by_cases hk : (find a.1 s.attrs).isSome
    · exact h a (List.mem_filter.2 ⟨ha, hk⟩)
    · rw [attrReads]
      cases hf : find a.1 s.attrs with
      | none => rfl
      | some k => rw [hf] at hk; exact (hk rfl).elim

theorem childrenRead_edit {s : GoStruct} {xs ys : List Xml} (h : Edit s xs ys) :
    childrenRead F s xs = childrenRead F s ys := by
  induction h with
  | nil => rfl
  | text raw val _ ih => rw [childrenRead_cons, childReads_text, Bool.true_and, ih]
  | elem hn hf ht ha _ _ ihc ih =>
    rw [childrenRead_cons, childrenRead_cons, childReads_elem, childReads_elem, hn, ih]
    dsimp only
    rw [if_neg hf, if_neg hf, reads_eq ht, reads_eq ht, ihc, known_all, ha.all_eq, ← known_all]
  | number hn hc _ ih =>
    rw [childrenRead_cons, childrenRead_cons, childReads_elem, childReads_elem, hn, ih]
    dsimp only
    rw [if_pos rfl, if_pos rfl, hc]
  | unlisted hn hs _ ih =>
    rw [childrenRead_cons, childReads_elem, hn, ih]
    dsimp only
    rw [hs]
    rfl
  | swap s x y xs => simp only [childrenRead_cons, Bool.and_left_comm]
  | symm _ ih => exact ih.symm
  | trans _ _ ih ih' => exact ih.trans ih'

theorem known_why (s : GoStruct) (as : Attrs) :
    as.findSome? (attrWhy F s) = (known s as).findSome? (attrWhy F s) := by
  induction as with
  | nil => rfl
  | cons a as ih =>
    rw [List.findSome?_cons, known, List.filter_cons, ← known]
    by_cases hk : (find a.1 s.attrs).isSome
    · rw [if_pos hk, List.findSome?_cons, ih]
    · have : attrWhy F s a = none := by
        rw [attrWhy, attrReads]
        cases hf : find a.1 s.attrs with
        | none => rfl
        | some k => rw [hf] at hk; exact (hk rfl).elim
      rw [if_neg hk, this, ih]

theorem childrenWhy_edit {t : String} {s : GoStruct} {xs ys : List Xml} (h : SameError t s xs ys) :
    childrenWhy F t s xs = childrenWhy F t s ys := by
  induction h with
  | nil => rfl
  | text raw val _ ih => rw [childrenWhy_cons, childWhy_text, Option.none_or, ih]
  | elem hn hf hu hs ha _ _ ihc ih =>
    rw [childrenWhy_cons, childrenWhy_cons, childWhy_elem, childWhy_elem, hn, ih]
    dsimp only
    rw [if_neg hf, if_neg hf, why_eq hs hu, why_eq hs hu, ihc, known_why, ha, ← known_why]
  | number hn hc _ ih =>
    rw [childrenWhy_cons, childrenWhy_cons, childWhy_elem, childWhy_elem, hn, ih]
    dsimp only
    rw [if_pos rfl, if_pos rfl, hc]
  | unnamed hn hf hu hs ha hc _ ih =>
    rw [childrenWhy_cons, childrenWhy_cons, childWhy_elem, childWhy_elem, hn, ih]
    dsimp only
    rw [if_neg hf, if_neg hf, why_unnamed hu, why_unnamed hu, reads_eq hs, reads_eq hs, childrenRead_edit hc, known_all,
      ha.all_eq, ← known_all]
  | unlisted hn hst _ ih =>
    rw [childrenWhy_cons, childWhy_elem, hn, ih]
    dsimp only
    rw [hst]
    rfl
  | unknown hn hm hst _ ihc =>
    rw [childrenWhy_cons, childrenWhy_cons, childWhy_elem, childWhy_elem, hn, hm, ihc]
    dsimp only
    rw [if_pos hst, Option.or_assoc, Option.or_assoc, Option.some_or, Option.some_or]
  | symm _ ih => exact ih.symm
  | trans _ _ ih ih' => exact ih.trans ih'

/-- **C115** (what the error does not depend on): text, what has no field, and what follows an unknown element. -/
theorem C115_edits (as as' : Attrs) {ch ch' : List Xml} (h : SameError "PMML" sPMML ch ch') (e : DecErr) :
    decodeAll (F := F) as ch = .error e ↔ decodeAll (F := F) as' ch' = .error e := by
  rw [C115_first, C115_first, pmmlWhy, pmmlWhy, childrenWhy_edit h]

/-- **C115** (hierarchies): the same of the decoder of hierarchies, which names what is wrong. -/
theorem C115_hierarchies (as : Attrs) (ch : List Xml) (e : DecErr) :
    decodeChildParent (F := F) as ch = .error e ↔ why F "ChildParent" as ch = some e := by
  rw [← decodeChildParent_err]
  cases decodeChildParent (F := F) as ch with
  | error e' => exact ⟨fun h => by cases h; rfl, fun h => by cases h; rfl⟩
  | ok p => exact ⟨fun h => (nomatch h), fun h => (nomatch h)⟩

variable [Trans F]

/-- **C115** (the program): `main` stops with a decoding error exactly if it is the first in the document. -/
theorem C115_program (as : Attrs) (ch : List Xml) (calls : List (MapOrd × Row F)) (e : DecErr) :
    runAll as ch calls = .error (.decode e) ↔ why F "PMML" as ch = some e := by
  have h := C106_program (F := F) as ch calls
  rw [← C106_fails] at h
  rw [← C115_first]
  let _ := goReflect F
  have key : ∀ e', decodeAll (F := F) as ch = .error e' → runAll as ch calls = .error (.decode e') := by
    intro e' he
    unfold decodeAll at he
    unfold runAll runFile loadFile
    rw [he]
  refine ⟨fun hr => ?_, key e⟩
  obtain ⟨e', he⟩ := h.1 ⟨e, hr⟩
  rw [key e' he] at hr
  cases hr
  exact he

end

/-! ## Examples -/

namespace WhyExample
open Samples Replay MainExample

/-- Three things are wrong: an attribute of a node, before it something inside an unknown element, and a section after
both. -/
def wrong : List Xml :=
  [.elem "TreeModel" [("isScorable", "true")]
    [.elem "Node" [("id", "a")]
      [.elem "Note" [("recordCount", "y")] [.elem "ScoreDistribution" [("value", "x"), ("recordCount", "many")] []],
       .elem "Node" [("recordCount", "none")] []]],
   .elem "DataDictionary" [("numberOfFields", "two")] []]

/-- The element with the attribute is met inside the element `Node` does not know. -/
example : decodeAll (F := F64) [] wrong = .error (.syntax "many") := by
  rw [C115_first]
  decide +kernel

example : ∃ as ch, Place "PMML" [] wrong "ScoreDistribution" as ch ∧ Says F64 (.syntax "many") "ScoreDistribution" as ch :=
  ⟨_, [], .inr (.inside (s := sPMML) (by decide +kernel) (List.mem_cons_self) (u := "TreeModel") (by decide +kernel)
      (.inside (s := sTreeModel) (by decide +kernel) (List.mem_singleton.2 rfl) (u := "Node") (by decide +kernel)
        (.through (s := sNode) (by decide +kernel) List.mem_cons_self (by decide +kernel) rfl
          (.child (s := sNode) (by decide +kernel) (List.mem_singleton.2 rfl) (by decide +kernel))))),
    .attrText (s := sScoreDistribution) (k := "recordCount") (kind := .float64) (by decide +kernel) (by simp)
      (by decide +kernel) (by rw [← readable_iff]; decide +kernel)⟩

/-- Without it the unknown element itself is the error, though the attribute of the next node is wrong as well. -/
def unknownOnly : List Xml :=
  [.elem "TreeModel" [] [.elem "Node" [] [.elem "Note" [] [], .elem "Node" [("recordCount", "none")] []]]]

example : decodeAll (F := F64) [] unknownOnly = .error (.leftover "Node") := by
  rw [C115_first]
  decide +kernel

/-- The unknown element has another name and an attribute, and nothing else is wrong. -/
example : SameError "PMML" sPMML unknownOnly
    [.text " " " ", .elem "TreeModel" [] [.elem "Remark" [] [],
      .elem "Node" [("x", "y")] [.elem "Remark" [("a", "b")] []]]] :=
  .symm <| .text _ _ <| .elem (u := "TreeModel") (s' := sTreeModel) (by decide +kernel) (by decide +kernel)
    (by decide +kernel) (by decide +kernel) rfl
    (.unlisted (by decide +kernel) rfl <|
      .elem (u := "Node") (s' := sNode) (by decide +kernel) (by decide +kernel) (by decide +kernel) (by decide +kernel)
        (by decide +kernel) (.unknown (by decide +kernel) (by decide +kernel) rfl (.nil _ _)) (.nil _ _)) (.nil _ _)

example : decodeChildParent (F := F64) [("isRecursive", "maybe")] [.elem "Unheard" [] []] = .error (.syntax "maybe") := by
  rw [C115_hierarchies]
  decide +kernel

/-- Attributes come before children, sections in their order. -/
example : decodeAll (F := F64) []
    [.elem "DataDictionary" [("numberOfFields", "two")] [.elem "DataField" [("isCyclic", "maybe")] []],
     .elem "Unheard" [] []] = .error (.syntax "two") := by
  rw [C115_first]
  decide +kernel

/-- Nothing looks at statistics. -/
example : decodeAll (F := F64) [] StructsExample.bad = .error (.other "ModelStats") := by
  rw [C115_first]
  decide +kernel

end WhyExample

end Gopmml.Props
