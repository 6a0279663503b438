import Verif.Proofs.Rearrange
import Verif.Props.Layout
import Mathlib.Logic.Relation

/-!
# Property C114: a document in another order
-/

namespace Gopmml.Props
open Gopmml Spec Structs

variable {F : Type} [Arith F] [Lib F]

/-- **C114**: a document with items of different kinds in another order, at any depth, is decoded to the
same document, or neither is. -/
theorem C114_documents {as as' : Attrs} {ch ch' : List Xml} (ha : AttrsReordered as as') (h : Rearranged ch ch')
    (p : Pmml F) : decodeAll as ch = .ok p ↔ decodeAll as' ch' = .ok p := by
  rw [C113_content, C113_content, Said.reads_rearranged ha h, Said.pmml_rearranged ha h]

/-- **C114** (files): likewise for the bytes of two files. -/
theorem C114_files [NameTables] {bs bs' : List UInt8} {n n' : String} {as as' : Attrs} {ch ch' : List Xml}
    (hb : XmlBytes.readBytes bs = some (.elem n as ch)) (hb' : XmlBytes.readBytes bs' = some (.elem n' as' ch'))
    (ha : AttrsReordered as as') (h : Rearranged ch ch') (p : Pmml F) : BytesReadAs bs p ↔ BytesReadAs bs' p := by
  have key : ∀ {bs : List UInt8} {n : String} {as : Attrs} {ch : List Xml}, XmlBytes.readBytes bs = some (.elem n as ch) →
      (BytesReadAs bs p ↔ decodeAll as ch = .ok p) := by
    intro bs n as ch hb
    unfold BytesReadAs
    constructor
    · rintro ⟨n', as', ch', h1, h2⟩
      rw [hb, Option.some.injEq, Xml.elem.injEq] at h1
      rwa [h1.2.1, h1.2.2]
    · exact fun h => ⟨n, as, ch, hb, h⟩
  rw [key hb, key hb', C114_documents ha h]

section
variable [Trans F]

/-- **C114** (answers): `main` ends in the same way on both, with the same answers or the same error, unless
neither can be decoded. -/
theorem C114_run {as as' : Attrs} {ch ch' : List Xml} (ha : AttrsReordered as as') (h : Rearranged ch ch')
    (calls : List (MapOrd × Row F)) : runAll as ch calls = runAll as' ch' calls ∨
      (∃ e, runAll as ch calls = .error (.decode e)) ∧ ∃ e, runAll as' ch' calls = .error (.decode e) := by
  have h0 := C114_documents (F := F) ha h
  unfold decodeAll at h0
  unfold runAll
  let _ := goReflect F
  cases h1 : decodePmml (F := F) as ch with
  | ok p =>
    have h2 : decodePmml (F := F) as' ch' = .ok p := (h0 p).1 h1
    left
    unfold runFile loadFile
    rw [h1, h2]
  | error e =>
    cases h2 : decodePmml (F := F) as' ch' with
    | ok p =>
      have h3 : decodePmml (F := F) as ch = .ok p := (h0 p).2 h2
      rw [h3] at h1
      cases h1
    | error e' =>
      right
      unfold runFile loadFile
      rw [h1, h2]
      exact ⟨⟨e, rfl⟩, e', rfl⟩

end

/-- Another layout (C62) or another order of a `PMML` element. -/
def Rewritten (x y : Attrs × List Xml) : Prop :=
  SameAttrs x.1 y.1 ∧ Relay false x.2 y.2 ∨ AttrsReordered x.1 y.1 ∧ Rearranged x.2 y.2

/-- **C114** (together with C62): the order of items and the layout may be changed any number of times. -/
theorem C114_together {x y : Attrs × List Xml} (h : Relation.ReflTransGen Rewritten x y) (p : Pmml F) :
    decodeAll x.1 x.2 = .ok p ↔ decodeAll y.1 y.2 = .ok p := by
  induction h with
  | refl => exact Iff.rfl
  | tail _ hs ih =>
    rw [ih]
    rcases hs with ⟨ha, hr⟩ | ⟨ha, hr⟩
    · let _ := goReflect F
      exact C62_layout ha hr p
    · exact C114_documents ha hr p

/-! ## Examples -/

namespace RearrangeExample
open SaidExample

/-- A leaf: its distribution before its predicate or behind it. -/
def leaf (first : Bool) : Xml :=
  if first then .elem "Node" [("id", "1"), ("score", "a")] [.elem "ScoreDistribution" [("value", "a")] [], .elem "True" [] []]
  else .elem "Node" [("score", "a"), ("id", "1")] [.elem "True" [] [], .elem "ScoreDistribution" [("value", "a")] []]

def doc (first : Bool) : List Xml :=
  if first then [.elem "TreeModel" [] [.elem "Node" [] [leaf true, .text " " " ", .elem "True" [] []],
      .elem "MiningSchema" [] [.elem "MiningField" [("name", "x")] []]], .elem "DataDictionary" [] []]
  else [.elem "DataDictionary" [] [], .elem "TreeModel" []
      [.elem "MiningSchema" [] [.elem "MiningField" [("name", "x")] []],
        .elem "Node" [] [.elem "True" [] [], leaf false, .text " " " "]]]

theorem leaf_reordered (cs : List Xml) : Rearranged (leaf true :: cs) (leaf false :: cs) := by
  refine .trans (.attrs "Node" (as' := [("score", "a"), ("id", "1")]) _ _ ⟨.swap _ _ _, fun k => ?_⟩)
    (.inside _ _ (by decide) (.swap _ (by decide)))
  by_cases h1 : "id" = k
  · subst h1; decide
  · by_cases h2 : "score" = k
    · subst h2; decide
    · rw [List.filter_cons_of_neg (by simpa using h1), List.filter_cons_of_neg (by simpa using h2),
        List.filter_cons_of_neg (by simpa using h2), List.filter_cons_of_neg (by simpa using h1)]

-- C114: both are decoded, to the same document.
example : Rearranged (doc true) (doc false) := by
  refine .trans (.swap _ (by decide)) (.skip _ ?_)
  refine .inside _ _ (by decide) (.trans (.swap _ (by decide)) (.skip _ ?_))
  refine .inside _ _ (by decide) ?_
  refine .trans (leaf_reordered _) ?_
  exact .trans (.skip _ (.swap _ (by decide))) (.swap _ (by decide))

example : ∃ p : Pmml F64, decodeAll [] (doc true) = .ok p := by
  rw [C106_table]
  decide +kernel

-- Items of one kind cannot be exchanged: of two predicates the last counts, whatever they are called.
example : (Spec.Said.root (F := F64) [.elem "Node" [] [.elem "True" [] [], .elem "False" [] []]]).pred = some .false_ ∧
    (Spec.Said.root (F := F64) [.elem "Node" [] [.elem "False" [] [], .elem "True" [] []]]).pred = some .true_ :=
  ⟨rfl, rfl⟩

-- Nor can the inside of a constant be changed: its value is its source.
example : Spec.Said.exprs (F := F64) [.elem "Constant" [] [.text "1" "1", .elem "x" [] []]] ≠
    Spec.Said.exprs [.elem "Constant" [] [.elem "x" [] [], .text "1" "1"]] := by
  simp only [Spec.Said.exprs, Spec.Said.exprOf, String.reduceEq, if_false, if_true, List.append_nil, ne_eq, List.cons.injEq,
    and_true, Expr.const.injEq, not_and]
  intro _
  decide

end RearrangeExample

end Gopmml.Props
