import Verif.Proofs.Prune
import Verif.Props.Rearrange

/-!
# Property C116: what a document need not have
-/

namespace Gopmml.Props
open Gopmml Spec Structs

variable {F : Type} [Arith F] [Lib F]

/-- **C116**: a document that can be decoded is decoded to the same document when anything that does not matter
is left out, at any depth. -/
theorem C116_documents {as as' : Attrs} {ch ch' : List Xml} (ha : AttrsPruned saidAttrs as as') (h : Pruned saidNames saidAttrs ch ch') {p : Pmml F}
    (hp : decodeAll as ch = .ok p) : decodeAll as' ch' = .ok p := by
  rw [C113_content] at hp ⊢
  exact ⟨Said.reads_pruned ha h hp.1, hp.2.trans (Said.pmml_pruned ha h)⟩

/-- **C116** (at once): in particular when all of it is left out. -/
theorem C116_bare {as : Attrs} {ch : List Xml} {p : Pmml F} (hp : decodeAll as ch = .ok p) :
    decodeAll (bareAttrs saidAttrs as) (bare saidNames saidAttrs ch) = .ok p :=
  C116_documents (Said.bareAttrs_pruned saidAttrs as) (Said.bare_pruned saidNames saidAttrs ch) hp

/-- **C116** (other documents): two documents that can be decoded and are the same without what does not matter
are decoded to the same document. -/
theorem C116_same {as as' : Attrs} {ch ch' : List Xml} {p p' : Pmml F} (hp : decodeAll as ch = .ok p)
    (hp' : decodeAll as' ch' = .ok p') (ha : bareAttrs saidAttrs as = bareAttrs saidAttrs as') (h : bare saidNames saidAttrs ch = bare saidNames saidAttrs ch') : p = p' := by
  have h1 := C116_bare hp
  rw [ha, h, C116_bare hp'] at h1
  exact (Except.ok.inj h1).symm

/-- **C116** (back): leaving something out can only help: what is refused with an error afterwards was refused before. -/
theorem C116_refused {as as' : Attrs} {ch ch' : List Xml} (ha : AttrsPruned saidAttrs as as') (h : Pruned saidNames saidAttrs ch ch') {e : DecErr}
    (he : decodeAll (F := F) as' ch' = .error e) : ∃ e', decodeAll (F := F) as ch = .error e' := by
  cases h0 : decodeAll (F := F) as ch with
  | error e' => exact ⟨e', rfl⟩
  | ok p =>
    rw [C116_documents ha h h0] at he
    cases he

/-- **C116** (files): likewise for the bytes of two files. -/
theorem C116_files [NameTables] {bs bs' : List UInt8} {n n' : String} {as as' : Attrs} {ch ch' : List Xml}
    (hb : XmlBytes.readBytes bs = some (.elem n as ch)) (hb' : XmlBytes.readBytes bs' = some (.elem n' as' ch'))
    (ha : AttrsPruned saidAttrs as as') (h : Pruned saidNames saidAttrs ch ch') {p : Pmml F} (hp : BytesReadAs bs p) : BytesReadAs bs' p := by
  obtain ⟨n₁, as₁, ch₁, h1, h2⟩ := hp
  rw [hb, Option.some.injEq, Xml.elem.injEq] at h1
  rw [← h1.2.1, ← h1.2.2] at h2
  exact ⟨n', as', ch', hb', C116_documents ha h h2⟩

section
variable [Trans F]

/-- **C116** (answers): unless the document is refused, `main` ends in the same way without what does not matter:
with the same answers or the same error. -/
theorem C116_run {as as' : Attrs} {ch ch' : List Xml} (ha : AttrsPruned saidAttrs as as') (h : Pruned saidNames saidAttrs ch ch')
    (calls : List (MapOrd × Row F)) : runAll as ch calls = runAll as' ch' calls ∨
      ∃ e, runAll as ch calls = .error (.decode e) := by
  have h0 := fun p => C116_documents (F := F) ha h (p := p)
  unfold decodeAll at h0
  unfold runAll
  let _ := goReflect F
  cases h1 : decodePmml (F := F) as ch with
  | ok p =>
    have h2 : decodePmml (F := F) as' ch' = .ok p := h0 p h1
    left
    unfold runFile loadFile
    rw [h1, h2]
  | error e =>
    right
    unfold runFile loadFile
    rw [h1]
    exact ⟨e, rfl⟩

end

/-- Another layout (C62), another order (C114), or something left out. -/
def Reduced (x y : Attrs × List Xml) : Prop := Rewritten x y ∨ AttrsPruned saidAttrs x.1 y.1 ∧ Pruned saidNames saidAttrs x.2 y.2

/-- **C116** (together with C62 and C114): any number of such steps. -/
theorem C116_together {x y : Attrs × List Xml} (h : Relation.ReflTransGen Reduced x y) {p : Pmml F}
    (hp : decodeAll x.1 x.2 = .ok p) : decodeAll y.1 y.2 = .ok p := by
  induction h with
  | refl => exact hp
  | tail _ hs ih =>
    rcases hs with hs | ⟨ha, hr⟩
    · exact (C114_together (.single hs) p).1 ih
    · exact C116_documents ha hr ih

/-! ## Examples -/

namespace PruneExample

/-- A tree as it is exported: a header, an extension, an interval, statistics, unread attributes and a set. -/
def full : List Xml :=
  [.elem "Header" [("copyright", "c")] [.elem "Timestamp" [] [.text "t" "t"]],
   .elem "DataDictionary" [("numberOfFields", "1")]
     [.elem "DataField" [("name", "x"), ("optype", "continuous"), ("dataType", "double"), ("displayName", "X")]
       [.elem "Interval" [("closure", "closedOpen"), ("leftMargin", "1")] []]],
   .elem "TreeModel" [("modelName", "m"), ("functionName", "classification"), ("splitCharacteristic", "binarySplit")]
     [.elem "ModelStats" [] [], .elem "MiningSchema" [] [.elem "MiningField" [("name", "x")] [.elem "Extension" [] []]],
      .elem "Node" [("score", "a")] [.elem "Extension" [("name", "e")] [],
        .elem "True" [] [],
        .elem "Node" [("score", "b")]
          [.elem "SimpleSetPredicate" [("field", "x"), ("booleanOperator", "isIn")] [.elem "Array" [("n", "1")] [.text "1" "1"]]]]]]

/-- What is left of it. -/
def left : List Xml :=
  [.elem "DataDictionary" []
     [.elem "DataField" [("name", "x"), ("optype", "continuous"), ("dataType", "double")] []],
   .elem "TreeModel" [("functionName", "classification")]
     [.elem "MiningSchema" [] [.elem "MiningField" [("name", "x")] []],
      .elem "Node" [("score", "a")] [.elem "True" [] [],
        .elem "Node" [("score", "b")] [.elem "SimpleSetPredicate" [("field", "x"), ("booleanOperator", "isIn")] []]]]]

-- C116: it can be decoded, and so can what is left of it, to the same.
theorem bare_full : bare saidNames saidAttrs full = left := by
  simp [full, left, bare, bareItem, bareAttrs, saidNames, leafNames, saidAttrs, predicateNames, expressionNames, modelNames]

example : ∃ p : Pmml F64, decodeAll [("version", "4.4"), ("xmlns", "u")] full = .ok p ∧
    decodeAll [("version", "4.4")] left = .ok p := by
  have h : ∃ p : Pmml F64, decodeAll [("version", "4.4"), ("xmlns", "u")] full = .ok p := by
    rw [C106_table]
    decide +kernel
  obtain ⟨p, hp⟩ := h
  refine ⟨p, hp, ?_⟩
  have h2 : bareAttrs saidAttrs [("version", "4.4"), ("xmlns", "u")] = [("version", "4.4")] := by decide +kernel
  rw [← bare_full, ← h2]
  exact C116_bare hp

-- The other way round something can be refused: an element a node does not know.
example : Pruned saidNames saidAttrs [.elem "TreeModel" [] [.elem "Node" [] [.elem "Note" [] []]]] [.elem "TreeModel" [] [.elem "Node" [] []]] ∧
    (∃ e, decodeAll (F := F64) [] [.elem "TreeModel" [] [.elem "Node" [] [.elem "Note" [] []]]] = .error e) ∧
    ∃ p, decodeAll (F := F64) [] [.elem "TreeModel" [] [.elem "Node" [] []]] = .ok p := by
  refine ⟨.inside _ _ (by decide) (by decide) (.inside _ _ (by decide) (by decide) (.drop _ _ _ (by decide))), ?_, ?_⟩
  · cases h : decodeAll (F := F64) [] [.elem "TreeModel" [] [.elem "Node" [] [.elem "Note" [] []]]] with
    | error e => exact ⟨e, rfl⟩
    | ok p => exact absurd ((C106_table _ _).1 ⟨p, h⟩) (by decide +kernel)
  · rw [C106_table]
    decide +kernel

-- In a row every name is a column: there nothing can be left out.
example : (Spec.Said.record (F := F64) [.elem "Header" [] []])["Header"]? ≠ (Spec.Said.record (F := F64) [])["Header"]? := by
  rw [C113_cells, C113_cells]
  simp [named, Xml.elems]

end PruneExample

end Gopmml.Props
