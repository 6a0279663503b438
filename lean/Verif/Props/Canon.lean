import Verif.Proofs.Canon
import Verif.Proofs.CanonText
import Verif.Props.Structs

/-!
# The normal form of a file (C109)
-/

namespace Gopmml.Props

open Gopmml Structs Spec XmlText

section
variable {F : Type} [Arith F] [Lib F] {fmt : F → String}

/-- **C109** (documents): the documents that are decoded from some element are those with the ids of known words,
predicates without a parsed value, cells of text and exponents of 64 bits; nothing else comes out of the decoder. -/
theorem C109_decoded (hf : ∀ x, Printable fmt x) (p : Pmml F) :
    (∃ as ch, decodeAll as ch = .ok p) ↔ OkPmml fmt p := by
  constructor
  · rintro ⟨as, ch, h⟩
    let _ := goReflect F
    have hx : ∀ xs, XmlsTexts (fun _ => True) xs := by
      have : ∀ x, XmlTexts (fun _ => True) x := by
        apply Xml.rec (motive_1 := fun x => XmlTexts (fun _ => True) x) (motive_2 := fun xs => XmlsTexts (fun _ => True) xs)
        · intro _ _; rw [XmlTexts]; trivial
        · intro _ _ _ h; rw [XmlTexts]; exact ⟨fun _ _ => trivial, h⟩
        · rw [XmlsTexts]; trivial
        · intro _ _ h1 h2; rw [XmlsTexts]; exact ⟨h1, h2⟩
      intro xs
      induction xs with
      | nil => rw [XmlsTexts]; trivial
      | cons x xs ih => rw [XmlsTexts]; exact ⟨this x, ih⟩
    exact (decodePmml_good (T := fun _ => True) trivial (fun _ _ _ _ => trivial) hf (fun _ _ => trivial) (hx ch) h).1
  · exact fun h => ⟨_, _, C106_roundtrip p h⟩

variable [NameTables]

theorem readAs_good (hf : ∀ x, Printable fmt x) {s : String} {p : Pmml F} (h : ReadAs s p) :
    OkPmml fmt p ∧ PmmlTexts LegalText p := by
  obtain ⟨n, as, ch, h1, h2⟩ := h
  let _ := goReflect F
  have := document_legal h1
  exact decodePmml_good legal_empty legal_append hf this.1 this.2 h2

/-- **C109** (written): the text written for a document is read as that document. -/
theorem C109_written (hl : ∀ x, LegalText (fmt x)) {p : Pmml F} (hp : OkPmml fmt p) (ht : PmmlTexts LegalText p)
    (hn : Tidy p) : ReadAs (canonical fmt p) p := by
  obtain ⟨ch', h1, h2, h3⟩ := C103_written (pmml_writable hl p hp hn ht) (by decide)
  refine ⟨"PMML", _, ch', by simpa [canonical] using h1, ?_⟩
  let _ := goReflect F
  exact (C62_layout h2 h3 p).1 (C106_roundtrip p hp)

/-- **C109** (files): which documents have a file. -/
theorem C109_files (hf : ∀ x, Printable fmt x) (hl : ∀ x, LegalText (fmt x)) {p : Pmml F} (hn : Tidy p) :
    (∃ s, ReadAs s p) ↔ OkPmml fmt p ∧ PmmlTexts LegalText p :=
  ⟨fun ⟨_, h⟩ => readAs_good hf h, fun h => ⟨_, C109_written hl h.1 h.2 hn⟩⟩

/-- **C109** (one document): a file is read as one document only. -/
theorem C109_one {s : String} {p q : Pmml F} (hp : ReadAs s p) (hq : ReadAs s q) : p = q := by
  obtain ⟨n, as, ch, h1, h2⟩ := hp
  obtain ⟨n', as', ch', h3, h4⟩ := hq
  have := C103_unambiguous h1 h3
  injection this with h5 h6 h7
  subst h6 h7
  rw [h2] at h4
  exact Except.ok.inj h4

theorem readAs_run [Trans F] {s t : String} {p : Pmml F} (hs : ReadAs s p) (ht : ReadAs t p)
    (calls : List (MapOrd × Row F)) :
    (letI := goReflect F; runText s calls) = (letI := goReflect F; runText t calls) := by
  obtain ⟨n, as, ch, h1, h2⟩ := hs
  obtain ⟨n', as', ch', h3, h4⟩ := ht
  let _ := goReflect F
  rw [C103_run h1, C103_run h3]
  unfold runFile loadFile
  unfold decodeAll at h2 h4
  rw [h2, h4]

/-- **C109** (normal form): a file and the text written for its document are read as the same document, and
`main` ends on both in the same way for all rows, the errors included. -/
theorem C109_canonical [Trans F] (hf : ∀ x, Printable fmt x) (hl : ∀ x, LegalText (fmt x)) {s : String} {p : Pmml F}
    (h : ReadAs s p) (hn : Tidy p) :
    ReadAs (canonical fmt p) p ∧ ∀ calls : List (MapOrd × Row F),
      (letI := goReflect F; runText s calls) = (letI := goReflect F; runText (canonical fmt p) calls) := by
  have hg := readAs_good hf h
  have hc := C109_written hl hg.1 hg.2 hn
  exact ⟨hc, fun calls => readAs_run h hc calls⟩

/-- **C109** (same file): two files have the same normal form exactly if they are read as the same document. -/
theorem C109_same (hf : ∀ x, Printable fmt x) (hl : ∀ x, LegalText (fmt x)) {s t : String} {p q : Pmml F}
    (hs : ReadAs s p) (ht : ReadAs t q) (hp : Tidy p) (hq : Tidy q) : canonical fmt p = canonical fmt q ↔ p = q := by
  refine ⟨fun h => ?_, fun h => h ▸ rfl⟩
  have h1 := readAs_good hf hs
  have h2 := readAs_good hf ht
  have h3 := C109_written hl h1.1 h1.2 hp
  rw [h] at h3
  exact C109_one h3 (C109_written hl h2.1 h2.2 hq)

end

/-- **C109** (numbers): `%v` writes every float64 so that it can stand in a file and is read back. -/
theorem C109_numbers (x : F64) : Printable goFmt x ∧ LegalText (goFmt x) :=
  ⟨float_printable x, float_legal x⟩

/-- **C109** (float64): the normal form with numbers as `%v` writes them. -/
theorem C109_float64 [NameTables] [Trans F64] {s : String} {p : Pmml F64} (h : ReadAs s p) (hn : Tidy p) :
    (∀ q, ReadAs (canonical goFmt p) q ↔ q = p) ∧ ∀ calls : List (MapOrd × Row F64),
      (letI := goReflect F64; runText s calls) = (letI := goReflect F64; runText (canonical goFmt p) calls) := by
  obtain ⟨h1, h2⟩ := C109_canonical (fun x => (C109_numbers x).1) (fun x => (C109_numbers x).2) h hn
  exact ⟨fun q => ⟨fun hq => C109_one hq h1, fun hq => by rw [hq]; exact h1⟩, h2⟩

/-! ## Examples -/

namespace CanonExample
open Samples Replay

local instance : NameTables := ⟨fun _ => false, fun _ => false⟩

/-- A file. -/
def airyText : String :=
"<P  version='4.2'>
<TreeModel functionName='regression'><Node recordCount='1.50' score = '&#x37;'><True/></Node><b/></TreeModel></P>"

/-- Its normal form. -/
def tightText : String :=
  "<PMML version=\"4.2\"><Header></Header><DataDictionary></DataDictionary>" ++
  "<TransformationDictionary></TransformationDictionary>" ++
  "<TreeModel functionName=\"regression\" missingValuePenalty=\"0\" missingValueStrategy=\"\" noTrueChildStrategy=\"\">" ++
  "<MiningSchema></MiningSchema><LocalTransformations></LocalTransformations>" ++
  "<Node id=\"\" score=\"7\" recordCount=\"1.5\" defaultChild=\"\"><True></True></Node></TreeModel></PMML>"

/-- A document with nothing but a tree without transformations and verification. -/
def onlyTree (p : Pmml F64) : Bool :=
  match p.transformations, p.models with
  | [], [.tree d] => d.localTransformations.isEmpty && d.verification.isNone
  | _, _ => false

theorem onlyTree_tidy {p : Pmml F64} (h : onlyTree p = true) : Tidy p := by
  unfold onlyTree at h
  split at h
  · rename_i d h1 h2
    simp only [Bool.and_eq_true, List.isEmpty_iff, Option.isNone_iff_eq_none] at h
    unfold Tidy PmmlNames
    rw [h1, h2]
    simp [ModelsNames, ModelNames, h.1, h.2]
  · cases h

def readBack (s : String) (f : Pmml F64 → Bool) : Bool :=
  match readXml s.toList with
  | some (.elem _ as ch) => (match decodeAll as ch with | .ok p => f p | .error _ => false)
  | _ => false

theorem readBack_sound {s : String} {f : Pmml F64 → Bool} (h : readBack s f = true) : ∃ p, ReadAs s p ∧ f p = true := by
  unfold readBack at h
  split at h
  · rename_i n as ch h1
    split at h
    · rename_i p h2
      exact ⟨p, ⟨n, as, ch, (C103_reads_exactly _ _).1 h1, h2⟩, h⟩
    · cases h
  · cases h

/-- The hypotheses of `C109_float64`, and what is written. -/
example : ∃ p : Pmml F64, ReadAs airyText p ∧ Tidy p ∧ canonical goFmt p = tightText := by
  obtain ⟨p, h1, h2⟩ := readBack_sound (s := airyText) (f := fun p => onlyTree p && decide (canonical goFmt p = tightText))
    (by decide +kernel)
  rw [Bool.and_eq_true] at h2
  exact ⟨p, h1, onlyTree_tidy h2.1, of_decide_eq_true h2.2⟩

end CanonExample

end Gopmml.Props
