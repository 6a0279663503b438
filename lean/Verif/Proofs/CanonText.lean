import Verif.Proofs.CanonDecode
import Verif.Proofs.XmlTrip
import Verif.Props.Format

/-!
# The normal form of a file: the texts of a file, the texts of numbers
-/

namespace Gopmml.XmlText

open Gopmml Spec Spec.Markup Props F64

theorem legal_append (s t : String) (hs : LegalText s) (ht : LegalText t) : LegalText (s ++ t) := by
  intro c hc
  rw [String.toList_append] at hc
  rcases List.mem_append.1 hc with hc | hc
  · exact hs c hc
  · exact ht c hc

theorem legal_empty : LegalText "" := by intro c hc; simp at hc

section
variable [NameTables]

theorem attributes_legal {s : List Char} {as : Attrs} (h : Attributes s as) : ∀ a ∈ as, LegalText a.2 := by
  induction h with
  | nil => simp
  | cons _ _ _ _ _ hq _ ih =>
    intro a ha
    rcases List.mem_cons.1 ha with rfl | ha
    · obtain ⟨q, raw, -, -, -, hl⟩ := hq
      intro c hc
      simp only [String.toList_ofList] at hc
      exact hl c hc
    · exact ih a ha

theorem content_legal {s : List Char} {xs : List Xml} (h : Content s xs) : XmlsTexts LegalText xs := by
  induction h with
  | nil => trivial
  | text ht _ _ ih =>
    refine ⟨?_, ih⟩
    intro c hc
    rw [String.toList_ofList] at hc
    exact ht.2.2.1 c hc
  | cdata ht _ ih =>
    refine ⟨?_, ih⟩
    obtain ⟨raw, -, -, hl, -⟩ := ht
    intro c hc
    rw [String.toList_ofList] at hc
    exact hl c hc
  | skipped _ _ ih => exact ⟨legal_empty, ih⟩
  | empty ht _ _ ih =>
    obtain ⟨a, b, -, -, ha, -⟩ := ht
    exact ⟨⟨attributes_legal ha, trivial⟩, ih⟩
  | pair ht _ _ _ _ ih1 ih2 =>
    obtain ⟨a, b, -, -, ha, -⟩ := ht
    exact ⟨⟨attributes_legal ha, ih1⟩, ih2⟩

theorem document_legal {s : List Char} {n : String} {as : Attrs} {ch : List Xml} (h : Document s (.elem n as ch)) :
    (∀ a ∈ as, LegalText a.2) ∧ XmlsTexts LegalText ch := by
  obtain ⟨p, e, r, pre, n', as', ch', -, -, -, h1, -⟩ := h
  have := content_legal h1
  rw [XmlsTexts, XmlTexts] at this
  exact this.1

end

/-- The characters of a number. -/
def NumChar (c : Char) : Prop := isDigit c = true ∨ c ∈ ['.', 'e', '+', '-', 'N', 'a', 'I', 'n', 'f']

theorem numChar_plain {c : Char} (h : NumChar c) : isSpace c = false ∧ Legal c := by
  rcases h with h | h
  · refine ⟨(isDigit_plain h).1, ?_⟩
    have h1 : '0' ≤ c ∧ c ≤ '9' := by
      unfold isDigit at h
      simpa using h
    have h2 : 0x30 ≤ c.toNat ∧ c.toNat ≤ 0x39 := ⟨h1.1, h1.2⟩
    unfold Legal
    refine .inr ⟨?_, ?_, ?_⟩
    · omega
    · omega
    · omega
  · have key : ∀ c ∈ ['.', 'e', '+', '-', 'N', 'a', 'I', 'n', 'f'], isSpace c = false ∧ 0x20 ≤ c.toNat ∧
        c.toNat ≠ 0xFFFE ∧ c.toNat ≠ 0xFFFF := by decide
    exact ⟨(key c h).1, .inr (key c h).2⟩

theorem digits_num {ds : List Char} {v : Nat} (h : DigitsAre ds v) : ∀ c ∈ ds, NumChar c :=
  fun _ hc => .inl (List.all_eq_true.mp (digits_iff.mp h).1 _ hc)

theorem laidOut_num {ds t : List Char} {k : Int} {v : Nat} (hd : DigitsAre ds v) (h : LaidOut ds k t) :
    (∀ c ∈ t, NumChar c) := by
  have hd := digits_num hd
  have hz : ∀ n, ∀ c ∈ zeros n, NumChar c := by
    intro n c hc
    rw [List.eq_of_mem_replicate hc]
    exact .inl (by decide)
  have hs : ∀ neg : Bool, NumChar (if neg then '-' else '+') := by
    intro neg; cases neg <;> exact .inr (by decide)
  have hdot : NumChar '.' := .inr (by decide)
  have he : NumChar 'e' := .inr (by decide)
  cases h with
  | @small z h1 h2 =>
    simp only [List.forall_mem_cons, List.forall_mem_append]
    exact ⟨.inl (by decide), hdot, hz z, hd⟩
  | @whole z h1 h2 =>
    simp only [List.forall_mem_append]
    exact ⟨hd, hz z⟩
  | @point a b h1 =>
    subst h1
    simp only [List.forall_mem_append] at hd
    simp only [List.forall_mem_cons, List.forall_mem_append]
    exact ⟨hd.1, hdot, hd.2⟩
  | @one d ee n neg h1 h2 =>
    subst h1
    simp only [List.forall_mem_cons]
    exact ⟨hd d (by simp), he, hs neg, digits_num h2⟩
  | @more d r ee n neg h1 _ h2 =>
    subst h1
    simp only [List.forall_mem_cons] at hd
    simp only [List.forall_mem_cons, List.forall_mem_append]
    exact ⟨hd.1, hdot, hd.2, he, hs neg, digits_num h2⟩

theorem written_num {p : Nat} {emin : Int} {x : F64} {s : String} (h : Written p emin x s) :
    ∀ c ∈ s.toList, NumChar c := by
  cases h with
  | nan => exact fun c hc => .inr (by revert c; decide)
  | posInf => exact fun c hc => .inr (by revert c; decide)
  | negInf => exact fun c hc => .inr (by revert c; decide)
  | negZero =>
    have : ∀ c ∈ "-0".toList, isDigit c = true ∨ c ∈ ['.', 'e', '+', '-', 'N', 'a', 'I', 'n', 'f'] := by decide
    exact this
  | zero =>
    have : ∀ c ∈ "0".toList, isDigit c = true ∨ c ∈ ['.', 'e', '+', '-', 'N', 'a', 'I', 'n', 'f'] := by decide
    exact this
  | pos _ _ hd hl =>
    rw [String.toList_ofList]
    exact laidOut_num hd.1 hl
  | neg _ _ hd hl =>
    rw [String.toList_ofList, List.forall_mem_cons]
    exact ⟨.inr (by decide), laidOut_num hd.1 hl⟩

/-- `%v` of a float64 can be put into a file and is read back. -/
theorem float_printable (x : F64) : Printable (fun x : F64 => (GoVal.f64 x).string) x := by
  have hp : Lib.parseFloat (GoVal.f64 x).string = some x := parseF64_iff.mpr (C77_roundtrip x).1
  refine ⟨fun h => ?_, trimSpace_plain fun c hc => (numChar_plain (written_num (C77_written x) c hc)).1, hp⟩
  have h : (GoVal.f64 x).string = "" := h
  rw [h] at hp
  have : (Lib.parseFloat "" : Option F64) = none := by decide +kernel
  rw [this] at hp
  cases hp

theorem float_legal (x : F64) : LegalText (GoVal.f64 x).string :=
  fun c hc => (numChar_plain (written_num (C77_written x) c hc)).2

end Gopmml.XmlText
