import Verif.Proofs.Bytes
import Verif.Props.Canon

/-!
# C110: the bytes of a file
-/

namespace Gopmml.Props

open Gopmml Structs Spec Spec.Markup XmlText XmlBytes

/-- **C110** (UTF-8): `utf8.DecodeRune` gives back every text from its bytes, whatever bytes follow. -/
theorem C110_utf8 (s : List Char) : decodeBytes (utf8 s) = s := by
  have := runes_utf8 s []
  simp only [List.append_nil, List.length_nil, runes] at this
  unfold decodeBytes
  rw [this, List.map_map]
  exact List.map_id _

/-- **C110** (UTF-8): the library objects to no byte exactly if the bytes are those of a text, and
then of one text only. -/
theorem C110_wellFormed (bs : List UInt8) :
    none ∉ runes bs.length bs ↔ ∃ s, bs = utf8 s ∧ ∀ t, bs = utf8 t → t = s := by
  rw [runes_wellFormed]
  refine ⟨fun ⟨s, h⟩ => ⟨s, h, fun t ht => ?_⟩, fun ⟨s, h, _⟩ => ⟨s, h⟩⟩
  rw [← C110_utf8 t, ← C110_utf8 s, ← ht, ← h]

section
variable [NameTables]

/-- **C110** (reading): the bytes of a text are read as an element exactly if the text stands for it. -/
theorem C110_reads (s : List Char) (x : Xml) : readBytes (utf8 s) = some x ↔ Document s x := by
  unfold readBytes
  rw [C110_utf8]
  exact readXml_iff

theorem document_split {s : List Char} {x : Xml} (h : Document s x) :
    ∃ e rest, s = e ++ rest ∧ (∃ l, e = l ++ ['>']) ∧ (∀ rest', Document (e ++ rest') x) ∧
      ∀ i c, e[i]? = some c → Foreign c → InSkipped e i := by
  obtain ⟨p, e, rest, pre, n, as, ch, rfl, h1, h2, h3, h4⟩ := h
  obtain ⟨l, hl⟩ := content_end h3 (by rw [h4]; rfl)
  refine ⟨p ++ e, rest, rfl, ⟨p ++ l, by rw [hl]; simp⟩,
    fun rest' => ⟨p, e, rest', pre, n, as, ch, rfl, h1, h2, h3, h4⟩, fun i c hi hc => ?_⟩
  have hf : ¬ Fine c := fun h => h.elim hc.1 hc.2
  rcases at_append hi with hi | ⟨hl, hi⟩
  · exact (content_foreign h1 hi hf).right _
  · exact .left hl (content_foreign h3 hi hf)

/-- **C110** (foreign characters): up to the end of the first element, which is as far as a file is
read, characters that are not allowed stand only in comments, instructions and directives. -/
theorem C110_foreign {s : List Char} {x : Xml} (h : readXml s = some x) :
    ∃ e rest, s = e ++ rest ∧ (∀ rest', readXml (e ++ rest') = some x) ∧
      ∀ i c, e[i]? = some c → Foreign c → InSkipped e i := by
  obtain ⟨e, rest, h1, -, h2, h3⟩ := document_split (readXml_iff.1 h)
  exact ⟨e, rest, h1, fun r => readXml_iff.2 (h2 r), h3⟩

omit [NameTables] in
theorem decodeBytes_cut {l : List UInt8} {b : UInt8} (hb : b.toNat < 0x80) (r : List UInt8) :
    decodeBytes (l ++ b :: r) = decodeBytes l ++ Char.ofNat b.toNat :: decodeBytes r := by
  unfold decodeBytes
  rw [runes_cut hb]
  simp

/-- The tables of letters do not contain U+FFFE. -/
def NoLetter : Prop := NameTables.first bad = false ∧ NameTables.second bad = false

theorem bad_foreign (h : NoLetter) : Foreign bad := by
  have h1 : bad.toNat = 0xFFFE := by decide
  refine ⟨?_, ?_⟩
  · rintro (h2 | h2)
    · revert h2; decide
    · exact h2.2.1 h1
  · rintro ((h2 | h2) | h2 | h2)
    · rw [h1] at h2; omega
    · rw [h.1] at h2; simp at h2
    · rw [h1] at h2; omega
    · rw [h.2] at h2; simp at h2

/-- **C110** (wrong bytes): in a file that is read, bytes that belong to no character stand only in
comments, instructions and directives and behind the first element; the bytes there are not read. -/
theorem C110_wrong_bytes (hn : NoLetter) {bs : List UInt8} {x : Xml} (h : readBytes bs = some x) :
    ∃ b₁ b₂, bs = b₁ ++ b₂ ∧ (∀ b', readBytes (b₁ ++ b') = some x) ∧
      ∀ i, (runes b₁.length b₁)[i]? = some none → InSkipped (decodeBytes b₁) i := by
  obtain ⟨e, rest, h1, ⟨l, rfl⟩, h2, h3⟩ := document_split (readXml_iff.1 h)
  have hr : ∃ l₁ l₂, runes bs.length bs = l₁ ++ l₂ ∧ l₁.map (·.getD bad) = l ∧ l₂.map (·.getD bad) = '>' :: rest := by
    have : (runes bs.length bs).map (·.getD bad) = l ++ '>' :: rest := by
      unfold decodeBytes at h1
      rw [h1]; simp
    obtain ⟨l₁, l₂, h4, h5, h6⟩ := List.map_eq_append_iff.mp this
    exact ⟨l₁, l₂, h4, h5, h6⟩
  obtain ⟨l₁, l₂, h4, h5, h6⟩ := hr
  obtain ⟨o, l₃, rfl, ho, h7⟩ := List.map_eq_cons_iff.mp h6
  have ho : o = some '>' := by
    cases o with
    | none => exact absurd ho (by decide)
    | some c => rw [Option.getD_some] at ho; rw [ho]
  subst ho
  obtain ⟨b₁, b₂, rfl, h8⟩ := runes_suffix h4
  obtain ⟨r, rfl, h9⟩ := runes_ascii (by decide) h8
  have hgt : (UInt8.ofNat '>'.toNat).toNat < 0x80 := by decide
  have hch : Char.ofNat (UInt8.ofNat '>'.toNat).toNat = '>' := by decide
  have hdec : decodeBytes b₁ = l := by
    rw [runes_cut hgt, hch, h9] at h4
    have := List.append_cancel_right h4
    unfold decodeBytes
    rw [this, h5]
  have hcut : ∀ b', decodeBytes (b₁ ++ [UInt8.ofNat '>'.toNat] ++ b') = l ++ ['>'] ++ decodeBytes b' := by
    intro b'
    rw [List.append_assoc, List.singleton_append, decodeBytes_cut hgt, hch, hdec]
    simp
  refine ⟨b₁ ++ [UInt8.ofNat '>'.toNat], r, by simp, fun b' => ?_, fun i hi => ?_⟩
  · unfold readBytes
    rw [hcut]
    exact readXml_iff.2 (h2 _)
  · have he : decodeBytes (b₁ ++ [UInt8.ofNat '>'.toNat]) = l ++ ['>'] := by
      have := hcut []
      simpa [decodeBytes, runes] using this
    rw [he]
    refine h3 i bad ?_ (bad_foreign hn)
    rw [← he]
    unfold decodeBytes
    rw [List.getElem?_map, hi]
    rfl

theorem inSkipped_infix {s : List Char} {i : Nat} (h : InSkipped s i) :
    "<!".toList <:+: s ∨ "<?".toList <:+: s := by
  obtain ⟨p, k, r, rfl, h1, -⟩ := h
  obtain ⟨k', rfl | rfl⟩ := skipped_start h1
  · exact .inl ⟨p, k' ++ r, by simp⟩
  · exact .inr ⟨p, k' ++ r, by simp⟩

omit [NameTables] in
theorem bytes_infix {bs : List UInt8} {c d : Char} (hc : c.toNat < 0x80) (hd : d.toNat < 0x80)
    (h : [c, d] <:+: decodeBytes bs) : [UInt8.ofNat c.toNat, UInt8.ofNat d.toNat] <:+: bs := by
  obtain ⟨a, b, h⟩ := h
  unfold decodeBytes at h
  have h := h.symm
  rw [List.append_assoc] at h
  obtain ⟨l₁, l₂, h1, -, h2⟩ := List.map_eq_append_iff.mp h
  rw [List.cons_append] at h2
  obtain ⟨o, l₃, rfl, ho, h3⟩ := List.map_eq_cons_iff.mp h2
  rw [List.cons_append] at h3
  obtain ⟨o', l₄, rfl, ho', -⟩ := List.map_eq_cons_iff.mp h3
  have key : ∀ {o : Option Char} {c : Char}, c.toNat < 0x80 → o.getD bad = c → o = some c := by
    intro o c hc ho
    cases o with
    | none =>
      rw [Option.getD_none] at ho
      have : bad.toNat = 0xFFFE := by decide
      rw [← ho, this] at hc
      omega
    | some c' => rw [Option.getD_some] at ho; rw [ho]
  rw [key hc ho, key hd ho'] at h1
  obtain ⟨b₁, b₂, rfl, h4⟩ := runes_suffix h1
  obtain ⟨r, rfl, h5⟩ := runes_ascii hc h4
  obtain ⟨r', rfl, -⟩ := runes_ascii hd h5
  exact ⟨b₁, r', by simp⟩

/-- **C110** (plain files): a file without `<!` and `<?` that is read consists, as far as it is read,
of the bytes of a text. -/
theorem C110_plain (hn : NoLetter) {bs : List UInt8} {x : Xml} (h : readBytes bs = some x)
    (h1 : ¬ [0x3C, 0x21] <:+: bs) (h2 : ¬ [0x3C, 0x3F] <:+: bs) :
    ∃ e rest, bs = utf8 e ++ rest ∧ Document e x := by
  obtain ⟨b₁, b₂, rfl, h3, h4⟩ := C110_wrong_bytes hn h
  have hok : none ∉ runes b₁.length b₁ := by
    intro hm
    obtain ⟨i, hi⟩ := List.mem_iff_getElem?.mp hm
    rcases inSkipped_infix (h4 i hi) with h5 | h5
    · exact h1 ((bytes_infix (c := '<') (d := '!') (by decide) (by decide) h5).trans ⟨[], b₂, rfl⟩)
    · exact h2 ((bytes_infix (c := '<') (d := '?') (by decide) (by decide) h5).trans ⟨[], b₂, rfl⟩)
  obtain ⟨e, rfl⟩ := (runes_wellFormed _).mp hok
  exact ⟨e, b₂, rfl, (C110_reads e x).mp (by simpa using h3 [])⟩

/-- **C110** (other encodings): a file whose first character is foreign is rejected. So is UTF-16
with a byte order mark, in either order, and UTF-32. -/
theorem C110_start {s : List Char} {c : Char} (hc : Foreign c) : readXml (c :: s) = none := by
  cases h : readXml (c :: s) with
  | none => rfl
  | some x =>
    exfalso
    obtain ⟨e, rest, h1, ⟨l, hl⟩, -, h3⟩ := document_split (readXml_iff.1 h)
    cases e with
    | nil => simp at hl
    | cons c' e =>
      simp only [List.cons_append, List.cons.injEq] at h1
      obtain ⟨rfl, -⟩ := h1
      obtain ⟨p, k, r, h4, h5, h6, -⟩ := h3 0 c (by simp) hc
      have hp : p = [] := List.length_eq_zero_iff.mp (Nat.le_zero.mp h6)
      obtain ⟨k', hk⟩ := skipped_start h5
      subst hp
      have : c = '<' := by rcases hk with rfl | rfl <;> (simp at h4; exact h4.1)
      subst this
      exact hc.1 (ascii_legal (by decide) (by decide))

theorem nul_foreign : Foreign '\x00' := by
  refine ⟨?_, ?_⟩
  · rintro (h | h)
    · revert h; decide
    · exact absurd h.1 (by decide)
  · rintro ((h | h) | h | h)
    · revert h; unfold Letter; decide
    · exact absurd h.1 (by decide)
    · revert h; unfold Digit; decide
    · exact absurd h.1 (by decide)

/-- **C110** (other encodings): no file in UTF-16 or UTF-32 is read, in either byte order, with a
byte order mark or without. -/
theorem C110_wide (hn : NoLetter) {bs : List UInt8}
    (h : [0xFE, 0xFF] <+: bs ∨ [0xFF, 0xFE] <+: bs ∨ [0x00] <+: bs ∨ [0x3C, 0x00] <+: bs) : readBytes bs = none := by
  unfold readBytes
  have hbad : ∀ {b : UInt8} {r : List UInt8}, 0xF5 ≤ b.toNat → decodeBytes (b :: r) = bad :: decodeBytes r := by
    intro b r hb
    unfold decodeBytes
    rw [List.length_cons, runes]
    have : decodeRune (b :: r) = none := by
      unfold decodeRune
      simp only
      rw [if_neg (by omega), if_neg (by omega), if_neg (by omega), if_neg (by omega), if_neg (by omega)]
    rw [this]
    rfl
  rcases h with ⟨r, rfl⟩ | ⟨r, rfl⟩ | ⟨r, rfl⟩ | ⟨r, rfl⟩
  · rw [List.cons_append, hbad (by decide)]; exact C110_start (bad_foreign hn)
  · rw [List.cons_append, hbad (by decide)]; exact C110_start (bad_foreign hn)
  · rw [show [0x00] ++ r = [] ++ (0x00 : UInt8) :: r from rfl, decodeBytes_cut (by decide)]
    exact C110_start nul_foreign
  · rw [show [0x3C, 0x00] ++ r = [] ++ (0x3C : UInt8) :: ([] ++ (0x00 : UInt8) :: r) from rfl,
      decodeBytes_cut (by decide), decodeBytes_cut (by decide)]
    simp [decodeBytes, runes, readXml, readTree, token, markup, readQName, readName, nameByte, isAlpha, isName]

/-- **C110** (byte order mark): one in UTF-8 before the first tag has no effect. -/
theorem C110_mark (bs : List UInt8) (h : [0x3C] <+: bs) :
    readBytes ([0xEF, 0xBB, 0xBF] ++ bs) = readBytes bs := by
  obtain ⟨r, rfl⟩ := h
  have h1 : decodeBytes ([0xEF, 0xBB, 0xBF] ++ ([0x3C] ++ r)) = Char.ofNat 0xFEFF :: decodeBytes ([0x3C] ++ r) := by
    have := runes_utf8Char (Char.ofNat 0xFEFF) ([0x3C] ++ r)
    rw [show utf8Char (Char.ofNat 0xFEFF) = [0xEF, 0xBB, 0xBF] by decide] at this
    unfold decodeBytes
    rw [this]
    rfl
  have h2 : decodeBytes ([0x3C] ++ r) = '<' :: decodeBytes r :=
    decodeBytes_cut (l := []) (b := 0x3C) (by decide) r
  unfold readBytes
  rw [h1, h2]
  generalize decodeBytes r = s
  have h3 : token (Char.ofNat 0xFEFF :: '<' :: s) = some (.text [Char.ofNat 0xFEFF], '<' :: s) := by
    have hne : Char.ofNat 0xFEFF ≠ '<' := by decide
    unfold token
    split
    · rename_i heq
      simp at heq
    · simp [text, readText, inRange]
  conv_lhs => unfold readXml
  rw [List.length_cons, readTree, h3]
  · rfl
  · simp

end

section
variable {F : Type} [Arith F] [Lib F] [Trans F] [NameTables]

/-- **C110** (answers): on the bytes of a text `main` does what it does on the text. -/
theorem C110_run [Reflect] (s : String) (calls : List (MapOrd × Row F)) :
    runBytes (utf8 s.toList) calls = runText s calls := by
  unfold runBytes
  rw [C110_utf8, String.ofList_toList]

/-- The file of these bytes is read as the document `p`. -/
def BytesReadAs (bs : List UInt8) (p : Pmml F) : Prop :=
  ∃ n as ch, readBytes bs = some (.elem n as ch) ∧ Structs.decodeAll as ch = .ok p

omit [Trans F] in
theorem bytesReadAs_iff {bs : List UInt8} {p : Pmml F} :
    BytesReadAs bs p ↔ ReadAs (String.ofList (decodeBytes bs)) p := by
  unfold BytesReadAs ReadAs readBytes
  simp only [readXml_iff, String.toList_ofList]

end

/-- **C110** (normal form): for every file of bytes there is one in UTF-8, written from its document
alone, on which `main` ends in the same way for all rows. -/
theorem C110_normal [NameTables] [Trans F64] {bs : List UInt8} {p : Pmml F64} (h : BytesReadAs bs p) (hn : Tidy p) :
    BytesReadAs (utf8 (canonical goFmt p).toList) p ∧ ∀ calls : List (MapOrd × Row F64),
      (letI := goReflect F64; runBytes bs calls) =
        (letI := goReflect F64; runBytes (utf8 (canonical goFmt p).toList) calls) := by
  obtain ⟨h1, h2⟩ := C109_float64 (bytesReadAs_iff.mp h) hn
  refine ⟨bytesReadAs_iff.mpr ?_, fun calls => ?_⟩
  · rw [C110_utf8, String.ofList_toList]
    exact (h1 p).mpr rfl
  · unfold runBytes
    rw [C110_utf8, String.ofList_toList]
    exact h2 calls

/-! ## Examples -/

namespace BytesExample

local instance : NameTables := ⟨fun _ => false, fun _ => false⟩

/-- `<a b='…'>…</a>` -/
def around (v : List UInt8) (t : List UInt8) : List UInt8 :=
  utf8 "<a b='".toList ++ v ++ utf8 "'>".toList ++ t ++ utf8 "</a>".toList

/-- What the value and the content of the element are read as. -/
def parts (bs : List UInt8) : Option (List (String × String) × List String) :=
  match readBytes bs with
  | some (.elem _ as ch) => some (as, ch.map fun | .text _ v => v | .elem n _ _ => n)
  | _ => none

-- C110: characters of two, three and four bytes.
example : parts (around [0xC3, 0xA9] [0xE2, 0x82, 0xAC, 0xF0, 0x9F, 0x8C, 0xB3]) = some ([("b", "é")], ["€🌳"]) := by
  decide +kernel

-- The same letter in Latin-1 is an error, as are a surrogate, an overlong form and a letter cut short …
example : parts (around [0xE9] []) = none ∧ parts (around [] [0xED, 0xA0, 0x80]) = none ∧
    parts (around [] [0xC0, 0xBC]) = none ∧ parts (around [] [0xE2, 0x82]) = none ∧
    parts (around [] [0xEF, 0xBF, 0xBE]) = none := by
  decide +kernel

-- … but not in a comment or behind the element, and U+FFFD is a character like others.
example : parts (around [] (utf8 "<!-- ".toList ++ [0xE9] ++ utf8 " -->x".toList) ++ [0xE9]) = some ([("b", "")], ["", "x"]) ∧
    parts (around [] [0xEF, 0xBF, 0xBD]) = some ([("b", "")], ["�"]) := by
  decide +kernel

-- A byte order mark is text before the element.
example : parts ([0xEF, 0xBB, 0xBF] ++ around [0x31] []) = some ([("b", "1")], []) ∧
    parts ([0xFF, 0xFE, 0x3C, 0x00, 0x61, 0x00, 0x2F, 0x00, 0x3E, 0x00]) = none ∧
    parts ([0x3C, 0x00, 0x61, 0x00, 0x2F, 0x00, 0x3E, 0x00]) = none ∧ parts ([0x3C, 0x61, 0x2F, 0x3E]) = some ([], []) := by
  decide +kernel

-- C110: the premises of the theorems are met.
example : NoLetter ∧ (readBytes (around [0x31] [])).isSome ∧
    ¬ [0x3C, 0x21] <:+: around [0x31] [] ∧ ¬ [0x3C, 0x3F] <:+: around [0x31] [] := by
  refine ⟨⟨rfl, rfl⟩, by decide +kernel, by decide +kernel, by decide +kernel⟩

end BytesExample

end Gopmml.Props
