import Verif.Model.Bytes
import Verif.Spec.Bytes
import Mathlib.Tactic.NormNum

namespace Gopmml
open Spec Spec.Markup XmlBytes

theorem char_cases (c : Char) : c.toNat < 0xD800 ∨ 0xDFFF < c.toNat ∧ c.toNat < 0x110000 := c.valid

theorem char_toNat_ofNat {n : Nat} (h : n < 0xD800 ∨ 0xDFFF < n ∧ n < 0x110000) : (Char.ofNat n).toNat = n := by
  have : n.isValidChar := h
  simp [Char.ofNat, this, Char.toNat, Char.ofNatAux]

theorem char_eq_ofNat {c : Char} {n : Nat} (h : n = c.toNat) : Char.ofNat n = c := by rw [h]; exact Char.ofNat_toNat c

theorem byte_toNat {n : Nat} (h : n < 256) : (UInt8.ofNat n).toNat = n := by
  simp [UInt8.toNat_ofNat', Nat.mod_eq_of_lt h]

theorem decodeRune_utf8 (c : Char) (r : List UInt8) : decodeRune (utf8Char c ++ r) = some (c, r) := by
  have hc := char_cases c
  unfold utf8Char
  split_ifs with h1 h2 h3
  · simp only [List.map_cons, List.map_nil, List.cons_append, List.nil_append, decodeRune]
    rw [byte_toNat (by omega), if_pos h1, char_eq_ofNat rfl]
  · simp only [List.map_cons, List.map_nil, List.cons_append, List.nil_append, decodeRune]
    rw [byte_toNat (by omega), byte_toNat (by omega), if_neg (by omega), if_neg (by omega), if_pos (by omega),
      if_neg (by omega), char_eq_ofNat (c := c) (by omega)]
  · simp only [List.map_cons, List.map_nil, List.cons_append, List.nil_append, decodeRune]
    rw [byte_toNat (by omega), byte_toNat (by omega), byte_toNat (by omega), if_neg (by omega), if_neg (by omega),
      if_neg (by omega), if_pos (by omega), if_neg (by split_ifs <;> omega), if_neg (by omega),
      char_eq_ofNat (c := c) (by omega)]
  · simp only [List.map_cons, List.map_nil, List.cons_append, List.nil_append, decodeRune]
    rw [byte_toNat (by omega), byte_toNat (by omega), byte_toNat (by omega), byte_toNat (by omega),
      if_neg (by omega), if_neg (by omega), if_neg (by omega), if_neg (by omega), if_pos (by omega),
      if_neg (by split_ifs <;> omega), if_neg (by omega), if_neg (by omega), char_eq_ofNat (c := c) (by omega)]

theorem byte_eq {b : UInt8} {n : Nat} (h : n = b.toNat) : UInt8.ofNat n = b := by
  subst h; exact UInt8.ofNat_toNat

theorem utf8_of_decodeRune {bs r : List UInt8} {c : Char} (h : decodeRune bs = some (c, r)) : bs = utf8Char c ++ r := by
  cases bs with
  | nil => simp [decodeRune] at h
  | cons b0 bs =>
    have hb0 := b0.toNat_lt
    unfold decodeRune at h
    simp only at h
    by_cases h1 : b0.toNat < 0x80
    · rw [if_pos h1] at h
      simp only [Option.some.injEq, Prod.mk.injEq] at h
      obtain ⟨rfl, rfl⟩ := h
      unfold utf8Char
      rw [char_toNat_ofNat (by omega), if_pos h1]
      simp
    rw [if_neg h1] at h
    by_cases h2 : b0.toNat < 0xC2
    · rw [if_pos h2] at h; simp at h
    rw [if_neg h2] at h
    by_cases h3 : b0.toNat < 0xE0
    · rw [if_pos h3] at h
      match bs, h with
      | b1 :: r', h =>
        have hb1 := b1.toNat_lt
        simp only at h
        split_ifs at h with h6
        simp only [Option.some.injEq, Prod.mk.injEq] at h
        obtain ⟨rfl, rfl⟩ := h
        unfold utf8Char
        rw [char_toNat_ofNat (by omega), if_neg (by omega), if_pos (by omega)]
        simp only [List.map_cons, List.map_nil, List.cons_append, List.nil_append]
        rw [byte_eq (b := b0) (by omega), byte_eq (b := b1) (by omega)]
    rw [if_neg h3] at h
    by_cases h4 : b0.toNat < 0xF0
    · rw [if_pos h4] at h
      match bs, h with
      | b1 :: b2 :: r', h =>
        have hb1 := b1.toNat_lt
        have hb2 := b2.toNat_lt
        simp only at h
        split_ifs at h
        all_goals
          simp only [Option.some.injEq, Prod.mk.injEq] at h
          obtain ⟨rfl, rfl⟩ := h
          unfold utf8Char
          rw [char_toNat_ofNat (by omega), if_neg (by omega), if_neg (by omega), if_pos (by omega)]
          simp only [List.map_cons, List.map_nil, List.cons_append, List.nil_append]
          rw [byte_eq (b := b0) (by omega), byte_eq (b := b1) (by omega), byte_eq (b := b2) (by omega)]
    rw [if_neg h4] at h
    by_cases h5 : b0.toNat < 0xF5
    · rw [if_pos h5] at h
      match bs, h with
      | b1 :: b2 :: b3 :: r', h =>
        have hb1 := b1.toNat_lt
        have hb2 := b2.toNat_lt
        have hb3 := b3.toNat_lt
        simp only at h
        split_ifs at h
        all_goals
          simp only [Option.some.injEq, Prod.mk.injEq] at h
          obtain ⟨rfl, rfl⟩ := h
          unfold utf8Char
          rw [char_toNat_ofNat (by omega), if_neg (by omega), if_neg (by omega), if_neg (by omega)]
          simp only [List.map_cons, List.map_nil, List.cons_append, List.nil_append]
          rw [byte_eq (b := b0) (by omega), byte_eq (b := b1) (by omega), byte_eq (b := b2) (by omega),
            byte_eq (b := b3) (by omega)]
    · rw [if_neg h5] at h; simp at h

theorem utf8Char_ne_nil (c : Char) : ∃ b bs, utf8Char c = b :: bs := by
  unfold utf8Char
  split_ifs <;> exact ⟨_, _, rfl⟩

/-- More fuel than bytes is not needed. -/
theorem runes_fuel : ∀ {n m : Nat} {bs : List UInt8}, bs.length ≤ n → bs.length ≤ m → runes n bs = runes m bs := by
  intro n
  induction n with
  | zero => intro m bs h1 h2; cases bs with
    | nil => cases m <;> rfl
    | cons b bs => simp at h1
  | succ n ih =>
    intro m bs h1 h2
    cases bs with
    | nil => cases m <;> rfl
    | cons b bs =>
      cases m with
      | zero => simp at h2
      | succ m =>
        simp only [List.length_cons, Nat.add_le_add_iff_right] at h1 h2
        rw [runes, runes]
        cases hd : decodeRune (b :: bs) with
        | none => rw [ih h1 h2]
        | some p =>
          obtain ⟨c, r⟩ := p
          have hl : r.length ≤ bs.length := by
            have := utf8_of_decodeRune hd
            obtain ⟨b', bs', he⟩ := utf8Char_ne_nil c
            rw [he] at this
            simp only [List.cons_append, List.cons.injEq] at this
            rw [this.2]; simp
          simp only [ih (hl.trans h1) (hl.trans h2)]

theorem runes_utf8Char (c : Char) (r : List UInt8) :
    runes (utf8Char c ++ r).length (utf8Char c ++ r) = some c :: runes r.length r := by
  have hd := decodeRune_utf8 c r
  obtain ⟨b, bs, he⟩ := utf8Char_ne_nil c
  rw [he] at hd ⊢
  simp only [List.cons_append, List.length_cons] at hd ⊢
  rw [runes, hd]
  simp only
  rw [runes_fuel (n := (bs ++ r).length) (m := r.length) (by simp) le_rfl]

theorem runes_utf8 (s : List Char) (r : List UInt8) :
    runes (utf8 s ++ r).length (utf8 s ++ r) = s.map some ++ runes r.length r := by
  induction s with
  | nil => rfl
  | cons c s ih =>
    have : utf8 (c :: s) ++ r = utf8Char c ++ (utf8 s ++ r) := by simp [utf8]
    rw [this, runes_utf8Char, ih]
    rfl

/-- All bytes belong to characters exactly if they are those of a text. -/
theorem runes_wellFormed (bs : List UInt8) : none ∉ runes bs.length bs ↔ ∃ s, bs = utf8 s := by
  constructor
  · suffices ∀ n, ∀ bs : List UInt8, bs.length ≤ n → none ∉ runes bs.length bs → ∃ s, bs = utf8 s from
      this _ bs le_rfl
    intro n
    induction n with
    | zero =>
      intro bs hn _
      exact ⟨[], by rw [List.length_eq_zero_iff.mp (Nat.le_zero.mp hn)]; rfl⟩
    | succ n ih =>
      intro bs hn h
      cases bs with
      | nil => exact ⟨[], rfl⟩
      | cons b bs =>
        cases hd : decodeRune (b :: bs) with
        | none =>
          rw [List.length_cons, runes, hd] at h
          simp at h
        | some p =>
          obtain ⟨c, r⟩ := p
          have he := utf8_of_decodeRune hd
          rw [he, runes_utf8Char] at h
          obtain ⟨b', bs', hc⟩ := utf8Char_ne_nil c
          have hl : r.length ≤ n := by
            have := congrArg List.length he
            rw [hc] at this
            simp only [List.length_cons, List.length_append, List.cons_append] at this hn
            omega
          obtain ⟨s, rfl⟩ := ih r hl (fun hm => h (by simp [hm]))
          exact ⟨c :: s, by rw [he]; simp [utf8]⟩
  · rintro ⟨s, rfl⟩
    have := runes_utf8 s []
    simp only [List.append_nil, List.length_nil, runes] at this
    rw [this]
    simp

theorem decodeRune_cut {b0 b : UInt8} {l r : List UInt8} (hb : b.toNat < 0x80) :
    decodeRune (b0 :: l ++ b :: r) = (decodeRune (b0 :: l)).map fun p => (p.1, p.2 ++ b :: r) := by
  have h0 := b0.toNat_lt
  unfold decodeRune
  simp only [List.cons_append]
  by_cases h1 : b0.toNat < 0x80
  · rw [if_pos h1, if_pos h1]; rfl
  rw [if_neg h1, if_neg h1]
  by_cases h2 : b0.toNat < 0xC2
  · rw [if_pos h2, if_pos h2]; rfl
  rw [if_neg h2, if_neg h2]
  by_cases h3 : b0.toNat < 0xE0
  · rw [if_pos h3, if_pos h3]
    match l with
    | [] => simp only [List.nil_append]; rw [if_pos (.inl hb)]; rfl
    | b1 :: l =>
      simp only [List.cons_append]
      split_ifs <;> simp
  rw [if_neg h3, if_neg h3]
  by_cases h4 : b0.toNat < 0xF0
  · rw [if_pos h4, if_pos h4]
    generalize hA : (if b0.toNat = 0xE0 then 0xA0 else 0x80) = A
    generalize hB : (if b0.toNat = 0xED then 0x9F else 0xBF) = B
    have hA' : 0x80 ≤ A := by rw [← hA]; split_ifs <;> omega
    match l, r with
    | [], [] => rfl
    | [], b' :: r => simp only [List.nil_append]; rw [if_pos (.inl (by omega))]; rfl
    | [b1], r =>
      simp only [List.cons_append, List.nil_append]
      rw [if_pos (c := _ ∨ 0xBF < b.toNat) (.inl hb), ite_self]; rfl
    | b1 :: b2 :: l, r =>
      simp only [List.cons_append]
      split_ifs <;> simp
  rw [if_neg h4, if_neg h4]
  by_cases h5 : b0.toNat < 0xF5
  · rw [if_pos h5, if_pos h5]
    generalize hA : (if b0.toNat = 0xF0 then 0x90 else 0x80) = A
    generalize hB : (if b0.toNat = 0xF4 then 0x8F else 0xBF) = B
    have hA' : 0x80 ≤ A := by rw [← hA]; split_ifs <;> omega
    match l, r with
    | [], [] => rfl
    | [], [_] => rfl
    | [], b' :: b'' :: r => simp only [List.nil_append]; rw [if_pos (.inl (by omega))]; rfl
    | [b1], [] => rfl
    | [b1], b' :: r =>
      simp only [List.cons_append, List.nil_append]
      rw [if_pos (c := _ ∨ 0xBF < b.toNat) (.inl hb), ite_self]; rfl
    | [b1, b2], r =>
      simp only [List.cons_append, List.nil_append]
      rw [if_pos (c := _ ∨ 0xBF < b.toNat) (.inl hb), ite_self, ite_self]; rfl
    | b1 :: b2 :: b3 :: l, r =>
      simp only [List.cons_append]
      split_ifs <;> simp
  rw [if_neg h5, if_neg h5]
  rfl

/-- A byte of ASCII is a character whatever stands around it, and it parts the characters. -/
theorem runes_cut {b : UInt8} (hb : b.toNat < 0x80) (l r : List UInt8) :
    runes (l ++ b :: r).length (l ++ b :: r) =
      runes l.length l ++ some (Char.ofNat b.toNat) :: runes r.length r := by
  suffices ∀ n, ∀ l : List UInt8, l.length ≤ n → runes (l ++ b :: r).length (l ++ b :: r) =
      runes l.length l ++ some (Char.ofNat b.toNat) :: runes r.length r from this _ l le_rfl
  intro n
  have base : runes (b :: r).length (b :: r) = some (Char.ofNat b.toNat) :: runes r.length r := by
    rw [List.length_cons, runes]
    simp [decodeRune, hb]
  induction n with
  | zero =>
    intro l hl
    rw [List.length_eq_zero_iff.mp (Nat.le_zero.mp hl)]
    exact base
  | succ n ih =>
    intro l hl
    cases l with
    | nil => exact base
    | cons b0 l =>
      simp only [List.length_cons, Nat.add_le_add_iff_right] at hl
      have hc := decodeRune_cut (b0 := b0) (l := l) (r := r) hb
      simp only [List.cons_append, List.length_cons] at hc ⊢
      rw [runes, runes, hc]
      cases hd : decodeRune (b0 :: l) with
      | none =>
        simp only [Option.map_none, List.cons_append]
        rw [ih l hl]
      | some p =>
        obtain ⟨c, l'⟩ := p
        simp only [Option.map_some, List.cons_append]
        have hl' : l'.length ≤ l.length := by
          have he := utf8_of_decodeRune hd
          obtain ⟨b', bs', h⟩ := utf8Char_ne_nil c
          rw [h] at he
          simp only [List.cons_append, List.cons.injEq] at he
          rw [he.2]; simp
        rw [runes_fuel (n := (l ++ b :: r).length) (m := (l' ++ b :: r).length) (by simp; omega) le_rfl,
          ih l' (by omega), runes_fuel (n := l.length) (m := l'.length) hl' le_rfl]

/-- The characters from some place on are those of the bytes from some place on. -/
theorem runes_suffix : ∀ {l₁ l₂ : List (Option Char)} {bs : List UInt8}, runes bs.length bs = l₁ ++ l₂ →
    ∃ b₁ b₂, bs = b₁ ++ b₂ ∧ runes b₂.length b₂ = l₂ := by
  intro l₁
  induction l₁ with
  | nil => intro l₂ bs h; exact ⟨[], bs, rfl, h⟩
  | cons o l₁ ih =>
    intro l₂ bs h
    cases bs with
    | nil => simp [runes] at h
    | cons b bs =>
      cases hd : decodeRune (b :: bs) with
      | none =>
        rw [List.length_cons, runes, hd] at h
        simp only [List.cons_append, List.cons.injEq] at h
        obtain ⟨b₁, b₂, rfl, h2⟩ := ih h.2
        exact ⟨b :: b₁, b₂, rfl, h2⟩
      | some p =>
        obtain ⟨c, r⟩ := p
        have he := utf8_of_decodeRune hd
        rw [he, runes_utf8Char] at h
        simp only [List.cons_append, List.cons.injEq] at h
        obtain ⟨b₁, b₂, rfl, h2⟩ := ih h.2
        exact ⟨utf8Char c ++ b₁, b₂, by rw [he]; simp, h2⟩

/-- A character of ASCII is one byte. -/
theorem runes_ascii {c : Char} (hc : c.toNat < 0x80) {l : List (Option Char)} {bs : List UInt8}
    (h : runes bs.length bs = some c :: l) : ∃ r, bs = UInt8.ofNat c.toNat :: r ∧ runes r.length r = l := by
  cases bs with
  | nil => simp [runes] at h
  | cons b bs =>
    cases hd : decodeRune (b :: bs) with
    | none => rw [List.length_cons, runes, hd] at h; simp at h
    | some p =>
      obtain ⟨c', r⟩ := p
      have he := utf8_of_decodeRune hd
      rw [he, runes_utf8Char] at h
      simp only [List.cons.injEq, Option.some.injEq] at h
      obtain ⟨rfl, h⟩ := h
      exact ⟨r, by rw [he]; simp [utf8Char, hc], h⟩

/-! ### Where foreign characters stand -/

section
variable [NameTables]

omit [NameTables] in
theorem at_append {s t : List Char} {i : Nat} {c : Char} (h : (s ++ t)[i]? = some c) :
    s[i]? = some c ∨ (s.length ≤ i ∧ t[i - s.length]? = some c) := by
  rw [List.getElem?_append] at h
  split_ifs at h with h1
  · exact .inl h
  · exact .inr ⟨by omega, h⟩

theorem Spec.Markup.InSkipped.right {s : List Char} {i : Nat} (h : InSkipped s i) (r : List Char) :
    InSkipped (s ++ r) i := by
  obtain ⟨p, k, q, rfl, h1, h2, h3⟩ := h
  exact ⟨p, k, q ++ r, by simp, h1, h2, h3⟩

theorem Spec.Markup.InSkipped.left {l s : List Char} {i : Nat} (hi : l.length ≤ i) (h : InSkipped s (i - l.length)) :
    InSkipped (l ++ s) i := by
  obtain ⟨p, k, q, rfl, h1, h2, h3⟩ := h
  exact ⟨l ++ p, k, q, by simp, h1, by simp; omega, by simp; omega⟩

omit [NameTables] in
theorem ascii_legal {c : Char} (h1 : 0x20 ≤ c.toNat) (h2 : c.toNat < 0x80) : Legal c :=
  .inr ⟨h1, by omega, by omega⟩

omit [NameTables] in
theorem ref_legal {r : List Char} {c : Char} (h : Ref r c) : ∀ d ∈ r, Legal d := by
  have digits : ∀ d ∈ "0123456789".toList, Legal d := by
    intro d hd; simp at hd; rcases hd with rfl | rfl | rfl | rfl | rfl | rfl | rfl | rfl | rfl | rfl <;>
      exact ascii_legal (by decide) (by decide)
  have hexes : ∀ d ∈ "0123456789abcdefABCDEF".toList, Legal d := by
    intro d hd
    simp at hd
    rcases hd with rfl | rfl | rfl | rfl | rfl | rfl | rfl | rfl | rfl | rfl | rfl | rfl | rfl | rfl | rfl | rfl | rfl |
      rfl | rfl | rfl | rfl | rfl <;> exact ascii_legal (by decide) (by decide)
  cases h with
  | lt | gt | amp | apos | quot =>
    intro d hd; simp at hd
    rcases hd with rfl | hd <;> first | exact ascii_legal (by decide) (by decide) | skip
    all_goals
      repeat (first
        | (subst hd; exact ascii_legal (by decide) (by decide))
        | (rcases hd with rfl | hd; exact ascii_legal (by decide) (by decide)))
  | dec _ hd _ =>
    intro d hm
    simp at hm
    rcases hm with rfl | rfl | hm | rfl
    · exact ascii_legal (by decide) (by decide)
    · exact ascii_legal (by decide) (by decide)
    · exact digits d (hd d hm)
    · exact ascii_legal (by decide) (by decide)
  | hex _ hd _ =>
    intro d hm
    simp at hm
    rcases hm with rfl | rfl | rfl | hm | rfl
    · exact ascii_legal (by decide) (by decide)
    · exact ascii_legal (by decide) (by decide)
    · exact ascii_legal (by decide) (by decide)
    · exact hexes d (hd d hm)
    · exact ascii_legal (by decide) (by decide)

omit [NameTables] in
theorem spells_legal {no : List Char} {cdata : Bool} {raw val : List Char} (h : Spells no cdata raw val)
    (hv : ∀ c ∈ val, Legal c) : ∀ c ∈ raw, Legal c := by
  have hcr : Legal '\r' := .inl (by simp)
  have hlf : Legal '\n' := .inl (by simp)
  induction h with
  | nil => simp
  | char _ _ _ ih =>
    intro c hc
    rcases List.mem_cons.mp hc with rfl | hc
    · exact hv _ (by simp)
    · exact ih (fun d hd => hv d (by simp [hd])) c hc
  | cr _ _ ih =>
    intro c hc
    rcases List.mem_cons.mp hc with rfl | hc
    · exact hcr
    · exact ih (fun d hd => hv d (by simp [hd])) c hc
  | crlf _ ih =>
    intro c hc
    simp only [List.mem_cons] at hc
    rcases hc with rfl | rfl | hc
    · exact hcr
    · exact hlf
    · exact ih (fun d hd => hv d (by simp [hd])) c hc
  | ref _ hr _ ih =>
    intro c hc
    rcases List.mem_append.mp hc with hc | hc
    · exact ref_legal hr c hc
    · exact ih (fun d hd => hv d (by simp [hd])) c hc

/-- Not foreign. -/
def Fine (c : Char) : Prop := Legal c ∨ NamePart c

theorem blank_fine {b : List Char} (h : Blank b) : ∀ c ∈ b, Fine c := by
  intro c hc
  have := h c hc
  simp only [List.mem_cons, List.not_mem_nil, or_false] at this
  rcases this with rfl | rfl | rfl | rfl
  · exact .inl (ascii_legal (by decide) (by decide))
  all_goals exact .inl (.inl (by simp))

theorem name_fine {n : List Char} (h : Name n) : ∀ c ∈ n, Fine c := by
  obtain ⟨c, cs, rfl, h1, h2⟩ := h
  intro d hd
  rcases List.mem_cons.mp hd with rfl | hd
  · exact .inr (.inl h1)
  · exact .inr (h2 d hd)

theorem attributes_fine {a : List Char} {as : Attrs} (h : Attributes a as) : ∀ c ∈ a, Fine c := by
  induction h with
  | nil => simp
  | cons h1 h2 _ h4 h5 h6 _ ih =>
    obtain ⟨q, raw, hq, rfl, hs, hv⟩ := h6
    have hq' : Fine q := by rcases hq with rfl | rfl <;> exact .inl (ascii_legal (by decide) (by decide))
    intro c hc
    simp only [List.mem_append, List.mem_cons, List.not_mem_nil, or_false] at hc
    rcases hc with ((((hc | hc) | hc) | (rfl | hc)) | ((rfl | hc) | rfl)) | hc
    · exact blank_fine h1 c hc
    · exact name_fine h2.1 c hc
    · exact blank_fine h4 c hc
    · exact .inl (ascii_legal (by decide) (by decide))
    · exact blank_fine h5 c hc
    · exact hq'
    · exact .inl (spells_legal hs hv c hc)
    · exact hq'
    · exact ih c hc

theorem tag_fine {t n : List Char} {as : Attrs} (h : Tag t n as) : ∀ c ∈ t, Fine c := by
  obtain ⟨a, b, rfl, h1, h2, h3, -⟩ := h
  intro c hc
  simp only [List.mem_append, List.mem_cons] at hc
  rcases hc with ((rfl | hc) | hc) | hc
  · exact .inl (ascii_legal (by decide) (by decide))
  · exact name_fine h1.1 c hc
  · exact attributes_fine h2 c hc
  · exact blank_fine h3 c hc

theorem content_foreign {s : List Char} {xs : List Xml} (h : Content s xs) : ∀ {i : Nat} {c : Char},
    s[i]? = some c → ¬ Fine c → InSkipped s i := by
  have no : ∀ {s : List Char} {i : Nat} {c : Char}, (∀ d ∈ s, Fine d) → s[i]? = some c → ¬ Fine c → False :=
    fun h1 h2 h3 => h3 (h1 _ (List.mem_of_getElem? h2))
  have lit : ∀ {s : List Char}, s = "/>".toList ∨ s = ['>'] ∨ s = "</".toList → ∀ d ∈ s, Fine d := by
    rintro s (rfl | rfl | rfl) d hd <;> simp at hd
    · rcases hd with rfl | rfl <;> exact .inl (ascii_legal (by decide) (by decide))
    · subst hd; exact .inl (ascii_legal (by decide) (by decide))
    · rcases hd with rfl | rfl <;> exact .inl (ascii_legal (by decide) (by decide))
  induction h with
  | nil => intro i c h; simp at h
  | text h1 _ _ ih =>
    intro i c hi hc
    rcases at_append hi with hi | ⟨hl, hi⟩
    · exact (no (fun d hd => .inl (spells_legal h1.2.1 h1.2.2.1 d hd)) hi hc).elim
    · exact .left hl (ih hi hc)
  | cdata h1 _ ih =>
    intro i c hi hc
    rcases at_append hi with hi | ⟨hl, hi⟩
    · obtain ⟨raw, rfl, h2, h3, -⟩ := h1
      refine (no (fun d hd => .inl ?_) hi hc).elim
      rcases List.mem_append.mp hd with hd | hd
      · rcases List.mem_append.mp hd with hd | hd
        · simp at hd
          rcases hd with rfl | rfl | rfl | rfl | rfl | rfl | rfl | rfl | rfl <;>
            exact ascii_legal (by decide) (by decide)
        · exact spells_legal h2 h3 d hd
      · simp at hd
        rcases hd with rfl | rfl <;> exact ascii_legal (by decide) (by decide)
    · exact .left hl (ih hi hc)
  | @skipped raw s xs h1 _ ih =>
    intro i c hi hc
    rcases at_append hi with hi | ⟨hl, hi⟩
    · exact ⟨[], raw, s, rfl, h1, by simp, by simpa using (List.getElem?_eq_some_iff.mp hi).1⟩
    · exact .left hl (ih hi hc)
  | empty h1 _ _ ih =>
    intro i c hi hc
    rcases at_append hi with hi | ⟨hl, hi⟩
    · rcases at_append hi with hi | ⟨-, hi⟩
      · exact (no (tag_fine h1) hi hc).elim
      · exact (no (lit (.inl rfl)) hi hc).elim
    · exact .left hl (ih hi hc)
  | @pair t n l b c s as ys xs h1 _ h3 _ _ ih1 ih2 =>
    intro i d hi hd
    have he : t ++ '>' :: c ++ "</".toList ++ n ++ b ++ '>' :: s =
        t ++ (['>'] ++ (c ++ ("</".toList ++ (n ++ (b ++ (['>'] ++ s)))))) := by simp
    rw [he] at hi ⊢
    rcases at_append hi with hi | ⟨hl, hi⟩
    · exact (no (tag_fine h1) hi hd).elim
    refine .left hl ?_
    rcases at_append hi with hi | ⟨hl, hi⟩
    · exact (no (lit (.inr (.inl rfl))) hi hd).elim
    refine .left hl ?_
    rcases at_append hi with hi | ⟨hl, hi⟩
    · exact (ih1 hi hd).right _
    refine .left hl ?_
    rcases at_append hi with hi | ⟨hl, hi⟩
    · exact (no (lit (.inr (.inr rfl))) hi hd).elim
    refine .left hl ?_
    rcases at_append hi with hi | ⟨hl, hi⟩
    · obtain ⟨a', b', -, hn, -⟩ := h1
      exact (no (name_fine hn.1) hi hd).elim
    refine .left hl ?_
    rcases at_append hi with hi | ⟨hl, hi⟩
    · exact (no (blank_fine h3) hi hd).elim
    refine .left hl ?_
    rcases at_append hi with hi | ⟨hl, hi⟩
    · exact (no (lit (.inr (.inl rfl))) hi hd).elim
    exact .left hl (ih2 hi hd)

/-- What is skipped begins with these characters. -/
theorem skipped_start {k : List Char} (h : Skipped k) : ∃ r, k = '<' :: '!' :: r ∨ k = '<' :: '?' :: r := by
  rcases h with ⟨body, rfl, -⟩ | ⟨t, body, rfl, -⟩ | ⟨c, body, rfl, -⟩
  · exact ⟨_, .inl rfl⟩
  · exact ⟨_, .inr rfl⟩
  · exact ⟨_, .inl rfl⟩

/-- What is content of one element ends with a bracket. -/
theorem content_end {s : List Char} {x : Xml} (h : Content s [x]) (hx : Xml.isText x = false) :
    ∃ l, s = l ++ ['>'] := by
  have nil : ∀ {s : List Char}, Content s [] → s = [] := fun h => by cases h; rfl
  generalize hxs : [x] = xs at h
  cases h with
  | nil => simp at hxs
  | text _ _ _ => simp at hxs; rw [hxs.1] at hx; simp [Xml.isText] at hx
  | cdata _ _ => simp at hxs; rw [hxs.1] at hx; simp [Xml.isText] at hx
  | skipped _ _ => simp at hxs; rw [hxs.1] at hx; simp [Xml.isText] at hx
  | empty _ _ h =>
    simp at hxs
    obtain ⟨-, rfl⟩ := hxs
    cases nil h
    rename_i t _ _ _ _ _
    exact ⟨t ++ ['/'], by simp⟩
  | pair _ _ _ _ h =>
    simp at hxs
    obtain ⟨-, rfl⟩ := hxs
    cases nil h
    exact ⟨_, rfl⟩
end

end Gopmml
