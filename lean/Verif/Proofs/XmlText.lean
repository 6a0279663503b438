import Verif.Spec.XmlText
import Mathlib.Tactic.Tauto
import Mathlib.Tactic.ByContra
import Mathlib.Tactic.IntervalCases

/-!
# The reader of XML text and the grammar
-/

namespace Gopmml.XmlText

open Spec.Markup

/-! ## Cutting off the longest run -/

section Runs
variable {p : Char → Bool}

theorem run_take {n s : List Char} (hn : ∀ c ∈ n, p c = true) (hs : ∀ c ∈ s.head?, p c = false) :
    (n ++ s).takeWhile p = n ∧ (n ++ s).dropWhile p = s := by
  induction n with
  | nil =>
    cases s with
    | nil => simp
    | cons c s =>
      have := hs c (by simp)
      simp [this]
  | cons c n ih =>
    obtain ⟨h1, h2⟩ := ih fun d hd => hn d (by simp [hd])
    have := hn c (by simp)
    simp [this, h1, h2]

theorem take_run (p : Char → Bool) (s : List Char) :
    s = s.takeWhile p ++ s.dropWhile p ∧ (∀ c ∈ s.takeWhile p, p c = true) ∧
      ∀ c ∈ (s.dropWhile p).head?, p c = false := by
  refine ⟨(List.takeWhile_append_dropWhile).symm, fun c hc => ?_, fun c hc => ?_⟩
  · induction s with
    | nil => simp at hc
    | cons d s ih =>
      rw [List.takeWhile_cons] at hc
      split at hc
      · next h =>
        rcases List.mem_cons.1 hc with rfl | hc
        · exact h
        · exact ih hc
      · simp at hc
  · induction s with
    | nil => simp at hc
    | cons d s ih =>
      rw [List.dropWhile_cons] at hc
      split at hc
      · exact ih hc
      · next h =>
        simp only [List.head?_cons, Option.mem_def, Option.some.injEq] at hc
        subst hc
        simpa using h

end Runs

/-! ## Characters -/

theorem isBlank_iff {c : Char} : isBlank c = true ↔ c ∈ [' ', '\t', '\n', '\r'] := by
  simp only [isBlank, Bool.or_eq_true, decide_eq_true_eq, List.mem_cons, List.not_mem_nil, or_false]
  tauto

theorem blank_iff {s : List Char} : Blank s ↔ ∀ c ∈ s, isBlank c = true := by
  simp [Blank, isBlank_iff]

theorem isAlpha_iff {c : Char} : isAlpha c = true ↔ Letter c := by
  simp only [isAlpha, Letter, Bool.or_eq_true, Bool.and_eq_true, decide_eq_true_eq]
  exact or_comm

theorem digit_iff {c : Char} : ('0' ≤ c && c ≤ '9') = true ↔ Digit c := by
  simp [Digit]

theorem nameByte_false {c : Char} : nameByte c = false ↔
    c.toNat < 128 ∧ ¬ Letter c ∧ ¬ Digit c ∧ c ∉ ['_', ':', '.', '-'] := by
  rw [← isAlpha_iff, ← digit_iff]
  simp only [nameByte, Bool.or_eq_false_iff, decide_eq_false_iff_not, List.mem_cons,
    List.not_mem_nil, or_false, not_or, Bool.not_eq_true, Nat.not_le]
  tauto

theorem apart_iff {s : List Char} : Apart s ↔ ∀ c ∈ s.head?, nameByte c = false := by
  simp only [Apart, nameByte_false]

theorem blank_plain {c : Char} (h : c ∈ [' ', '\t', '\n', '\r']) : nameByte c = false := by
  simp only [List.mem_cons, List.not_mem_nil, or_false] at h
  rcases h with rfl | rfl | rfl | rfl <;> decide

theorem inRange_iff {c : Char} : inRange c = true ↔ Legal c := by
  have hv : c.toNat < 0xD800 ∨ 0xDFFF < c.toNat := by
    have := c.valid
    rcases this with h | h
    · exact .inl h
    · exact .inr h.1
  simp only [inRange, Legal, Bool.or_eq_true, Bool.and_eq_true, decide_eq_true_eq, List.mem_cons,
    List.not_mem_nil, or_false]
  constructor
  · rintro ((((h | h) | h) | h) | h)
    · exact .inl (.inl h)
    · exact .inl (.inr (.inl h))
    · exact .inl (.inr (.inr h))
    · right; omega
    · right; omega
  · rintro ((h | h | h) | h)
    · simp [h]
    · simp [h]
    · simp [h]
    · by_cases hc : 0x10000 ≤ c.toNat
      · exact .inr hc
      · left; right; omega

theorem all_inRange {l : List Char} : l.all inRange = true ↔ ∀ c ∈ l, Legal c := by
  simp [inRange_iff]

/-! ## Names -/

section Names
variable [NameTables]

theorem isFirst_iff {c : Char} : isFirst c = true ↔ NameStart c := by
  unfold isFirst NameStart
  by_cases h : c.toNat < 128
  · have h' : ¬ 128 ≤ c.toNat := by omega
    simp only [h, if_true, h', false_and, or_false, true_and, Bool.or_eq_true, decide_eq_true_eq,
      isAlpha_iff]
    tauto
  · have h' : 128 ≤ c.toNat := by omega
    simp [h, h']

theorem isPart_iff {c : Char} : (isFirst c || isSecond c) = true ↔ NamePart c := by
  rw [Bool.or_eq_true, isFirst_iff]
  unfold isSecond NamePart
  by_cases h : c.toNat < 128
  · have h' : ¬ 128 ≤ c.toNat := by omega
    simp only [h, if_true, h', false_and, or_false, true_and, Bool.or_eq_true, decide_eq_true_eq,
      digit_iff, or_assoc]
  · have h' : 128 ≤ c.toNat := by omega
    simp [h, h']

theorem isName_iff {n : List Char} : isName n = true ↔ Name n := by
  cases n with
  | nil => simp [isName, Name]
  | cons c cs =>
    simp only [isName, Bool.and_eq_true, isFirst_iff, List.all_eq_true, isPart_iff, Name]
    constructor
    · exact fun h => ⟨c, cs, rfl, h⟩
    · rintro ⟨c', cs', he, h⟩
      cases he
      exact h

theorem part_nameByte {c : Char} (h : NamePart c) : nameByte c = true := by
  by_contra hn
  rw [Bool.not_eq_true, nameByte_false] at hn
  obtain ⟨h1, h2, h3, h4⟩ := hn
  simp only [List.mem_cons, List.not_mem_nil, or_false, not_or] at h4
  unfold NamePart NameStart at h
  have : ¬ 128 ≤ c.toNat := by omega
  simp_all

theorem name_bytes {n : List Char} (h : Name n) : ∀ c ∈ n, nameByte c = true := by
  obtain ⟨c, cs, rfl, h1, h2⟩ := h
  intro d hd
  rcases List.mem_cons.1 hd with rfl | hd
  · exact part_nameByte (.inl h1)
  · exact part_nameByte (h2 d hd)

theorem readName_iff {s n r : List Char} :
    readName s = some (n, r) ↔ s = n ++ r ∧ Name n ∧ Apart r := by
  unfold readName
  constructor
  · intro h
    split at h
    · next hn =>
      simp only [Option.some.injEq, Prod.mk.injEq] at h
      obtain ⟨rfl, rfl⟩ := h
      obtain ⟨h1, _, h3⟩ := take_run nameByte s
      exact ⟨h1, isName_iff.1 hn, apart_iff.2 h3⟩
    · cases h
  · rintro ⟨rfl, hn, hr⟩
    obtain ⟨h1, h2⟩ := run_take (name_bytes hn) (apart_iff.1 hr)
    rw [h1, h2, if_pos (isName_iff.2 hn)]

/-- Undoing `cutName`. -/
def QName.join (q : QName) : List Char := if q.space = [] then q.loc else q.space ++ ':' :: q.loc

omit [NameTables] in
theorem cutName_join (n : List Char) : (cutName n).join = n := by
  unfold cutName
  simp only
  split
  · simp [QName.join]
  · next h =>
    rw [not_or] at h
    simp only [QName.join, h.1, if_false]
    obtain ⟨h1, _, h3⟩ := take_run (fun c => decide (c ≠ ':')) n
    cases hd : n.dropWhile (fun c => decide (c ≠ ':')) with
    | nil =>
      rw [hd] at h
      simp at h
    | cons c t =>
      rw [hd] at h3 h1
      have : c = ':' := by simpa using h3 c (by simp)
      subst this
      simpa using h1.symm

omit [NameTables] in
theorem cutName_inj {n m : List Char} (h : cutName n = cutName m) : n = m := by
  rw [← cutName_join n, ← cutName_join m, h]

omit [NameTables] in
theorem localPart_iff {n l : List Char} : LocalPart n l ↔ (cutName n).loc = l := by
  have key : ∀ p l : List Char, ':' ∉ p →
      (p ++ ':' :: l).takeWhile (fun c => decide (c ≠ ':')) = p ∧
      (p ++ ':' :: l).dropWhile (fun c => decide (c ≠ ':')) = ':' :: l := by
    intro p l hp
    refine run_take (fun c hc => ?_) (by simp)
    simp only [decide_not, Bool.not_eq_true', decide_eq_false_iff_not]
    rintro rfl
    exact hp hc
  constructor
  · intro h
    cases h with
    | @prefixed p _ hp hl hc =>
      obtain ⟨h1, h2⟩ := key p l hc
      unfold cutName
      simp only [h1, h2]
      simp [hp, hl]
    | plain h =>
      unfold cutName
      simp only
      split
      · rfl
      · next hne =>
        exfalso
        rw [not_or] at hne
        obtain ⟨h1, h2, h3⟩ := take_run (fun c => decide (c ≠ ':')) n
        cases hd : n.dropWhile (fun c => decide (c ≠ ':')) with
        | nil =>
          rw [hd] at hne
          simp at hne
        | cons c t =>
          rw [hd] at h3 h1 hne
          have : c = ':' := by simpa using h3 c (by simp)
          subst this
          have := h _ _ h1 fun hm => by simpa using h2 _ hm
          simp only [List.drop_succ_cons, List.drop_zero] at hne
          tauto
  · rintro rfl
    unfold cutName
    simp only
    split
    · next hne =>
      refine .plain fun p l he hp => ?_
      obtain ⟨h1, h2⟩ := key p l hp
      rw [he, h1, h2] at hne
      simpa using hne
    · next hne =>
      rw [not_or] at hne
      obtain ⟨h1, h2, h3⟩ := take_run (fun c => decide (c ≠ ':')) n
      cases hd : n.dropWhile (fun c => decide (c ≠ ':')) with
      | nil =>
        rw [hd] at hne
        simp at hne
      | cons c t =>
        rw [hd] at h3 h1 hne
        have : c = ':' := by simpa using h3 c (by simp)
        subst this
        simp only [List.drop_succ_cons, List.drop_zero] at hne ⊢
        generalize n.takeWhile (fun c => decide (c ≠ ':')) = p at *
        subst h1
        exact .prefixed hne.1 hne.2 fun hm => by simpa using h2 _ hm

theorem readQName_iff {s r : List Char} {q : QName} :
    readQName s = some (q, r) ↔ ∃ n, s = n ++ r ∧ QualName n ∧ Apart r ∧ cutName n = q := by
  unfold readQName QualName
  constructor
  · intro h
    split at h
    · cases h
    · next n r' hn =>
      split at h
      · cases h
      · next hc =>
        simp only [Option.some.injEq, Prod.mk.injEq] at h
        obtain ⟨rfl, rfl⟩ := h
        obtain ⟨h1, h2, h3⟩ := readName_iff.1 hn
        exact ⟨n, h1, ⟨h2, by omega⟩, h3, rfl⟩
  · rintro ⟨n, h1, ⟨h2, h2'⟩, h3, rfl⟩
    rw [readName_iff.2 ⟨h1, h2, h3⟩]
    simp only
    rw [if_neg (by omega)]

end Names


/-! ## References -/

theorem char_of_nat (c : Char) : c = Char.ofNat c.toNat := (Char.ofNat_toNat c).symm

theorem digit_mem {c : Char} (h : Digit c) : c ∈ "0123456789".toList := by
  have h1 : 48 ≤ c.toNat := h.1
  have h2 : c.toNat ≤ 57 := h.2
  rw [char_of_nat c]
  interval_cases c.toNat <;> decide

theorem mem_digit {c : Char} (h : c ∈ "0123456789".toList) : Digit c := by
  have : ∀ c ∈ "0123456789".toList, ('0' ≤ c && c ≤ '9') = true := by decide
  exact digit_iff.1 (this c h)

theorem isHex_iff {c : Char} : isHex c = true ↔ c ∈ "0123456789abcdefABCDEF".toList := by
  constructor
  · intro h
    unfold isHex hexDigit at h
    split_ifs at h with h1 h2 h3
    · have h4 : 48 ≤ c.toNat := h1.1
      have h5 : c.toNat ≤ 57 := h1.2
      rw [char_of_nat c]
      interval_cases c.toNat <;> decide
    · have h4 : 97 ≤ c.toNat := h2.1
      have h5 : c.toNat ≤ 102 := h2.2
      rw [char_of_nat c]
      interval_cases c.toNat <;> decide
    · have h4 : 65 ≤ c.toNat := h3.1
      have h5 : c.toNat ≤ 70 := h3.2
      rw [char_of_nat c]
      interval_cases c.toNat <;> decide
    · cases h
  · revert c
    decide

theorem hex_value {c : Char} (h : c ∈ "0123456789abcdefABCDEF".toList) :
    (hexDigit c).getD 0 = "0123456789abcdef".toList.idxOf c.toLower := by
  revert c
  decide

theorem numeral_from (base : Nat) (ds : List Char) (h : ∀ d ∈ ds, d ∈ "0123456789abcdefABCDEF".toList)
    (a : Nat) : ds.foldl (fun n c => n * base + (hexDigit c).getD 0) a = a * base ^ ds.length + value base ds := by
  induction ds generalizing a with
  | nil => simp [value]
  | cons d ds ih =>
    rw [List.foldl_cons, ih fun e he => h e (by simp [he]), value, hex_value (h d (by simp)),
      List.length_cons, Nat.pow_succ, Nat.add_mul, Nat.mul_assoc, Nat.mul_comm base, Nat.add_assoc]

theorem numeral_eq (base : Nat) (ds : List Char) (h : ∀ d ∈ ds, d ∈ "0123456789abcdefABCDEF".toList) :
    numeral base ds = value base ds := by
  rw [numeral, numeral_from base ds h]
  simp

theorem dec_hex {c : Char} (h : c ∈ "0123456789".toList) : c ∈ "0123456789abcdefABCDEF".toList := by
  revert c
  decide

theorem runeOf_eq {n : Nat} (h : n ≤ 0x10FFFF) : runeOf n = charOf n := by
  unfold runeOf charOf
  by_cases hs : 0xD800 ≤ n ∧ n ≤ 0xDFFF
  · rw [if_pos hs, if_neg]
    unfold Nat.isValidChar
    omega
  · rw [if_neg hs, if_pos]
    unfold Nat.isValidChar
    omega

theorem readNumeral_iff {base : Nat} {digit : Char → Bool} (hb : ∀ c, digit c = true → c ∈ "0123456789abcdefABCDEF".toList)
    {s r : List Char} {c : Char} :
    readNumeral base digit s = some (c, r) ↔
      ∃ ds, s = ds ++ ';' :: r ∧ ds ≠ [] ∧ (∀ d ∈ ds, digit d = true) ∧ value base ds ≤ 0x10FFFF ∧
        c = charOf (value base ds) := by
  have hsemi : digit ';' = false := by
    cases h : digit ';' with
    | false => rfl
    | true => exact absurd (hb _ h) (by decide)
  unfold readNumeral
  obtain ⟨h1, h2, _⟩ := take_run digit s
  constructor
  · intro h
    split at h
    · next r' hr =>
      split at h
      · cases h
      · next hn =>
        rw [not_or] at hn
        simp only [Option.some.injEq, Prod.mk.injEq] at h
        obtain ⟨rfl, rfl⟩ := h
        have he := numeral_eq base (s.takeWhile digit) fun d hd => hb d (h2 d hd)
        rw [he] at hn ⊢
        rw [hr] at h1
        exact ⟨_, h1, hn.1, h2, by omega, runeOf_eq (by omega)⟩
    · cases h
  · rintro ⟨ds, rfl, hne, hd, hv, rfl⟩
    obtain ⟨e1, e2⟩ := run_take (p := digit) hd (s := ';' :: r) (by simpa using hsemi)
    rw [e1, e2]
    simp only
    rw [numeral_eq base ds fun d h => hb d (hd d h), if_neg (by simp [hne]; omega), runeOf_eq hv]

theorem entity_ref {n : List Char} {c : Char} (h : entity n = some c) : Ref ('&' :: n ++ [';']) c := by
  unfold entity at h
  split_ifs at h with h1 h2 h3 h4 h5
  · cases h; subst h1; exact .lt
  · cases h; subst h2; exact .gt
  · cases h; subst h3; exact .amp
  · cases h; subst h4; exact .apos
  · cases h; subst h5; exact .quot

theorem readRef_iff {s r : List Char} {c : Char} :
    readRef s = some (c, r) ↔ ∃ e, '&' :: s = e ++ r ∧ Ref e c := by
  have named : ∀ n : List Char, (∀ c ∈ n, nameByte c = true) → n.head? ≠ some '#' → n ≠ [] → ∀ c, entity n = some c →
      readRef (n ++ ';' :: r) = some (c, r) := by
    intro n hn hh hne c hc
    obtain ⟨e1, e2⟩ := run_take hn (s := ';' :: r) (by simp; decide)
    unfold readRef
    split
    · next t he =>
      cases n with
      | nil => cases hne rfl
      | cons d n =>
        simp only [List.cons_append, List.cons.injEq] at he
        simp [he.1] at hh
    · next t _ he =>
      cases n with
      | nil => cases hne rfl
      | cons d n =>
        simp only [List.cons_append, List.cons.injEq] at he
        simp [he.1] at hh
    · rw [e1, e2]
      simp [hc]
  constructor
  · intro h
    unfold readRef at h
    split at h
    · next t =>
      obtain ⟨ds, rfl, h1, h2, h3, rfl⟩ := (readNumeral_iff fun c hc => isHex_iff.1 hc).1 h
      exact ⟨"&#x".toList ++ ds ++ [';'], by simp, .hex h1 (fun d hd => isHex_iff.1 (h2 d hd)) h3⟩
    · next t _ =>
      obtain ⟨ds, rfl, h1, h2, h3, rfl⟩ := (readNumeral_iff fun c hc => dec_hex (digit_mem (digit_iff.1 hc))).1 h
      exact ⟨"&#".toList ++ ds ++ [';'], by simp, .dec h1 (fun d hd => digit_mem (digit_iff.1 (h2 d hd))) h3⟩
    · split at h
      · next r' hr =>
        cases he : entity (s.takeWhile nameByte) with
        | none => rw [he] at h; cases h
        | some c' =>
          rw [he] at h
          cases h
          obtain ⟨h1, -, -⟩ := take_run nameByte s
          rw [hr] at h1
          exact ⟨'&' :: s.takeWhile nameByte ++ [';'], by simpa using h1, entity_ref he⟩
      · cases h
  · rintro ⟨e, he, h⟩
    cases h with
    | lt =>
      cases he
      exact named ['l', 't'] (by decide) (by decide) (by decide) _ rfl
    | gt =>
      cases he
      exact named ['g', 't'] (by decide) (by decide) (by decide) _ rfl
    | amp =>
      cases he
      exact named ['a', 'm', 'p'] (by decide) (by decide) (by decide) _ rfl
    | apos =>
      cases he
      exact named ['a', 'p', 'o', 's'] (by decide) (by decide) (by decide) _ rfl
    | quot =>
      cases he
      exact named ['q', 'u', 'o', 't'] (by decide) (by decide) (by decide) _ rfl
    | @dec ds h1 h2 h3 =>
      have hs : s = '#' :: (ds ++ ';' :: r) := by simpa using he
      have hrd := (readNumeral_iff (base := 10) (digit := fun c => '0' ≤ c && c ≤ '9') (s := ds ++ ';' :: r)
        (r := r) (c := charOf (value 10 ds)) fun c hc => dec_hex (digit_mem (digit_iff.1 hc))).2
        ⟨ds, rfl, h1, fun d hd => digit_iff.2 (mem_digit (h2 d hd)), h3, rfl⟩
      subst hs
      unfold readRef
      split
      · next t ht =>
        exfalso
        cases ds with
        | nil => exact h1 rfl
        | cons d ds =>
          cases ht
          exact absurd (h2 'x' (by simp)) (by decide)
      · next t _ ht =>
        cases ht
        exact hrd
      · next hn hx => exact absurd rfl (hx _)
    | @hex ds h1 h2 h3 =>
      have hs : s = '#' :: 'x' :: (ds ++ ';' :: r) := by simpa using he
      subst hs
      exact (readNumeral_iff fun c hc => isHex_iff.1 hc).2
        ⟨ds, rfl, h1, fun d hd => isHex_iff.2 (h2 d hd), h3, rfl⟩

/-! ## Spelled text -/

theorem Spells.snoc {no : List Char} {cdata : Bool} {raw val : List Char} {c : Char} (hc : c ∉ no)
    (hr : c ≠ '\r') (hn : c ≠ '\n') (h : Spells no cdata raw val) :
    Spells no cdata (raw ++ [c]) (val ++ [c]) := by
  induction h with
  | nil => exact .char hc hr .nil
  | char h1 h2 _ ih => exact .char h1 h2 ih
  | @cr raw val h1 _ ih =>
    refine .cr ?_ ih
    cases raw with
    | nil => simpa using hn
    | cons d raw => simpa using h1
  | crlf _ ih => exact .crlf ih
  | ref h1 h2 _ ih =>
    rw [List.append_assoc]
    exact .ref h1 h2 ih

theorem Spells.unsnoc {no : List Char} {raw v : List Char} {c : Char} (hr : c ≠ '\r') (hn : c ≠ '\n')
    (h : Spells no true (raw ++ [c]) v) : ∃ val, v = val ++ [c] ∧ Spells no true raw val := by
  generalize ht : raw ++ [c] = t at h
  induction h generalizing raw with
  | nil => simp at ht
  | @char d raw' val' h1 h2 h3 ih =>
    cases raw with
    | nil =>
      cases ht
      have hv : val' = [] := by
        generalize hz : ([] : List Char) = z at h3
        cases h3 with
        | nil => rfl
        | char => cases hz
        | cr => cases hz
        | crlf => cases hz
        | ref h1 => cases h1
      subst hv
      exact ⟨[], rfl, .nil⟩
    | cons e raw =>
      simp only [List.cons_append, List.cons.injEq] at ht
      obtain ⟨rfl, ht⟩ := ht
      obtain ⟨w, rfl, hw⟩ := ih ht
      exact ⟨e :: w, rfl, .char h1 h2 hw⟩
  | @cr raw' val' h1 h2 ih =>
    cases raw with
    | nil =>
      cases ht
      exact absurd rfl hr
    | cons e raw =>
      simp only [List.cons_append, List.cons.injEq] at ht
      obtain ⟨rfl, ht⟩ := ht
      obtain ⟨w, rfl, hw⟩ := ih ht
      refine ⟨'\n' :: w, rfl, .cr ?_ hw⟩
      cases raw with
      | nil => simp
      | cons d raw =>
        subst ht
        simpa using h1
  | @crlf raw' val' h2 ih =>
    cases raw with
    | nil => cases ht
    | cons e raw =>
      simp only [List.cons_append, List.cons.injEq] at ht
      obtain ⟨rfl, ht⟩ := ht
      cases raw with
      | nil =>
        cases ht
        exact absurd rfl hn
      | cons e raw =>
        simp only [List.cons_append, List.cons.injEq] at ht
        obtain ⟨rfl, ht⟩ := ht
        obtain ⟨w, rfl, hw⟩ := ih ht
        exact ⟨'\n' :: w, rfl, .crlf hw⟩
  | ref h1 => cases h1

/-- The characters that stand for themselves are those the reader takes as they are. -/
structure Mode (quote : Option Char) (cdata : Bool) (no : List Char) : Prop where
  mem : ∀ c, c ∉ no ↔ quote ≠ some c ∧ (cdata = false → c ≠ '<' ∧ c ≠ '&')
  quotes : ∀ q, quote = some q → q = '"' ∨ q = '\''

theorem mode_text : Mode none false ['<', '&'] := ⟨fun c => by simp, by simp⟩
theorem mode_cdata : Mode none true [] := ⟨fun c => by simp, by simp⟩
theorem mode_quoted {q : Char} (h : q = '"' ∨ q = '\'') : Mode (some q) false [q, '<', '&'] :=
  ⟨fun c => by simp [eq_comm], by rintro _ ⟨⟩; exact h⟩

theorem bracket_tail {a : Char} {s : List Char} (h : ¬ "]]>".toList <:+: a :: s) : ¬ "]]>".toList <:+: s :=
  fun hs => h (hs.trans (List.suffix_cons a s).isInfix)

theorem bracket_nul {s : List Char} (h : ¬ "]]>".toList <:+: s) : ¬ "]]>".toList <:+: '\x00' :: '\x00' :: s := by
  rw [List.infix_cons_iff, List.infix_cons_iff]
  rintro (h' | h' | h')
  · simp at h'
  · simp at h'
  · exact h h'

theorem bracket_head {b0 b1 b : Char} {s : List Char} (h : ¬ "]]>".toList <:+: b0 :: b1 :: b :: s) :
    ¬ (b0 = ']' ∧ b1 = ']' ∧ b = '>') := by
  rintro ⟨rfl, rfl, rfl⟩
  exact h ⟨[], s, rfl⟩

theorem Ref.head {e : List Char} {c : Char} (h : Ref e c) : ∃ e', e = '&' :: e' := by
  cases h <;> exact ⟨_, rfl⟩

theorem readText_spells [NameTables] {quote : Option Char} {cdata : Bool} {no raw val : List Char}
    (hm : Mode quote cdata no) (h : Spells no cdata raw val) :
    ∀ (b0 b1 : Char) (buf rest : List Char) (fuel : Nat),
      (quote = none → ¬ "]]>".toList <:+: b0 :: b1 :: raw) → (b1 = '\r' → raw.head? ≠ some '\n') →
      raw.length + rest.length ≤ fuel →
      ∃ fuel' b0' b1', rest.length ≤ fuel' ∧
        (cdata = true → ∃ pre, b0 :: b1 :: raw = pre ++ [b0', b1']) ∧
        readText quote cdata fuel b0 b1 buf (raw ++ rest) =
          readText quote cdata fuel' b0' b1' (val.reverse ++ buf) rest := by
  induction h with
  | nil =>
    intro b0 b1 buf rest fuel _ _ hf
    exact ⟨fuel, b0, b1, by simpa using hf, fun _ => ⟨[], rfl⟩, rfl⟩
  | @char c raw val h1 h2 _ ih =>
    intro b0 b1 buf rest fuel hb hn hf
    obtain ⟨m1, m2⟩ := (hm.mem c).1 h1
    cases fuel with
    | zero => simp at hf
    | succ fuel =>
      obtain ⟨fuel', b0', b1', i1, i2, i3⟩ := ih b1 c (c :: buf) rest fuel (fun hq => bracket_tail (hb hq))
        (fun e => absurd e h2) (by simp only [List.length_cons] at hf; omega)
      refine ⟨fuel', b0', b1', i1, fun hc => ?_, ?_⟩
      · obtain ⟨pre, hp⟩ := i2 hc
        exact ⟨b0 :: pre, by rw [hp]; rfl⟩
      · rw [List.cons_append, readText]
        rw [if_neg fun hh => bracket_head (hb hh.1) hh.2,
          if_neg fun hh => (m2 (by simpa using hh.2)).1 hh.1, if_neg m1,
          if_neg fun hh => (m2 (by simpa using hh.2)).2 hh.1, if_neg h2, if_neg, i3]
        · simp
        · rintro ⟨rfl, rfl⟩
          exact hn rfl (by simp)
  | @cr raw val h1 _ ih =>
    intro b0 b1 buf rest fuel hb hn hf
    cases fuel with
    | zero => simp at hf
    | succ fuel =>
      obtain ⟨fuel', b0', b1', i1, i2, i3⟩ := ih b1 '\r' ('\n' :: buf) rest fuel (fun hq => bracket_tail (hb hq))
        (fun _ => h1) (by simp only [List.length_cons] at hf; omega)
      refine ⟨fuel', b0', b1', i1, fun hc => ?_, ?_⟩
      · obtain ⟨pre, hp⟩ := i2 hc
        exact ⟨b0 :: pre, by rw [hp]; rfl⟩
      · rw [List.cons_append, readText]
        rw [if_neg fun hh => bracket_head (hb hh.1) hh.2, if_neg (by simp), if_neg, if_neg (by simp), if_pos rfl, i3]
        · simp
        · intro hq
          rcases hm.quotes _ hq with e | e <;> exact absurd e (by decide)
  | @crlf raw val _ ih =>
    intro b0 b1 buf rest fuel hb hn hf
    cases fuel with
    | zero => simp at hf
    | succ fuel =>
      cases fuel with
      | zero => simp only [List.length_cons] at hf; omega
      | succ fuel =>
        obtain ⟨fuel', b0', b1', i1, i2, i3⟩ := ih '\r' '\n' ('\n' :: buf) rest fuel
          (fun hq => bracket_tail (bracket_tail (hb hq)))
          (fun e => absurd e (by decide)) (by simp only [List.length_cons] at hf; omega)
        refine ⟨fuel', b0', b1', i1, fun hc => ?_, ?_⟩
        · obtain ⟨pre, hp⟩ := i2 hc
          exact ⟨b0 :: b1 :: pre, by rw [hp]; rfl⟩
        · have nq : ∀ c, c ≠ '"' → c ≠ '\'' → quote ≠ some c := by
            intro c h1 h2 hq
            rcases hm.quotes _ hq with e | e
            · exact h1 e
            · exact h2 e
          rw [List.cons_append, readText]
          rw [if_neg fun hh => bracket_head (hb hh.1) hh.2, if_neg (by simp), if_neg (nq _ (by decide) (by decide)),
            if_neg (by simp), if_pos rfl]
          rw [List.cons_append, readText]
          rw [if_neg (by simp), if_neg (by simp), if_neg (nq _ (by decide) (by decide)),
            if_neg (by simp), if_neg (by decide), if_pos ⟨rfl, rfl⟩, i3]
          simp
  | @ref r raw val c h1 h2 _ ih =>
    intro b0 b1 buf rest fuel hb hn hf
    subst h1
    obtain ⟨e, rfl⟩ := Ref.head h2
    have hr : readRef (e ++ (raw ++ rest)) = some (c, raw ++ rest) :=
      readRef_iff.2 ⟨'&' :: e, rfl, h2⟩
    cases fuel with
    | zero => simp at hf
    | succ fuel =>
      obtain ⟨fuel', b0', b1', i1, i2, i3⟩ := ih '\x00' '\x00' (c :: buf) rest fuel
        (fun hq => bracket_nul fun hi => hb hq
          (hi.trans ⟨b0 :: b1 :: '&' :: e, [], by simp⟩))
        (fun e => absurd e (by decide))
        (by simp only [List.cons_append, List.length_cons, List.length_append] at hf; omega)
      refine ⟨fuel', b0', b1', i1, fun hc => by simp at hc, ?_⟩
      rw [List.append_assoc, List.cons_append, readText]
      rw [if_neg (by simp), if_neg (by simp), if_neg, if_pos ⟨rfl, by simp⟩, hr]
      · simp only
        rw [i3]
        simp
      · intro hq
        rcases hm.quotes _ hq with e | e <;> exact absurd e (by decide)

theorem Ref.plain {e : List Char} {c : Char} (h : Ref e c) : ∀ d ∈ e, d ≠ ']' := by
  have hd : ∀ d ∈ "0123456789".toList, d ≠ ']' := by decide
  have hx : ∀ d ∈ "0123456789abcdefABCDEF".toList, d ≠ ']' := by decide
  cases h with
  | lt => decide
  | gt => decide
  | amp => decide
  | apos => decide
  | quot => decide
  | dec _ h _ =>
    intro d hm
    simp only [List.mem_append, List.mem_singleton] at hm
    rcases hm with (hm | hm) | rfl
    · revert d; decide
    · exact hd d (h d hm)
    · decide
  | hex _ h _ =>
    intro d hm
    simp only [List.mem_append, List.mem_singleton] at hm
    rcases hm with (hm | hm) | rfl
    · revert d; decide
    · exact hx d (h d hm)
    · decide

theorem bracket_append {t w : List Char} (ht : ∀ c ∈ t, c ≠ ']') (hw : ¬ "]]>".toList <:+: w) :
    ¬ "]]>".toList <:+: t ++ w := by
  induction t with
  | nil => exact hw
  | cons d t ih =>
    rw [List.cons_append, List.infix_cons_iff]
    rintro (h' | h')
    · obtain ⟨z, hz⟩ := h'
      simp only [String.reduceToList, List.cons_append, List.cons.injEq] at hz
      exact ht d (by simp) hz.1.symm
    · exact ih (fun c hc => ht c (by simp [hc])) h'

/-- Where the reader of a text stops, with what has been read so far and the two characters before. -/
inductive Stops (quote : Option Char) (cdata : Bool) (b0 b1 : Char) (buf : List Char) :
    (s out r : List Char) → Prop
  | eof : cdata = false → Stops quote cdata b0 b1 buf [] buf []
  | markup {s : List Char} : quote = none → cdata = false → Stops quote cdata b0 b1 buf ('<' :: s) buf ('<' :: s)
  | quote {q : Char} {s : List Char} : quote = some q → Stops quote cdata b0 b1 buf (q :: s) buf s
  | cdata {s : List Char} : quote = none → cdata = true → b0 = ']' → b1 = ']' →
      Stops quote cdata b0 b1 buf ('>' :: s) (buf.drop 2) s

theorem infix_pair {b0 b1 b : Char} {s : List Char} (h : ¬ (b0 = ']' ∧ b1 = ']' ∧ b = '>'))
    (hs : ¬ "]]>".toList <:+: b1 :: b :: s) : ¬ "]]>".toList <:+: b0 :: b1 :: b :: s := by
  rw [List.infix_cons_iff]
  rintro (h' | h')
  · obtain ⟨t, ht⟩ := h'
    simp only [String.reduceToList, List.cons_append, List.nil_append, List.cons.injEq] at ht
    exact h ⟨ht.1.symm, ht.2.1.symm, ht.2.2.1.symm⟩
  · exact hs h'

theorem spells_readText [NameTables] {quote : Option Char} {cdata : Bool} {no : List Char}
    (hm : Mode quote cdata no) (fuel : Nat) :
    ∀ (b0 b1 : Char) (buf s out r : List Char), (b1 = '\r' → s.head? ≠ some '\n') →
      readText quote cdata fuel b0 b1 buf s = some (out, r) →
      ∃ raw val rest b0' b1', s = raw ++ rest ∧ Spells no cdata raw val ∧
        (quote = none → ¬ "]]>".toList <:+: b0 :: b1 :: raw) ∧
        (cdata = true → ∃ pre, b0 :: b1 :: raw = pre ++ [b0', b1']) ∧
        Stops quote cdata b0' b1' (val.reverse ++ buf) rest out r := by
  have short : ∀ b0 b1 : Char, ¬ "]]>".toList <:+: [b0, b1] := fun b0 b1 hi => by simpa using hi.length_le
  induction fuel using Nat.strongRecOn with
  | ind fuel ih =>
  intro b0 b1 buf s out r hn h
  cases s with
  | nil =>
    rw [readText] at h
    split at h
    · cases h
    · next hc =>
      cases h
      exact ⟨[], [], [], b0, b1, rfl, .nil, fun _ => short b0 b1, fun _ => ⟨[], rfl⟩, .eof (by simpa using hc)⟩
  | cons b s =>
    cases fuel with
    | zero => simp [readText] at h
    | succ fuel =>
      have stop : ∀ {out r}, Stops quote cdata b0 b1 buf (b :: s) out r →
          ∃ raw val rest b0' b1', b :: s = raw ++ rest ∧ Spells no cdata raw val ∧
            (quote = none → ¬ "]]>".toList <:+: b0 :: b1 :: raw) ∧
            (cdata = true → ∃ pre, b0 :: b1 :: raw = pre ++ [b0', b1']) ∧
            Stops quote cdata b0' b1' (val.reverse ++ buf) rest out r := fun hs =>
        ⟨[], [], b :: s, b0, b1, rfl, .nil, fun _ => short b0 b1, fun _ => ⟨[], rfl⟩, hs⟩
      rw [readText] at h
      split_ifs at h with c1 c2 c3 c4 c5 c6 c7 c8
      · cases h
        obtain ⟨h1, h2, h3, rfl⟩ := c1
        exact stop (.cdata h1 c2 h2 h3)
      · cases h
        obtain ⟨rfl, h2⟩ := c3
        exact stop (.markup c4 (by simpa using h2))
      · cases h
        exact stop (.quote c5)
      · split at h
        · cases h
        · next c r' hr =>
          obtain ⟨e, he, href⟩ := readRef_iff.1 hr
          obtain ⟨rfl, hcd⟩ := c6
          have hcd : cdata = false := by simpa using hcd
          obtain ⟨raw, val, rest, b0', b1', i1, i2, i3, i4, i5⟩ :=
            ih fuel (by omega) _ _ _ _ _ _ (fun e => absurd e (by decide)) h
          subst i1
          obtain ⟨e', rfl⟩ := Ref.head href
          refine ⟨'&' :: e' ++ raw, c :: val, rest, b0', b1', by rw [he]; simp, .ref hcd href i2, fun hq => ?_,
            fun hc => by simp [hcd] at hc, by simpa using i5⟩
          have hw := bracket_append (Ref.plain href) (bracket_tail (bracket_tail (i3 hq)))
          refine infix_pair (by simp) ?_
          rw [List.infix_cons_iff]
          rintro (h' | h')
          · obtain ⟨z, hz⟩ := h'
            simp at hz
          · exact hw h'
      · subst c7
        have nq : quote ≠ some '\n' := by
          intro hq
          rcases hm.quotes _ hq with e | e <;> exact absurd e (by decide)
        by_cases hh : s.head? = some '\n'
        · cases s with
          | nil => simp at hh
          | cons d s =>
            simp only [List.head?_cons, Option.some.injEq] at hh
            subst hh
            cases fuel with
            | zero => simp [readText] at h
            | succ fuel =>
              rw [readText] at h
              rw [if_neg (by simp), if_neg (by simp), if_neg nq, if_neg (by simp), if_neg (by decide),
                if_pos ⟨rfl, rfl⟩] at h
              obtain ⟨raw, val, rest, b0', b1', i1, i2, i3, i4, i5⟩ :=
                ih fuel (by omega) _ _ _ _ _ _ (fun e => absurd e (by decide)) h
              subst i1
              refine ⟨'\r' :: '\n' :: raw, '\n' :: val, rest, b0', b1', rfl, .crlf i2, fun hq => ?_, fun hc => ?_,
                by simpa using i5⟩
              · refine infix_pair (by simp) (infix_pair (by simp) (i3 hq))
              · obtain ⟨pre, hp⟩ := i4 hc
                exact ⟨b0 :: b1 :: pre, by rw [hp]; rfl⟩
        · obtain ⟨raw, val, rest, b0', b1', i1, i2, i3, i4, i5⟩ :=
            ih fuel (by omega) _ _ _ _ _ _ (fun _ => hh) h
          subst i1
          refine ⟨'\r' :: raw, '\n' :: val, rest, b0', b1', rfl, .cr ?_ i2, fun hq => ?_, fun hc => ?_,
            by simpa using i5⟩
          · cases raw with
            | nil => simp
            | cons d raw => simpa using hh
          · exact infix_pair (by simp) (i3 hq)
          · obtain ⟨pre, hp⟩ := i4 hc
            exact ⟨b0 :: pre, by rw [hp]; rfl⟩
      · obtain ⟨h1, rfl⟩ := c8
        exact absurd rfl (hn h1)
      · obtain ⟨raw, val, rest, b0', b1', i1, i2, i3, i4, i5⟩ :=
          ih fuel (by omega) _ _ _ _ _ _ (fun e => absurd e c7) h
        subst i1
        refine ⟨b :: raw, b :: val, rest, b0', b1', rfl, .char ?_ c7 i2, fun hq => ?_, fun hc => ?_,
          by simpa using i5⟩
        · refine (hm.mem b).2 ⟨c5, fun hcd => ⟨fun e => c3 ⟨e, by simp [hcd]⟩, fun e => c6 ⟨e, by simp [hcd]⟩⟩⟩
        · exact infix_pair (fun hh => c1 ⟨hq, hh⟩) (i3 hq)
        · obtain ⟨pre, hp⟩ := i4 hc
          exact ⟨b0 :: pre, by rw [hp]; rfl⟩

/-! ## The three kinds of text -/

section Kinds
variable [NameTables]

theorem text_run {raw val r : List Char} (h : TextRun raw val) (hr : ∀ c ∈ r.head?, c = '<') :
    text none false (raw ++ r) = some (val, r) := by
  obtain ⟨_, h2, h3, h4⟩ := h
  obtain ⟨fuel, b0, b1, _, -, he⟩ := readText_spells mode_text h2 '\x00' '\x00' [] r (raw ++ r).length
    (fun _ => bracket_nul h4) (fun e => absurd e (by decide)) (by simp)
  unfold text
  rw [he]
  have : readText none false fuel b0 b1 (val.reverse ++ []) r = some (val.reverse ++ [], r) := by
    cases r with
    | nil => simp [readText]
    | cons c r =>
      have := hr c (by simp)
      subst this
      cases fuel with
      | zero => simp at *
      | succ fuel => simp [readText]
  rw [this]
  simp only [List.append_nil, List.reverse_reverse]
  rw [if_pos (all_inRange.2 fun c hc => h3 c (by simpa using hc))]

theorem run_text {s val r : List Char} (hs : s ≠ []) (hh : s.head? ≠ some '<')
    (h : text none false s = some (val, r)) :
    ∃ raw, s = raw ++ r ∧ TextRun raw val ∧ ∀ c ∈ r.head?, c = '<' := by
  unfold text at h
  split at h
  · cases h
  · next buf r' hb =>
    split at h
    · next hl =>
      simp only [Option.some.injEq, Prod.mk.injEq] at h
      obtain ⟨rfl, rfl⟩ := h
      obtain ⟨raw, val, rest, b0, b1, i1, i2, i3, -, i5⟩ :=
        spells_readText mode_text _ _ _ _ _ _ _ (fun e => absurd e (by decide)) hb
      have hv : TextRun raw val ∨ raw = [] := by
        by_cases hr : raw = []
        · exact .inr hr
        · refine .inl ⟨hr, i2, fun c hc => ?_, bracket_tail (bracket_tail (i3 rfl))⟩
          cases i5 with
          | eof => exact all_inRange.1 hl c (by simpa using hc)
          | markup => exact all_inRange.1 hl c (by simpa using hc)
          | quote hq => cases hq
          | cdata _ hc => cases hc
      cases i5 with
      | eof =>
        rcases hv with hv | rfl
        · exact ⟨raw, i1, by simpa using hv, by simp⟩
        · simp at i1
          exact absurd i1 hs
      | markup =>
        rcases hv with hv | rfl
        · exact ⟨raw, i1, by simpa using hv, by simp⟩
        · subst i1
          simp at hh
      | quote hq => cases hq
      | cdata _ hc => cases hc
    · cases h

theorem quote_text {q : Char} {raw val r : List Char} (hq : q = '"' ∨ q = '\'')
    (h : Spells [q, '<', '&'] false raw val) (hl : ∀ c ∈ val, Legal c) :
    text (some q) false (raw ++ q :: r) = some (val, r) := by
  obtain ⟨fuel, b0, b1, hf, -, he⟩ := readText_spells (mode_quoted hq) h '\x00' '\x00' [] (q :: r)
    (raw ++ q :: r).length (by simp) (fun e => absurd e (by decide)) (by simp)
  unfold text
  rw [he]
  have hlt : q ≠ '<' := by rcases hq with rfl | rfl <;> decide
  cases fuel with
  | zero => simp at hf
  | succ fuel =>
    rw [readText, if_neg (by simp), if_neg fun hh => hlt hh.1, if_pos rfl]
    simp only [List.append_nil, List.reverse_reverse]
    rw [if_pos (all_inRange.2 fun c hc => hl c (by simpa using hc))]

theorem text_quote {q : Char} {s val r : List Char} (hq : q = '"' ∨ q = '\'')
    (h : text (some q) false s = some (val, r)) (hr : r ≠ []) :
    ∃ raw, s = raw ++ q :: r ∧ Spells [q, '<', '&'] false raw val ∧ ∀ c ∈ val, Legal c := by
  unfold text at h
  split at h
  · cases h
  · next buf r' hb =>
    split at h
    · next hl =>
      simp only [Option.some.injEq, Prod.mk.injEq] at h
      obtain ⟨rfl, rfl⟩ := h
      obtain ⟨raw, val, rest, b0, b1, i1, i2, i3, -, i5⟩ :=
        spells_readText (mode_quoted hq) _ _ _ _ _ _ _ (fun e => absurd e (by decide)) hb
      cases i5 with
      | eof => exact absurd rfl hr
      | markup hq => cases hq
      | quote hq' =>
        cases hq'
        exact ⟨raw, i1, by simpa using i2, fun c hc => all_inRange.1 hl c (by simpa using hc)⟩
      | cdata hq => cases hq
    · cases h

theorem cdata_text {raw val r : List Char} (h : Spells [] true raw val) (hl : ∀ c ∈ val, Legal c)
    (hb : ¬ "]]>".toList <:+: raw) :
    text none true (raw ++ "]]>".toList ++ r) = some (val, r) := by
  have h' : Spells [] true (raw ++ [']'] ++ [']']) (val ++ [']'] ++ [']']) :=
    Spells.snoc (by simp) (by decide) (by decide) (Spells.snoc (by simp) (by decide) (by decide) h)
  have hb' : ¬ "]]>".toList <:+: raw ++ [']'] ++ [']'] := by
    have no : ∀ w : List Char, ¬ "]]>".toList <:+ w ++ [']'] := by
      rintro w ⟨x, hx⟩
      have := congrArg List.getLast? hx
      simp at this
    intro hi
    rcases List.infix_concat_iff.1 hi with hi | hi
    · exact no _ hi
    · rcases List.infix_concat_iff.1 hi with hi | hi
      · exact no _ hi
      · exact hb hi
  obtain ⟨fuel, b0, b1, hf, hp, he⟩ := readText_spells mode_cdata h' '\x00' '\x00' [] ('>' :: r)
    (raw ++ "]]>".toList ++ r).length (fun _ => bracket_nul hb') (fun e => absurd e (by decide))
    (by simp; omega)
  obtain ⟨pre, hp⟩ := hp rfl
  have hb : b0 = ']' ∧ b1 = ']' := by
    have e1 := congrArg List.reverse hp
    simp only [List.reverse_cons, List.reverse_append, List.reverse_nil, List.nil_append, List.cons_append,
      List.cons.injEq] at e1
    exact ⟨e1.2.1.symm, e1.1.symm⟩
  obtain ⟨rfl, rfl⟩ := hb
  have hs : raw ++ "]]>".toList ++ r = raw ++ [']'] ++ [']'] ++ '>' :: r := by simp
  unfold text
  rw [hs] at he ⊢
  rw [he]
  cases fuel with
  | zero => simp at hf
  | succ fuel =>
    rw [readText, if_pos ⟨rfl, rfl, rfl, rfl⟩, if_pos rfl]
    simp only [List.append_nil, List.reverse_append, List.reverse_cons, List.reverse_nil,
      List.nil_append, List.cons_append, List.drop_succ_cons, List.drop_zero]
    rw [if_pos (all_inRange.2 fun c hc => hl c (by simpa using hc))]
    simp

theorem text_cdata {s val r : List Char} (h : text none true s = some (val, r)) :
    ∃ raw, s = raw ++ "]]>".toList ++ r ∧ Spells [] true raw val ∧ (∀ c ∈ val, Legal c) ∧
      ¬ "]]>".toList <:+: raw := by
  unfold text at h
  split at h
  · cases h
  · next buf r' hb =>
    split at h
    · next hl =>
      simp only [Option.some.injEq, Prod.mk.injEq] at h
      obtain ⟨rfl, rfl⟩ := h
      obtain ⟨raw, val, rest, b0, b1, i1, i2, i3, i4, i5⟩ :=
        spells_readText mode_cdata _ _ _ _ _ _ _ (fun e => absurd e (by decide)) hb
      cases i5 with
      | eof hc => cases hc
      | markup _ hc => cases hc
      | quote hq' => cases hq'
      | cdata _ _ e1 e2 =>
        subst e1 e2
        obtain ⟨pre, hp⟩ := i4 rfl
        have : ∃ raw', raw = raw' ++ [']'] ++ [']'] := by
          have e1 := congrArg List.reverse hp
          rcases List.eq_nil_or_concat raw with rfl | ⟨raw, c, rfl⟩
          · simp at e1
          · rcases List.eq_nil_or_concat raw with rfl | ⟨raw, d, rfl⟩
            · simp at e1
            · simp only [List.concat_eq_append, List.reverse_cons, List.reverse_append, List.reverse_nil,
                List.nil_append, List.cons_append, List.cons.injEq] at e1
              obtain ⟨rfl, rfl, -⟩ := e1
              exact ⟨raw, by simp⟩
        obtain ⟨raw', rfl⟩ := this
        obtain ⟨v1, rfl, j1⟩ := Spells.unsnoc (by decide) (by decide) i2
        obtain ⟨v2, rfl, j2⟩ := Spells.unsnoc (by decide) (by decide) j1
        refine ⟨raw', by rw [i1]; simp, by simpa using j2, fun c hc => all_inRange.1 hl c (by simpa using hc), fun hi => ?_⟩
        exact bracket_tail (bracket_tail (i3 rfl)) (hi.trans ⟨[], [']', ']'], by simp⟩)
    · cases h

end Kinds

/-! ## Comments -/

theorem ends_nul {w x : List Char} {a b : Char} (ha : a ≠ '\x00') (hb : b ≠ '\x00')
    (h : '\x00' :: '\x00' :: w = x ++ [a, b]) : ∃ body, w = body ++ [a, b] := by
  have e1 := congrArg List.reverse h
  rcases List.eq_nil_or_concat w with rfl | ⟨w, c, rfl⟩
  · simp only [List.reverse_cons, List.reverse_append, List.reverse_nil, List.nil_append, List.cons_append,
      List.cons.injEq] at e1
    exact absurd e1.1.symm hb
  · rcases List.eq_nil_or_concat w with rfl | ⟨w, d, rfl⟩
    · simp only [List.concat_eq_append, List.reverse_cons, List.reverse_append, List.reverse_nil,
        List.nil_append, List.cons_append, List.cons.injEq] at e1
      exact absurd e1.2.1.symm ha
    · simp only [List.concat_eq_append, List.reverse_cons, List.reverse_append, List.reverse_nil,
        List.nil_append, List.cons_append, List.cons.injEq] at e1
      obtain ⟨rfl, rfl, -⟩ := e1
      exact ⟨w, by simp⟩

theorem readComment_from {s r : List Char} {b0 b1 : Char} :
    readComment b0 b1 s = some r ↔ ∃ w x, s = w ++ '>' :: r ∧ b0 :: b1 :: w = x ++ ['-', '-'] ∧
      ¬ ['-', '-'] <:+: (b0 :: b1 :: w).dropLast := by
  induction s generalizing b0 b1 with
  | nil => simp [readComment]
  | cons b s ih =>
    rw [readComment]
    by_cases hd : b0 = '-' ∧ b1 = '-'
    · rw [if_pos hd]
      obtain ⟨rfl, rfl⟩ := hd
      constructor
      · intro h
        split at h
        · next hb =>
          cases h
          subst hb
          exact ⟨[], [], rfl, rfl, by simp [List.infix_cons_iff]⟩
        · cases h
      · rintro ⟨w, x, h1, h2, h3⟩
        cases w with
        | nil =>
          cases h1
          rfl
        | cons c w => exact absurd ⟨[], (c :: w).dropLast, by simp⟩ h3
    · rw [if_neg hd, ih]
      constructor
      · rintro ⟨w, x, rfl, h2, h3⟩
        refine ⟨b :: w, b0 :: x, rfl, by rw [h2]; rfl, ?_⟩
        rw [List.dropLast_cons_of_ne_nil (by simp), List.infix_cons_iff]
        rintro (⟨t, ht⟩ | h)
        · rw [List.dropLast_cons_of_ne_nil (by simp)] at ht
          simp only [List.cons_append, List.nil_append, List.cons.injEq] at ht
          exact hd ⟨ht.1.symm, ht.2.1.symm⟩
        · exact h3 h
      · rintro ⟨w, x, h1, h2, h3⟩
        cases w with
        | nil =>
          rcases x with _ | ⟨d, x⟩
          · simp only [List.nil_append, List.cons.injEq] at h2
            exact absurd ⟨h2.1, h2.2.1⟩ hd
          · have := congrArg List.length h2
            simp at this
        | cons c w =>
          simp only [List.cons_append, List.cons.injEq] at h1
          obtain ⟨rfl, rfl⟩ := h1
          rcases x with _ | ⟨d, x⟩
          · have := congrArg List.length h2
            simp at this
          · simp only [List.cons_append, List.cons.injEq] at h2
            refine ⟨w, x, rfl, h2.2, fun hi => h3 ?_⟩
            rw [List.dropLast_cons_of_ne_nil (by simp)]
            exact hi.trans (List.suffix_cons _ _).isInfix

theorem readComment_iff {s r : List Char} :
    readComment '\x00' '\x00' s = some r ↔ ∃ body, s = body ++ "-->".toList ++ r ∧
      ¬ "--".toList <:+: body ++ ['-'] := by
  rw [readComment_from]
  have e : ∀ body : List Char, ('\x00' :: '\x00' :: (body ++ ['-', '-'])).dropLast = '\x00' :: '\x00' :: (body ++ ['-']) := by
    intro body
    have : '\x00' :: '\x00' :: (body ++ ['-', '-']) = ('\x00' :: '\x00' :: (body ++ ['-'])) ++ ['-'] := by simp
    rw [this, List.dropLast_concat]
  constructor
  · rintro ⟨w, x, rfl, h2, h3⟩
    obtain ⟨body, rfl⟩ := ends_nul (by decide) (by decide) h2
    rw [e] at h3
    exact ⟨body, by simp, fun hi => h3 (hi.trans ⟨['\x00', '\x00'], [], by simp⟩)⟩
  · rintro ⟨body, rfl, h⟩
    refine ⟨body ++ ['-', '-'], '\x00' :: '\x00' :: body, by simp, by simp, ?_⟩
    rw [e, List.infix_cons_iff, List.infix_cons_iff]
    rintro (h' | h' | h')
    · simp at h'
    · simp at h'
    · exact h h'

theorem directiveComment_from {s r : List Char} {b0 b1 : Char} :
    directiveComment b0 b1 s = some r ↔ ∃ w x, s = w ++ '>' :: r ∧ b0 :: b1 :: w = x ++ ['-', '-'] ∧
      ¬ ['-', '-', '>'] <:+: b0 :: b1 :: w := by
  induction s generalizing b0 b1 with
  | nil => simp [directiveComment]
  | cons b s ih =>
    rw [directiveComment]
    by_cases hd : b0 = '-' ∧ b1 = '-' ∧ b = '>'
    · rw [if_pos hd]
      obtain ⟨rfl, rfl, rfl⟩ := hd
      constructor
      · intro h
        cases h
        exact ⟨[], [], rfl, rfl, by simp [List.infix_cons_iff]⟩
      · rintro ⟨w, x, h1, h2, h3⟩
        cases w with
        | nil =>
          cases h1
          rfl
        | cons c w =>
          simp only [List.cons_append, List.cons.injEq] at h1
          obtain ⟨rfl, -⟩ := h1
          exact absurd ⟨[], w, by simp⟩ h3
    · rw [if_neg hd, ih]
      constructor
      · rintro ⟨w, x, rfl, h2, h3⟩
        refine ⟨b :: w, b0 :: x, rfl, by rw [h2]; rfl, ?_⟩
        rw [List.infix_cons_iff]
        rintro (⟨t, ht⟩ | h)
        · simp only [List.cons_append, List.nil_append, List.cons.injEq] at ht
          exact hd ⟨ht.1.symm, ht.2.1.symm, ht.2.2.1.symm⟩
        · exact h3 h
      · rintro ⟨w, x, h1, h2, h3⟩
        cases w with
        | nil =>
          rcases x with _ | ⟨d, x⟩
          · simp only [List.nil_append, List.cons.injEq] at h2 h1
            exact absurd ⟨h2.1, h2.2.1, h1.1⟩ hd
          · have := congrArg List.length h2
            simp at this
        | cons c w =>
          simp only [List.cons_append, List.cons.injEq] at h1
          obtain ⟨rfl, rfl⟩ := h1
          rcases x with _ | ⟨d, x⟩
          · have := congrArg List.length h2
            simp at this
          · simp only [List.cons_append, List.cons.injEq] at h2
            exact ⟨w, x, rfl, h2.2, fun hi => h3 (hi.trans (List.suffix_cons _ _).isInfix)⟩

theorem directiveComment_iff {s r : List Char} :
    directiveComment '\x00' '\x00' s = some r ↔ ∃ body, s = body ++ "-->".toList ++ r ∧
      ¬ "-->".toList <:+: body ++ "--".toList := by
  rw [directiveComment_from]
  constructor
  · rintro ⟨w, x, rfl, h2, h3⟩
    obtain ⟨body, rfl⟩ := ends_nul (by decide) (by decide) h2
    exact ⟨body, by simp, fun hi => h3 (hi.trans ⟨['\x00', '\x00'], [], by simp⟩)⟩
  · rintro ⟨body, rfl, h⟩
    refine ⟨body ++ ['-', '-'], '\x00' :: '\x00' :: body, by simp, by simp, ?_⟩
    rw [List.infix_cons_iff, List.infix_cons_iff]
    rintro (h' | h' | h')
    · simp at h'
    · simp at h'
    · exact h h'

/-! ## Processing instructions -/

theorem readInstruction_from {s buf out r : List Char} {b0 : Char} :
    readInstruction b0 buf s = some (out, r) ↔ ∃ w x, s = w ++ '>' :: r ∧ b0 :: w = x ++ ['?'] ∧
      ¬ ['?', '>'] <:+: b0 :: w ∧ out = (w.reverse ++ buf).drop 1 := by
  induction s generalizing b0 buf with
  | nil => simp [readInstruction]
  | cons b s ih =>
    rw [readInstruction]
    by_cases hd : b0 = '?' ∧ b = '>'
    · rw [if_pos hd]
      obtain ⟨rfl, rfl⟩ := hd
      constructor
      · intro h
        cases h
        exact ⟨[], [], rfl, rfl, by simp [List.infix_cons_iff], by simp⟩
      · rintro ⟨w, x, h1, h2, h3, rfl⟩
        cases w with
        | nil =>
          cases h1
          simp
        | cons c w =>
          simp only [List.cons_append, List.cons.injEq] at h1
          obtain ⟨rfl, -⟩ := h1
          exact absurd ⟨[], w, by simp⟩ h3
    · rw [if_neg hd, ih]
      constructor
      · rintro ⟨w, x, rfl, h2, h3, rfl⟩
        refine ⟨b :: w, b0 :: x, rfl, by rw [h2]; rfl, ?_, by simp⟩
        rw [List.infix_cons_iff]
        rintro (⟨t, ht⟩ | h)
        · simp only [List.cons_append, List.nil_append, List.cons.injEq] at ht
          exact hd ⟨ht.1.symm, ht.2.1.symm⟩
        · exact h3 h
      · rintro ⟨w, x, h1, h2, h3, rfl⟩
        cases w with
        | nil =>
          rcases x with _ | ⟨d, x⟩
          · simp only [List.nil_append, List.cons.injEq] at h2 h1
            exact absurd ⟨h2.1, h1.1⟩ hd
          · have := congrArg List.length h2
            simp at this
        | cons c w =>
          simp only [List.cons_append, List.cons.injEq] at h1
          obtain ⟨rfl, rfl⟩ := h1
          rcases x with _ | ⟨d, x⟩
          · have := congrArg List.length h2
            simp at this
          · simp only [List.cons_append, List.cons.injEq] at h2
            exact ⟨w, x, rfl, h2.2, fun hi => h3 (hi.trans (List.suffix_cons _ _).isInfix), by simp⟩

theorem readInstruction_iff {s out r : List Char} :
    readInstruction '\x00' [] s = some (out, r) ↔ ∃ data, s = data ++ "?>".toList ++ r ∧
      ¬ "?>".toList <:+: data ∧ out = data.reverse := by
  rw [readInstruction_from]
  constructor
  · rintro ⟨w, x, rfl, h2, h3, rfl⟩
    rcases List.eq_nil_or_concat w with rfl | ⟨w, c, rfl⟩
    · have := congrArg List.reverse h2
      simp at this
    · have e := congrArg List.reverse h2
      simp only [List.concat_eq_append, List.reverse_cons, List.reverse_append, List.reverse_nil,
        List.nil_append, List.cons_append, List.cons.injEq] at e
      obtain ⟨rfl, -⟩ := e
      exact ⟨w, by simp, fun hi => h3 (hi.trans ⟨['\x00'], ['?'], by simp⟩), by simp⟩
  · rintro ⟨data, rfl, h, rfl⟩
    refine ⟨data ++ ['?'], '\x00' :: data, by simp, by simp, ?_, by simp⟩
    rw [List.infix_cons_iff]
    rintro (h' | h')
    · simp at h'
    · rcases List.infix_concat_iff.1 h' with ⟨x, hx⟩ | h'
      · have := congrArg List.getLast? hx
        simp at this
      · exact h h'

theorem quoted_eq {q : Char} {v post : List Char} (hq : q = '"' ∨ q = '\'') (hv : q ∉ v) :
    quoted (q :: v ++ q :: post) = v := by
  obtain ⟨h1, -⟩ := run_take (p := fun c => decide (c ≠ q)) (n := v) (s := q :: post)
    (fun c hc => by
      simp only [decide_not, Bool.not_eq_true', decide_eq_false_iff_not]
      rintro rfl
      exact hv hc) (by simp)
  rw [List.cons_append, quoted, if_pos ⟨hq, by simp⟩]
  exact h1

theorem eq_quoted {s v : List Char} (h : quoted s = v) (hv : v ≠ []) :
    ∃ q post, s = q :: v ++ q :: post ∧ (q = '"' ∨ q = '\'') ∧ q ∉ v := by
  cases s with
  | nil => exact absurd h.symm hv
  | cons q s =>
    rw [quoted] at h
    split at h
    · next hq =>
      obtain ⟨h1, h2, h3⟩ := take_run (fun c => decide (c ≠ q)) s
      rw [h] at h1 h2
      cases hd : s.dropWhile (fun c => decide (c ≠ q)) with
      | nil =>
        rw [hd, List.append_nil] at h1
        rw [h1] at hq
        have := h2 q hq.2
        simp at this
      | cons c post =>
        rw [hd] at h1 h3
        have : c = q := by simpa using h3 c (by simp)
        subst this
        exact ⟨c, post, by rw [h1]; rfl, hq.1, fun hm => by simpa using h2 c hm⟩
    · exact absurd h.symm hv

theorem procInst_of_declares {param data v : List Char} (hp : param ≠ []) (h : Declares param data v) :
    procInst param data = v := by
  obtain ⟨pre, q, post, rfl, hq, hv, hf⟩ := h
  induction pre with
  | nil =>
    cases hs : [] ++ param ++ q :: v ++ q :: post with
    | nil => simp at hs
    | cons c s =>
      rw [procInst, ← hs, if_pos (List.isPrefixOf_iff_prefix.2 ⟨q :: v ++ q :: post, by simp⟩)]
      have : ([] ++ param ++ q :: v ++ q :: post).drop param.length = q :: v ++ q :: post := by simp
      rw [this, quoted_eq hq hv]
  | cons c pre ih =>
    have hn : ¬ param.isPrefixOf (c :: (pre ++ param ++ q :: v ++ q :: post)) := by
      rw [List.isPrefixOf_iff_prefix]
      intro hpre
      refine hf (List.IsPrefix.isInfix (List.prefix_of_prefix_length_le hpre ⟨?_, ?_⟩ ?_))
      · exact [param.getLast hp] ++ (q :: v ++ q :: post)
      · conv_rhs => rw [← List.dropLast_concat_getLast hp]
        simp
      · have : 0 < param.length := List.length_pos_iff.2 hp
        simp only [List.cons_append, List.length_cons, List.length_append, List.length_dropLast]
        omega
    rw [List.cons_append, List.cons_append, List.cons_append, procInst, if_neg]
    · have := ih fun hi => hf (hi.trans (List.suffix_cons _ _).isInfix)
      simpa using this
    · simpa using hn

theorem declares_of_procInst {param data : List Char} (hp : param ≠ []) (h : procInst param data ≠ []) :
    Declares param data (procInst param data) := by
  induction data with
  | nil => exact absurd rfl h
  | cons c s ih =>
    rw [procInst] at h ⊢
    split at h
    · next hpre =>
      rw [if_pos hpre]
      obtain ⟨t, ht⟩ := List.isPrefixOf_iff_prefix.1 hpre
      obtain ⟨q, post, h1, h2, h3⟩ := eq_quoted rfl h
      refine ⟨[], q, post, ?_, h2, h3, fun hi => ?_⟩
      · rw [List.nil_append, List.append_assoc, ← h1, ← ht]
        simp
      · have := hi.length_le
        have : 0 < param.length := List.length_pos_iff.2 hp
        simp only [List.nil_append, List.length_dropLast] at *
        omega
    · next hpre =>
      rw [if_neg hpre]
      obtain ⟨pre, q, post, h1, h2, h3, h4⟩ := ih h
      refine ⟨c :: pre, q, post, by simpa using h1, h2, h3, ?_⟩
      rw [List.cons_append, List.infix_cons_iff]
      rintro (hi | hi)
      · refine hpre (List.isPrefixOf_iff_prefix.2 (hi.trans ⟨[param.getLast hp] ++ (q :: procInst param s ++ q :: post), ?_⟩))
        generalize procInst param s = v at h1 ⊢
        subst h1
        conv_rhs => rw [← List.dropLast_concat_getLast hp]
        simp
      · exact h4 hi

theorem procInst_all {param data : List Char} (hp : param ≠ []) {P : List Char → Prop} :
    (procInst param data = [] ∨ P (procInst param data)) ↔ ∀ v, Declares param data v → v = [] ∨ P v := by
  constructor
  · intro h v hv
    rw [← procInst_of_declares hp hv]
    exact h
  · intro h
    by_cases he : procInst param data = []
    · exact .inl he
    · exact h _ (declares_of_procInst hp he)

theorem procInst_blank {param b data : List Char} (hb : ∀ c ∈ b, isBlank c = true)
    (hp : ∀ c ∈ param.head?, isBlank c = false) (hn : param ≠ []) : procInst param (b ++ data) = procInst param data := by
  induction b with
  | nil => rfl
  | cons c b ih =>
    rw [List.cons_append, procInst, if_neg, ih fun d hd => hb d (by simp [hd])]
    rw [List.isPrefixOf_iff_prefix]
    cases param with
    | nil => exact absurd rfl hn
    | cons d param =>
      rintro ⟨t, ht⟩
      simp only [List.cons_append, List.cons.injEq] at ht
      have h1 := hb c (by simp)
      have h2 := hp d (by simp)
      rw [← ht.1, h2] at h1
      cases h1

theorem lower_eq (c : Char) : lower c = c.toLower := by
  unfold lower
  split
  · next h =>
    have h1 : 65 ≤ c.toNat := h.1
    have h2 : c.toNat ≤ 90 := h.2
    rw [char_of_nat c]
    interval_cases c.toNat <;> decide
  · next h =>
    unfold Char.toLower
    split
    · next h' => exact absurd ⟨h'.1, h'.2⟩ h
    · rfl

theorem lower_map (l : List Char) : l.map lower = l.map Char.toLower :=
  List.map_congr_left fun c _ => lower_eq c

theorem declarationOk_iff {b data : List Char} (hb : ∀ c ∈ b, isBlank c = true) :
    declarationOk data = true ↔
      (∀ v, Declares "version=".toList (b ++ data) v → v = [] ∨ v = "1.0".toList) ∧
      ∀ v, Declares "encoding=".toList (b ++ data) v → v = [] ∨ v.map Char.toLower = "utf-8".toList := by
  unfold declarationOk
  rw [← procInst_all (by decide) (P := fun v => v = "1.0".toList),
    ← procInst_all (by decide) (P := fun v => v.map Char.toLower = "utf-8".toList),
    procInst_blank hb (by decide) (by decide), procInst_blank hb (by decide) (by decide)]
  simp only [Bool.and_eq_true, Bool.or_eq_true, decide_eq_true_eq, lower_map]

theorem apart_head {x t : List Char} {c : Char} (h : Apart (x ++ c :: t)) : Apart (x ++ [c]) := by
  cases x <;> simpa [Apart] using h

theorem head_apart {x t : List Char} {c : Char} (h : Apart (x ++ [c])) : Apart (x ++ c :: t) := by
  cases x <;> simpa [Apart] using h

theorem infix_append {p : Char} {ps t w : List Char} (ht : ∀ c ∈ t, c ≠ p) (hw : ¬ p :: ps <:+: w) :
    ¬ p :: ps <:+: t ++ w := by
  induction t with
  | nil => exact hw
  | cons d t ih =>
    rw [List.cons_append, List.infix_cons_iff]
    rintro (h' | h')
    · obtain ⟨z, hz⟩ := h'
      simp only [List.cons_append, List.cons.injEq] at hz
      exact ht d (by simp) hz.1.symm
    · exact ih (fun c hc => ht c (by simp [hc])) h'

theorem instruction_iff [NameTables] {s r : List Char} :
    instruction s = some r ↔ ∃ e, '<' :: '?' :: s = e ++ r ∧ Instruction e := by
  unfold instruction
  constructor
  · intro h
    split at h
    · cases h
    · next target s' hn =>
      split at h
      · cases h
      · next buf r' hr =>
        split at h
        · cases h
        · next hok =>
          cases h
          obtain ⟨h1, h2, h3⟩ := readName_iff.1 hn
          obtain ⟨data, h4, h5, rfl⟩ := readInstruction_iff.1 hr
          obtain ⟨g1, g2, -⟩ := take_run isBlank s'
          rw [h4] at g1
          rw [List.reverse_reverse] at hok
          generalize s'.takeWhile isBlank = b at g1 g2
          subst g1
          refine ⟨"<?".toList ++ target ++ (b ++ data) ++ "?>".toList, ?_,
            target, b ++ data, rfl, h2, ?_, ?_, fun ht => ?_⟩
          · rw [h1]
            simp
          · refine apart_head (t := '>' :: r) ?_
            simpa using h3
          · exact infix_append (fun c hc => by
              rintro rfl
              exact absurd (g2 _ hc) (by decide)) h5
          · have : declarationOk data = true := by
              by_contra hno
              exact hok ⟨ht, hno⟩
            exact (declarationOk_iff g2).1 this
  · rintro ⟨e, he, target, body, rfl, hn, ha, hi, hd⟩
    have hs : s = target ++ (body ++ '?' :: '>' :: r) := by simpa using he
    obtain ⟨g1, g2, g3⟩ := take_run isBlank body
    generalize hb : body.takeWhile isBlank = b at g1 g2
    generalize hw : body.dropWhile isBlank = data at g1 g3
    subst g1
    have hdrop : (b ++ data ++ '?' :: '>' :: r).dropWhile isBlank = data ++ '?' :: '>' :: r := by
      rw [List.append_assoc]
      refine (run_take g2 ?_).2
      cases data with
      | nil => simp; decide
      | cons c data => simpa using g3
    rw [readName_iff.2 ⟨hs, hn, head_apart ha⟩]
    simp only
    rw [hdrop, readInstruction_iff.2 ⟨data, (by simp : _ = data ++ "?>".toList ++ r), fun h => hi (h.trans (List.suffix_append _ _).isInfix), rfl⟩]
    simp only
    rw [List.reverse_reverse, if_neg]
    rintro ⟨ht, hno⟩
    exact hno ((declarationOk_iff g2).2 (hd ht))

/-! ## Directives -/

theorem InDirective.last {depth : Nat} {w : List Char} (h : InDirective depth w) : ∃ w', w = w' ++ ['>'] := by
  induction h with
  | done => exact ⟨[], rfl⟩
  | close _ ih => obtain ⟨w, rfl⟩ := ih; exact ⟨_ :: w, rfl⟩
  | opened _ _ ih => obtain ⟨w, rfl⟩ := ih; exact ⟨_ :: w, rfl⟩
  | @comment _ body _ _ _ ih =>
    obtain ⟨w, rfl⟩ := ih
    exact ⟨"<!--".toList ++ body ++ "-->".toList ++ w, by simp⟩
  | @quoted _ q body _ _ _ _ ih =>
    obtain ⟨w, rfl⟩ := ih
    exact ⟨q :: body ++ q :: w, by simp⟩
  | char _ _ ih => obtain ⟨w, rfl⟩ := ih; exact ⟨_ :: w, rfl⟩

theorem directive_quote {q : Char} {body s : List Char} {depth fuel : Nat} (hq : q ∉ body)
    (hf : body.length + 1 + s.length ≤ fuel) :
    ∃ fuel', s.length ≤ fuel' ∧ directive fuel (some q) depth (body ++ q :: s) = directive fuel' none depth s := by
  induction body generalizing fuel with
  | nil =>
    cases fuel with
    | zero => omega
    | succ fuel =>
      refine ⟨fuel, by simp at hf; omega, ?_⟩
      rw [List.nil_append, directive]
      simp
  | cons c body ih =>
    cases fuel with
    | zero => omega
    | succ fuel =>
      obtain ⟨fuel', h1, h2⟩ := ih (fuel := fuel) (fun h => hq (by simp [h])) (by simp at hf; omega)
      refine ⟨fuel', h1, ?_⟩
      rw [List.cons_append, directive]
      have : c ≠ q := fun e => hq (by simp [e])
      simp only [this, if_false]
      exact h2

theorem directive_of {depth : Nat} {w : List Char} (h : InDirective depth w) (r : List Char) (fuel : Nat)
    (hf : (w ++ r).length ≤ fuel) : directive fuel none depth (w ++ r) = some r := by
  induction h generalizing fuel with
  | done =>
    cases fuel with
    | zero => simp at hf
    | succ fuel => simp [directive]
  | @close depth s _ ih =>
    cases fuel with
    | zero => simp at hf
    | succ fuel =>
      rw [List.cons_append, directive]
      simp only [if_true, Nat.add_one_ne_zero, if_false, Nat.add_sub_cancel]
      exact ih fuel (by simpa using hf)
  | @opened depth s hn hs ih =>
    cases fuel with
    | zero => simp at hf
    | succ fuel =>
      have i := ih fuel (by simpa using hf)
      rw [List.cons_append, directive]
      simp only
      rw [if_neg (by decide), if_neg (by decide), if_pos trivial, if_neg, i]
      rw [List.isPrefixOf_iff_prefix]
      intro h1
      obtain ⟨w', rfl⟩ := InDirective.last hs
      refine hn ?_
      have h2 : w' ++ ['>'] <+: w' ++ ['>'] ++ r := List.prefix_append _ _
      rcases List.prefix_or_prefix_of_prefix h1 h2 with h | h
      · exact h
      · have hm : '>' ∈ "!--".toList := h.subset (by simp)
        exact absurd hm (by decide)
  | @comment depth body s hb _ ih =>
    cases fuel with
    | zero => simp at hf
    | succ fuel =>
      have i := ih fuel (by simp at hf ⊢; omega)
      have hs : "<!--".toList ++ body ++ "-->".toList ++ s ++ r =
          '<' :: '!' :: '-' :: '-' :: (body ++ "-->".toList ++ (s ++ r)) := by simp
      rw [hs, directive]
      simp only
      rw [if_neg (by decide), if_neg (by decide), if_pos trivial, if_pos (List.isPrefixOf_iff_prefix.2 (⟨body ++ "-->".toList ++ (s ++ r), rfl⟩ : "!--".toList <+: '!' :: '-' :: '-' :: (body ++ "-->".toList ++ (s ++ r))))]
      simp only [List.drop_succ_cons, List.drop_zero]
      rw [directiveComment_iff.2 ⟨body, rfl, hb⟩]
      exact i
  | @quoted depth q body s hq hb _ ih =>
    cases fuel with
    | zero => simp at hf
    | succ fuel =>
      obtain ⟨fuel', h1, h2⟩ := directive_quote (depth := depth) (s := s ++ r) (fuel := fuel) hb
        (by simp at hf ⊢; omega)
      have i := ih fuel' h1
      have hs : q :: body ++ q :: s ++ r = q :: (body ++ q :: (s ++ r)) := by simp
      have hgt : q ≠ '>' := by rcases hq with rfl | rfl <;> decide
      rw [hs, directive]
      simp only [hgt, if_false]
      rw [if_pos (by tauto), h2, i]
  | @char depth c s hc _ ih =>
    cases fuel with
    | zero => simp at hf
    | succ fuel =>
      have i := ih fuel (by simpa using hf)
      simp only [List.mem_cons, List.not_mem_nil, or_false, not_or] at hc
      rw [List.cons_append, directive]
      simp only [hc, if_false, or_self]
      exact i

theorem of_directive (fuel : Nat) : ∀ (depth : Nat) (s r : List Char),
    (directive fuel none depth s = some r → ∃ w, s = w ++ r ∧ InDirective depth w) ∧
    ∀ q, directive fuel (some q) depth s = some r → ∃ body w, s = body ++ q :: w ++ r ∧ q ∉ body ∧ InDirective depth w := by
  induction fuel with
  | zero =>
    intro depth s r
    refine ⟨fun h => ?_, fun q h => ?_⟩ <;> cases s <;> simp [directive] at h
  | succ fuel ih =>
    intro depth s r
    refine ⟨fun h => ?_, fun q h => ?_⟩
    · cases s with
      | nil => simp [directive] at h
      | cons b s =>
        rw [directive] at h
        split_ifs at h with c1 c2 c3 c4 c5
        · cases h
          subst c1 c2
          exact ⟨['>'], rfl, .done⟩
        · subst c1
          obtain ⟨w, rfl, hw⟩ := (ih _ _ _).1 h
          refine ⟨'>' :: w, rfl, ?_⟩
          have : depth = depth - 1 + 1 := by omega
          rw [this]
          exact .close hw
        · obtain ⟨body, w, rfl, h1, h2⟩ := (ih _ _ _).2 _ h
          exact ⟨b :: body ++ b :: w, by simp, .quoted (by tauto) h1 h2⟩
        · subst c4
          obtain ⟨t, rfl⟩ := List.isPrefixOf_iff_prefix.1 c5
          split at h
          · cases h
          · next r' hr =>
            obtain ⟨body, he, hb⟩ := directiveComment_iff.1 hr
            have he : t = body ++ "-->".toList ++ r' := by simpa using he
            subst he
            obtain ⟨w, rfl, hw⟩ := (ih _ _ _).1 h
            exact ⟨"<!--".toList ++ body ++ "-->".toList ++ w, by simp, .comment hb hw⟩
        · subst c4
          obtain ⟨w, rfl, hw⟩ := (ih _ _ _).1 h
          refine ⟨'<' :: w, rfl, .opened (fun hp => c5 ?_) hw⟩
          exact List.isPrefixOf_iff_prefix.2 (hp.trans (List.prefix_append _ _))
        · obtain ⟨w, rfl, hw⟩ := (ih _ _ _).1 h
          refine ⟨b :: w, rfl, .char ?_ hw⟩
          simp only [List.mem_cons, List.not_mem_nil, or_false, not_or]
          tauto
    · cases s with
      | nil => simp [directive] at h
      | cons b s =>
        rw [directive] at h
        by_cases hb : b = q
        · rw [if_pos hb] at h
          subst hb
          obtain ⟨w, rfl, hw⟩ := (ih _ _ _).1 h
          exact ⟨[], w, rfl, by simp, hw⟩
        · rw [if_neg hb] at h
          obtain ⟨body, w, rfl, h1, h2⟩ := (ih _ _ _).2 _ h
          exact ⟨b :: body, w, rfl, by simp [h1, Ne.symm hb], h2⟩

/-! ## Tags -/

section Tags
variable [NameTables]

theorem qual_head {n : List Char} (h : QualName n) : ∃ c cs, n = c :: cs ∧ NameStart c := by
  obtain ⟨c, cs, h1, h2, _⟩ := h.1
  exact ⟨c, cs, h1, h2⟩

theorem start_not {c : Char} (h : NameStart c) : isBlank c = false ∧ c ≠ '/' ∧ c ≠ '>' ∧ c ≠ '?' ∧ c ≠ '!' := by
  have hb := part_nameByte (.inl h)
  refine ⟨?_, ?_, ?_, ?_, ?_⟩
  · by_contra hc
    rw [Bool.not_eq_false] at hc
    rw [blank_plain (isBlank_iff.1 hc)] at hb
    cases hb
  all_goals
    rintro rfl
    revert hb
    decide

omit [NameTables] in
theorem blank_drop {b r : List Char} {c : Char} (hb : Blank b) (hc : isBlank c = false) :
    (b ++ c :: r).dropWhile isBlank = c :: r :=
  (run_take (blank_iff.1 hb) (by simpa using hc)).2

omit [NameTables] in
theorem blank_apart {b r : List Char} {c : Char} (hb : Blank b) (hc : nameByte c = false) : Apart (b ++ c :: r) := by
  rw [apart_iff]
  cases b with
  | nil => simpa using hc
  | cons d b => simpa using blank_plain (hb d (by simp))

theorem attrValue_of {q v r : List Char} (h : Quoted q v) : attrValue (q ++ r) = some (v, r) := by
  obtain ⟨c, raw, hc, rfl, h1, h2⟩ := h
  have : c :: raw ++ [c] ++ r = c :: (raw ++ c :: r) := by simp
  rw [this, attrValue, if_pos hc, quote_text hc h1 h2]

theorem of_attrValue {s v r : List Char} (h : attrValue s = some (v, r)) (hr : r ≠ []) :
    ∃ q, s = q ++ r ∧ Quoted q v := by
  cases s with
  | nil => cases h
  | cons c s =>
    rw [attrValue] at h
    split at h
    · next hc =>
      obtain ⟨raw, rfl, h1, h2⟩ := text_quote hc h hr
      exact ⟨c :: raw ++ [c], by simp, c, raw, hc, rfl, h1, h2⟩
    · cases h

/-- The end of a start tag. -/
def tagEnd (closed : Bool) : List Char := if closed then ['/', '>'] else ['>']

theorem readAttributes_of {a : List Char} {as : Attrs} (h : Attributes a as) {b : List Char} (hb : Blank b)
    (closed : Bool) (r : List Char) (fuel : Nat) (hf : (a ++ b ++ tagEnd closed ++ r).length ≤ fuel) :
    readAttributes fuel (a ++ b ++ tagEnd closed ++ r) = some (as, closed, r) := by
  induction h generalizing fuel with
  | nil =>
    cases fuel with
    | zero => cases closed <;> simp [tagEnd] at hf
    | succ fuel =>
      rw [readAttributes]
      cases closed with
      | true =>
        have : [] ++ b ++ tagEnd true ++ r = b ++ '/' :: '>' :: r := by simp [tagEnd]
        rw [this, blank_drop hb (by decide)]
        simp
      | false =>
        have : [] ++ b ++ tagEnd false ++ r = b ++ '>' :: r := by simp [tagEnd]
        rw [this, blank_drop hb (by decide)]
        simp
  | @cons b₀ n l b₁ b₂ q v a as h1 h2 h3 h4 h5 h6 _ ih =>
    cases fuel with
    | zero =>
      simp at hf
    | succ fuel =>
      obtain ⟨c, cs, rfl, hc⟩ := qual_head h2
      obtain ⟨n1, n2, n3, -, -⟩ := start_not hc
      obtain ⟨e, raw, he, rfl, g1, g2⟩ := h6
      have i := ih fuel (by
        simp only [List.length_append, List.length_cons] at hf ⊢
        omega)
      generalize hz : a ++ b ++ tagEnd closed ++ r = z at i
      have hs : b₀ ++ (c :: cs) ++ b₁ ++ '=' :: b₂ ++ (e :: raw ++ [e]) ++ a ++ b ++ tagEnd closed ++ r =
          b₀ ++ c :: (cs ++ (b₁ ++ '=' :: (b₂ ++ e :: (raw ++ e :: z)))) := by simp [← hz]
      rw [hs, readAttributes, blank_drop h1 n1]
      simp only
      rw [if_neg n2, if_neg n3]
      have hn : readQName (c :: (cs ++ (b₁ ++ '=' :: (b₂ ++ e :: (raw ++ e :: z))))) =
          some (cutName (c :: cs), b₁ ++ '=' :: (b₂ ++ e :: (raw ++ e :: z))) :=
        readQName_iff.2 ⟨c :: cs, rfl, h2, blank_apart h4 (by decide), rfl⟩
      rw [hn]
      simp only
      rw [blank_drop h4 (by decide)]
      simp only
      have hq : isBlank e = false := by rcases he with rfl | rfl <;> decide
      rw [blank_drop h5 hq]
      have := attrValue_of (r := z) (⟨e, raw, he, rfl, g1, g2⟩ : Quoted (e :: raw ++ [e]) v)
      have e2 : e :: raw ++ [e] ++ z = e :: (raw ++ e :: z) := by simp
      rw [e2] at this
      rw [this]
      simp only
      rw [i]
      simp only
      rw [localPart_iff.1 h3]

theorem of_readAttributes (fuel : Nat) : ∀ {s r : List Char} {as : Attrs} {closed : Bool},
    readAttributes fuel s = some (as, closed, r) →
    ∃ a b, s = a ++ b ++ tagEnd closed ++ r ∧ Attributes a as ∧ Blank b := by
  induction fuel with
  | zero => intro s r as closed h; cases h
  | succ fuel ih =>
    intro s r as closed h
    obtain ⟨g1, g2, g3⟩ := take_run isBlank s
    generalize s.takeWhile isBlank = b at g1 g2
    rw [readAttributes] at h
    generalize s.dropWhile isBlank = t at g1 g3 h
    split at h
    · cases h
    · next c t =>
      split at h
      · next hc =>
        subst hc
        split at h
        · next r' =>
          cases h
          exact ⟨[], b, by rw [g1]; simp [tagEnd], .nil, blank_iff.2 g2⟩
        · cases h
      · split at h
        · next hc =>
          subst hc
          cases h
          exact ⟨[], b, by rw [g1]; simp [tagEnd], .nil, blank_iff.2 g2⟩
        · split at h
          · cases h
          · next q s₂ hn =>
            obtain ⟨n, n1, n2, n3, rfl⟩ := readQName_iff.1 hn
            obtain ⟨k1, k2, -⟩ := take_run isBlank s₂
            generalize s₂.takeWhile isBlank = b₁ at k1 k2
            generalize s₂.dropWhile isBlank = t₂ at k1 h
            split at h
            · next s₃ =>
              obtain ⟨m1, m2, -⟩ := take_run isBlank s₃
              generalize s₃.takeWhile isBlank = b₂ at m1 m2
              generalize s₃.dropWhile isBlank = t₃ at m1 h
              split at h
              · cases h
              · next v s₄ hv =>
                split at h
                · cases h
                · next as' closed' r' ha =>
                  cases h
                  obtain ⟨a, b', e1, e2, e3⟩ := ih ha
                  obtain ⟨q, q1, q2⟩ := of_attrValue hv (by rw [e1]; cases closed <;> simp [tagEnd])
                  refine ⟨b ++ n ++ b₁ ++ '=' :: b₂ ++ q ++ a, b', ?_,
                    .cons (blank_iff.2 g2) n2 (localPart_iff.2 rfl) (blank_iff.2 k2) (blank_iff.2 m2) q2 e2, e3⟩
                  rw [g1, n1, k1, m1, q1, e1]
                  simp
            · cases h

/-! ## Tokens -/

/-- The texts of the tokens. -/
inductive TokenAt : List Char → Tok → Prop
  | text {raw val : List Char} : TextRun raw val → TokenAt raw (.text val)
  | cdata {raw val : List Char} : CData raw val → TokenAt raw (.text val)
  | skip {raw : List Char} : Skipped raw → TokenAt raw .skip
  | start {t n : List Char} {as : Attrs} {closed : Bool} : Tag t n as →
      TokenAt (t ++ tagEnd closed) (.start (cutName n) as closed)
  | stop {n b : List Char} : QualName n → Blank b →
      TokenAt ('<' :: '/' :: (n ++ b ++ ['>'])) (.stop (cutName n))

omit [NameTables] in
theorem tag_apart {a b r : List Char} (closed : Bool) (ha : Apart a) (hb : Blank b) :
    Apart (a ++ b ++ tagEnd closed ++ r) := by
  cases a with
  | nil =>
    cases closed with
    | true =>
      have := blank_apart (r := '>' :: r) hb (c := '/') (by decide)
      simpa [tagEnd] using this
    | false =>
      have := blank_apart (r := r) hb (c := '>') (by decide)
      simpa [tagEnd] using this
  | cons c a => simpa [Apart] using ha

omit [NameTables] in
theorem run_head {raw val : List Char} (h : TextRun raw val) : ∃ c cs, raw = c :: cs ∧ c ≠ '<' := by
  obtain ⟨h1, h2, -, -⟩ := h
  cases h2 with
  | nil => exact absurd rfl h1
  | @char c raw _ h => exact ⟨c, raw, rfl, fun e => h (by simp [e])⟩
  | cr => exact ⟨_, _, rfl, by decide⟩
  | crlf => exact ⟨_, _, rfl, by decide⟩
  | ref _ h _ =>
    obtain ⟨e, rfl⟩ := Ref.head h
    exact ⟨_, _, rfl, by decide⟩

theorem of_markup {s r : List Char} {k : Tok} (h : markup s = some (k, r)) :
    ∃ e, s = e ++ r ∧ TokenAt ('<' :: e) k := by
  cases s with
  | nil => cases h
  | cons b s =>
    unfold markup at h
    dsimp only at h
    split_ifs at h with c1 c2 c3
    · subst c1
      split at h
      · cases h
      · next q s₂ hn =>
        obtain ⟨n, n1, n2, n3, rfl⟩ := readQName_iff.1 hn
        obtain ⟨k1, k2, -⟩ := take_run isBlank s₂
        generalize s₂.takeWhile isBlank = b₁ at k1 k2
        generalize s₂.dropWhile isBlank = t₂ at k1 h
        split at h
        · next r' =>
          cases h
          refine ⟨'/' :: (n ++ b₁ ++ ['>']), ?_, .stop n2 (blank_iff.2 k2)⟩
          rw [n1, k1]
          simp
        · cases h
    · subst c2
      cases hi : instruction s with
      | none => rw [hi] at h; cases h
      | some r' =>
        rw [hi] at h
        cases h
        obtain ⟨e, e1, e2⟩ := instruction_iff.1 hi
        obtain ⟨t, body, rfl, e3⟩ := e2
        refine ⟨'?' :: (t ++ body ++ "?>".toList), by simpa using e1, .skip (.inr (.inl ⟨t, body, by simp, e3⟩))⟩
    · subst c3
      split at h
      · cases h
      · next c s =>
        split_ifs at h with d1 d2 d3
        · subst d1
          split at h
          · next s =>
            cases hi : readComment '\x00' '\x00' s with
            | none => rw [hi] at h; cases h
            | some r' =>
              rw [hi] at h
              cases h
              obtain ⟨body, rfl, hb⟩ := readComment_iff.1 hi
              exact ⟨'!' :: '-' :: '-' :: (body ++ "-->".toList), by simp, .skip (.inl ⟨body, by simp, hb⟩)⟩
          · cases h
        · subst d2
          obtain ⟨s', rfl⟩ := List.isPrefixOf_iff_prefix.1 d3
          have hd : ("CDATA[".toList ++ s').drop 6 = s' := rfl
          rw [hd] at h
          cases hi : text none true s' with
          | none => rw [hi] at h; cases h
          | some p =>
            obtain ⟨v, r'⟩ := p
            rw [hi] at h
            cases h
            obtain ⟨raw, rfl, g1, g2, g3⟩ := text_cdata hi
            exact ⟨'!' :: '[' :: ("CDATA[".toList ++ raw ++ "]]>".toList), by simp, .cdata ⟨raw, by simp, g1, g2, g3⟩⟩
        · cases hi : directive s.length none 0 s with
          | none => rw [hi] at h; cases h
          | some r' =>
            rw [hi] at h
            cases h
            obtain ⟨w, rfl, hw⟩ := (of_directive _ _ _ _).1 hi
            exact ⟨'!' :: c :: w, rfl, .skip (.inr (.inr ⟨c, w, rfl, d1, d2, hw⟩))⟩
    · split at h
      · cases h
      · next q s₂ hn =>
        obtain ⟨n, n1, n2, n3, rfl⟩ := readQName_iff.1 hn
        split at h
        · cases h
        · next as closed r' ha =>
          cases h
          obtain ⟨a, b', rfl, e1, e2⟩ := of_readAttributes _ ha
          refine ⟨n ++ a ++ b' ++ tagEnd closed, by rw [n1]; simp, ?_⟩
          refine TokenAt.start (t := '<' :: n ++ a ++ b') ⟨a, b', rfl, n2, e1, e2, ?_⟩
          cases a with
          | nil => simp [Apart]
          | cons c a => simpa [Apart] using n3

theorem markup_of {e r : List Char} {k : Tok} (h : TokenAt ('<' :: e) k) : markup (e ++ r) = some (k, r) := by
  generalize hz : '<' :: e = z at h
  cases h with
  | text h =>
    obtain ⟨c, cs, rfl, hc⟩ := run_head h
    simp only [List.cons.injEq] at hz
    exact absurd hz.1.symm hc
  | cdata h =>
    obtain ⟨raw, rfl, g1, g2, g3⟩ := h
    have he : e ++ r = '!' :: '[' :: ("CDATA[".toList ++ (raw ++ "]]>".toList ++ r)) := by
      have : e = '!' :: '[' :: ("CDATA[".toList ++ (raw ++ "]]>".toList)) := by simpa using hz
      rw [this]
      simp
    rw [he]
    unfold markup
    dsimp only
    rw [if_neg (by decide), if_neg (by decide), if_pos rfl]
    rw [if_neg (by decide), if_pos rfl, if_pos (List.isPrefixOf_iff_prefix.2 ⟨_, rfl⟩)]
    have hd : ("CDATA[".toList ++ (raw ++ "]]>".toList ++ r)).drop 6 = raw ++ "]]>".toList ++ r := rfl
    rw [hd, cdata_text g1 g2 g3]
    rfl
  | skip h =>
    rcases h with ⟨body, rfl, hb⟩ | h | ⟨c, w, rfl, h1, h2, hw⟩
    · have he : e ++ r = '!' :: '-' :: '-' :: (body ++ "-->".toList ++ r) := by
        have : e = '!' :: '-' :: '-' :: (body ++ "-->".toList) := by simpa using hz
        rw [this]
        simp
      rw [he]
      unfold markup
      dsimp only
      rw [if_neg (by decide), if_neg (by decide), if_pos rfl]
      rw [if_pos rfl]
      exact congrArg (Option.map fun r => (Tok.skip, r)) (readComment_iff.2 ⟨body, rfl, hb⟩)
    · have hi := h
      obtain ⟨t, body, rfl, -⟩ := h
      have he : e = '?' :: (t ++ body ++ "?>".toList) := by simpa using hz
      subst he
      have := instruction_iff.2 (⟨_, rfl, hi⟩ : ∃ e, '<' :: '?' :: (t ++ body ++ "?>".toList ++ r) = e ++ r ∧ Instruction e)
      rw [List.cons_append]
      unfold markup
      dsimp only
      rw [if_neg (by decide), if_pos rfl, this]
      rfl
    · have he : e = '!' :: c :: w := by simpa using hz
      subst he
      rw [List.cons_append, List.cons_append]
      unfold markup
      dsimp only
      rw [if_neg (by decide), if_neg (by decide), if_pos rfl]
      rw [if_neg h1, if_neg h2, directive_of hw r _ (Nat.le_refl _)]
      rfl
  | @start t n as closed h =>
    obtain ⟨a, b, rfl, hn, ha, hb, hap⟩ := h
    obtain ⟨c, cs, rfl, hc⟩ := qual_head hn
    obtain ⟨-, n1, -, n2, n3⟩ := start_not hc
    have he : e ++ r = c :: (cs ++ (a ++ b ++ tagEnd closed ++ r)) := by
      have : e = c :: (cs ++ (a ++ b ++ tagEnd closed)) := by simpa using hz
      rw [this]
      simp
    rw [he]
    unfold markup
    dsimp only
    rw [if_neg n1, if_neg n2, if_neg n3]
    have hq : readQName (c :: (cs ++ (a ++ b ++ tagEnd closed ++ r))) =
        some (cutName (c :: cs), a ++ b ++ tagEnd closed ++ r) :=
      readQName_iff.2 ⟨c :: cs, rfl, hn, tag_apart closed hap hb, rfl⟩
    rw [hq]
    simp only
    rw [readAttributes_of ha hb closed r _ (Nat.le_refl _)]
  | @stop n b hn hb =>
    have he : e ++ r = '/' :: (n ++ (b ++ '>' :: r)) := by
      have : e = '/' :: (n ++ b ++ ['>']) := by simpa using hz
      rw [this]
      simp
    rw [he]
    unfold markup
    dsimp only
    rw [if_pos rfl, readQName_iff.2 ⟨n, rfl, hn, blank_apart hb (by decide), rfl⟩]
    simp only
    rw [blank_drop hb (by decide)]
    rfl

theorem of_token {s r : List Char} {k : Tok} (hs : s ≠ []) (h : token s = some (k, r)) :
    ∃ e, s = e ++ r ∧ TokenAt e k ∧ e ≠ [] ∧ (e.head? ≠ some '<' → ∀ c ∈ r.head?, c = '<') := by
  unfold token at h
  split at h
  · next s =>
    obtain ⟨e, rfl, he⟩ := of_markup h
    exact ⟨'<' :: e, rfl, he, by simp, by simp⟩
  · next hx =>
    cases ht : text none false s with
    | none => rw [ht] at h; cases h
    | some p =>
      obtain ⟨v, r'⟩ := p
      rw [ht] at h
      cases h
      have hh : s.head? ≠ some '<' := by
        cases s with
        | nil => simp
        | cons c s =>
          intro e
          simp only [List.head?_cons, Option.some.injEq] at e
          exact hx s (by rw [e])
      obtain ⟨raw, rfl, g1, g2⟩ := run_text hs hh ht
      exact ⟨raw, rfl, .text g1, g1.1, fun _ => g2⟩

theorem tokenAt_head {e : List Char} {k : Tok} (h : TokenAt e k) :
    (∃ val, k = .text val ∧ TextRun e val) ∨ ∃ e', e = '<' :: e' := by
  cases h with
  | text ht => exact .inl ⟨_, rfl, ht⟩
  | cdata h => obtain ⟨raw, rfl, -⟩ := h; exact .inr ⟨_, rfl⟩
  | skip h =>
    rcases h with ⟨body, rfl, hb⟩ | ⟨t, body, rfl, -⟩ | ⟨c, w, rfl, h1, h2, hw⟩ <;> exact .inr ⟨_, rfl⟩
  | start h => obtain ⟨a, b, rfl, -⟩ := h; exact .inr ⟨_, rfl⟩
  | stop => exact .inr ⟨_, rfl⟩

theorem token_of {e r : List Char} {k : Tok} (h : TokenAt e k)
    (hr : e.head? ≠ some '<' → ∀ c ∈ r.head?, c = '<') : token (e ++ r) = some (k, r) := by
  have key : ∀ e', e = '<' :: e' → token (e ++ r) = some (k, r) := by
    rintro e' rfl
    exact markup_of h
  rcases tokenAt_head h with ⟨val, rfl, ht⟩ | ⟨e', he⟩
  · obtain ⟨c, cs, rfl, hc⟩ := run_head ht
    have := text_run ht (hr (by simpa using hc))
    unfold token
    split
    · next he => cases he; exact absurd rfl hc
    · rw [this]; rfl
  · exact key e' he

/-! ### Trees -/

omit [NameTables] in
theorem sourceOf_append (e r : List Char) : sourceOf (e ++ r) r = String.ofList e := by
  simp [sourceOf]

/-- What the reader does with a token written `e`. -/
def afterToken (fuel : Nat) (e r : List Char) (st : List Opened) (k : Tok) : Option Xml :=
  match k with
  | .text v => readTree fuel r (addNode (.text (String.ofList e) (String.ofList v)) st)
  | .skip => readTree fuel r (addNode (.text (String.ofList e) "") st)
  | .start n as false => readTree fuel r (⟨n, as, []⟩ :: st)
  | .start n as true =>
    match st with
    | [] => some (Opened.node ⟨n, as, []⟩)
    | st => readTree fuel r (addNode (Opened.node ⟨n, as, []⟩) st)
  | .stop n =>
    match st with
    | [] => none
    | o :: st =>
      if o.name = n then
        match st with
        | [] => some o.node
        | st => readTree fuel r (addNode o.node st)
      else none

theorem readTree_token {e r : List Char} {k : Tok} {fuel : Nat} {st : List Opened} (h : TokenAt e k)
    (hr : e.head? ≠ some '<' → ∀ c ∈ r.head?, c = '<') (hf : (e ++ r).length ≤ fuel) :
    ∃ fuel', fuel = fuel' + 1 ∧ r.length ≤ fuel' ∧ readTree fuel (e ++ r) st =
      afterToken fuel' e r st k := by
  have ht := token_of h hr
  have hne : ∃ c cs, e = c :: cs := by
    rcases tokenAt_head h with ⟨val, rfl, ht⟩ | ⟨e', he⟩
    · obtain ⟨c, cs, h, -⟩ := run_head ‹TextRun e val›
      exact ⟨c, cs, h⟩
    · exact ⟨_, _, he⟩
  obtain ⟨c, cs, rfl⟩ := hne
  cases fuel with
  | zero => simp at hf
  | succ fuel =>
    refine ⟨fuel, rfl, by simp at hf; omega, ?_⟩
    unfold readTree afterToken
    rw [← sourceOf_append (c :: cs) r]
    rw [List.cons_append] at *
    dsimp only
    rw [ht]
    cases k with
    | start n as closed => cases closed <;> rfl
    | _ => rfl

omit [NameTables] in
theorem content_nil {s : List Char} [NameTables] (h : Content s []) : s = [] := by
  cases h
  rfl

/-- Content inside an element is read into that element. -/
theorem readTree_content {c : List Char} {xs : List Xml} (h : Content c xs) (r : List Char)
    (hr : r.head? = some '<') (fuel : Nat) (o : Opened) (st : List Opened) (hf : (c ++ r).length ≤ fuel) :
    ∃ fuel', r.length ≤ fuel' ∧ readTree fuel (c ++ r) (o :: st) =
      readTree fuel' r ({ o with content := xs.reverse ++ o.content } :: st) := by
  induction h generalizing fuel o st r with
  | nil => exact ⟨fuel, hf, rfl⟩
  | @text raw val s xs h1 h2 _ ih =>
    rw [List.append_assoc] at hf ⊢
    obtain ⟨f, rfl, f1, f2⟩ := readTree_token (st := o :: st) (.text h1) (r := s ++ r) (fun _ => by
      cases s with
      | nil => simpa using fun c hc => by rw [hr] at hc; exact (Option.some.inj hc).symm
      | cons c s => simpa using h2) hf
    obtain ⟨f', g1, g2⟩ := ih r hr f ⟨o.name, o.attrs, .text (String.ofList raw) (String.ofList val) :: o.content⟩ st f1
    refine ⟨f', g1, ?_⟩
    rw [f2]
    simpa [afterToken, addNode] using g2
  | @cdata raw val s xs h1 _ ih =>
    rw [List.append_assoc] at hf ⊢
    have hh : raw.head? = some '<' := by obtain ⟨_, rfl, -⟩ := h1; rfl
    obtain ⟨f, rfl, f1, f2⟩ := readTree_token (st := o :: st) (.cdata h1) (r := s ++ r) (fun h => absurd hh h) hf
    obtain ⟨f', g1, g2⟩ := ih r hr f ⟨o.name, o.attrs, .text (String.ofList raw) (String.ofList val) :: o.content⟩ st f1
    refine ⟨f', g1, ?_⟩
    rw [f2]
    simpa [afterToken, addNode] using g2
  | @skipped raw s xs h1 _ ih =>
    rw [List.append_assoc] at hf ⊢
    have hh : raw.head? = some '<' := by
      rcases h1 with ⟨body, rfl, hb⟩ | ⟨t, body, rfl, -⟩ | ⟨c, w, rfl, h1, h2, hw⟩ <;> rfl
    obtain ⟨f, rfl, f1, f2⟩ := readTree_token (st := o :: st) (.skip h1) (r := s ++ r) (fun h => absurd hh h) hf
    obtain ⟨f', g1, g2⟩ := ih r hr f ⟨o.name, o.attrs, .text (String.ofList raw) "" :: o.content⟩ st f1
    refine ⟨f', g1, ?_⟩
    rw [f2]
    simpa [afterToken, addNode] using g2
  | @empty t n l s as xs h1 h2 _ ih =>
    have hh : (t ++ tagEnd true).head? = some '<' := by obtain ⟨_, _, rfl, -⟩ := h1; rfl
    have hq : QualName n := by obtain ⟨_, _, -, h, -⟩ := h1; exact h
    have hs : t ++ "/>".toList ++ s ++ r = (t ++ tagEnd true) ++ (s ++ r) := by simp [tagEnd]
    rw [hs] at hf ⊢
    obtain ⟨f, rfl, f1, f2⟩ := readTree_token (st := o :: st) (.start (closed := true) h1) (r := s ++ r)
      (fun h => absurd hh h) hf
    obtain ⟨f', g1, g2⟩ := ih r hr f ⟨o.name, o.attrs, .elem (String.ofList l) as [] :: o.content⟩ st f1
    refine ⟨f', g1, ?_⟩
    rw [f2]
    have hl := localPart_iff.1 h2
    simpa [afterToken, addNode, Opened.node, hl] using g2
  | @pair t n l b c s as ys xs h1 h2 h3 _ _ ih₁ ih₂ =>
    have hh : (t ++ tagEnd false).head? = some '<' := by obtain ⟨_, _, rfl, -⟩ := h1; rfl
    have hq : QualName n := by obtain ⟨_, _, -, h, -⟩ := h1; exact h
    have hs : t ++ '>' :: c ++ "</".toList ++ n ++ b ++ '>' :: s ++ r =
        (t ++ tagEnd false) ++ (c ++ (('<' :: '/' :: (n ++ b ++ ['>'])) ++ (s ++ r))) := by simp [tagEnd]
    rw [hs] at hf ⊢
    obtain ⟨f, rfl, f1, f2⟩ := readTree_token (st := o :: st) (.start (closed := false) h1)
      (r := c ++ (('<' :: '/' :: (n ++ b ++ ['>'])) ++ (s ++ r))) (fun h => absurd hh h) hf
    obtain ⟨f', g1, g2⟩ := ih₁ (('<' :: '/' :: (n ++ b ++ ['>'])) ++ (s ++ r)) rfl f ⟨cutName n, as, []⟩ (o :: st) f1
    obtain ⟨f'', rfl, k1, k2⟩ := readTree_token
      (st := ⟨cutName n, as, ys.reverse ++ []⟩ :: o :: st) (.stop hq h3) (r := s ++ r) (fun h => absurd rfl h) g1
    obtain ⟨f''', m1, m2⟩ := ih₂ r hr f'' ⟨o.name, o.attrs, .elem (String.ofList l) as ys :: o.content⟩ st k1
    refine ⟨f''', m1, ?_⟩
    have hl := localPart_iff.1 h2
    rw [f2]
    dsimp only [afterToken]
    rw [g2, k2]
    dsimp only [afterToken]
    rw [if_pos rfl]
    simpa [addNode, Opened.node, hl] using m2

/-- Before the first element nothing is kept. -/
theorem readTree_prolog {c : List Char} {xs : List Xml} (h : Content c xs) (hx : ∀ y ∈ xs, ∃ r v, y = .text r v)
    (r : List Char) (hr : r.head? = some '<') (fuel : Nat) (hf : (c ++ r).length ≤ fuel) :
    ∃ fuel', r.length ≤ fuel' ∧ readTree fuel (c ++ r) [] = readTree fuel' r [] := by
  induction h generalizing fuel r with
  | nil => exact ⟨fuel, hf, rfl⟩
  | @text raw val s xs h1 h2 _ ih =>
    rw [List.append_assoc] at hf ⊢
    obtain ⟨f, rfl, f1, f2⟩ := readTree_token (st := []) (.text h1) (r := s ++ r) (fun _ => by
      cases s with
      | nil => simpa using fun c hc => by rw [hr] at hc; exact (Option.some.inj hc).symm
      | cons c s => simpa using h2) hf
    obtain ⟨f', g1, g2⟩ := ih (fun y hy => hx y (.tail _ hy)) r hr f f1
    exact ⟨f', g1, by rw [f2]; exact g2⟩
  | @cdata raw val s xs h1 _ ih =>
    rw [List.append_assoc] at hf ⊢
    have hh : raw.head? = some '<' := by obtain ⟨_, rfl, -⟩ := h1; rfl
    obtain ⟨f, rfl, f1, f2⟩ := readTree_token (st := []) (.cdata h1) (r := s ++ r) (fun h => absurd hh h) hf
    obtain ⟨f', g1, g2⟩ := ih (fun y hy => hx y (.tail _ hy)) r hr f f1
    exact ⟨f', g1, by rw [f2]; exact g2⟩
  | @skipped raw s xs h1 _ ih =>
    rw [List.append_assoc] at hf ⊢
    have hh : raw.head? = some '<' := by
      rcases h1 with ⟨body, rfl, hb⟩ | ⟨t, body, rfl, -⟩ | ⟨c, w, rfl, h1, h2, hw⟩ <;> rfl
    obtain ⟨f, rfl, f1, f2⟩ := readTree_token (st := []) (.skip h1) (r := s ++ r) (fun h => absurd hh h) hf
    obtain ⟨f', g1, g2⟩ := ih (fun y hy => hx y (.tail _ hy)) r hr f f1
    exact ⟨f', g1, by rw [f2]; exact g2⟩
  | empty => obtain ⟨_, _, h⟩ := hx _ (.head _); cases h
  | pair => obtain ⟨_, _, h⟩ := hx _ (.head _); cases h

/-- The first element itself. -/
theorem readTree_root {e : List Char} {m : String} {as : Attrs} {ch : List Xml}
    (h : Content e [.elem m as ch]) (r : List Char) (fuel : Nat) (hf : (e ++ r).length ≤ fuel) :
    e.head? = some '<' ∧ readTree fuel (e ++ r) [] = some (.elem m as ch) := by
  generalize hz : [Xml.elem m as ch] = z at h
  cases h with
  | nil => cases hz
  | text => cases hz
  | cdata => cases hz
  | skipped => cases hz
  | @empty t n l s as xs h1 h2 h3 =>
    cases hz
    have := content_nil h3
    subst this
    have hh : (t ++ tagEnd true).head? = some '<' := by obtain ⟨_, _, rfl, -⟩ := h1; rfl
    have hq : QualName n := by obtain ⟨_, _, -, h, -⟩ := h1; exact h
    have hs : t ++ "/>".toList ++ [] ++ r = (t ++ tagEnd true) ++ r := by simp [tagEnd]
    rw [hs] at hf ⊢
    obtain ⟨f, rfl, f1, f2⟩ := readTree_token (st := []) (.start (closed := true) h1) (r := r)
      (fun h => absurd hh h) hf
    refine ⟨by simpa [tagEnd] using hh, ?_⟩
    rw [f2]
    simp [afterToken, Opened.node, localPart_iff.1 h2]
  | @pair t n l b c s as ys xs h1 h2 h3 h4 h5 =>
    simp only [List.cons.injEq, Xml.elem.injEq] at hz
    obtain ⟨⟨rfl, rfl, rfl⟩, rfl⟩ := hz
    have := content_nil h5
    subst this
    have hh : (t ++ tagEnd false).head? = some '<' := by obtain ⟨_, _, rfl, -⟩ := h1; rfl
    have hq : QualName n := by obtain ⟨_, _, -, h, -⟩ := h1; exact h
    have hs : t ++ '>' :: c ++ "</".toList ++ n ++ b ++ '>' :: [] ++ r =
        (t ++ tagEnd false) ++ (c ++ (('<' :: '/' :: (n ++ b ++ ['>'])) ++ r)) := by simp [tagEnd]
    refine ⟨by obtain ⟨_, _, rfl, -⟩ := h1; rfl, ?_⟩
    rw [hs] at hf ⊢
    obtain ⟨f, rfl, f1, f2⟩ := readTree_token (st := []) (.start (closed := false) h1)
      (r := c ++ (('<' :: '/' :: (n ++ b ++ ['>'])) ++ r)) (fun h => absurd hh h) hf
    obtain ⟨f', g1, g2⟩ := readTree_content h4 (('<' :: '/' :: (n ++ b ++ ['>'])) ++ r) rfl f ⟨cutName n, as, []⟩ [] f1
    obtain ⟨f'', rfl, k1, k2⟩ := readTree_token
      (st := [⟨cutName n, as, ch.reverse ++ []⟩]) (.stop hq h3) (r := r) (fun h => absurd rfl h) g1
    rw [f2]
    dsimp only [afterToken]
    rw [g2, k2]
    dsimp only [afterToken]
    rw [if_pos rfl]
    simp [Opened.node, localPart_iff.1 h2]

theorem document_readXml {s : List Char} {x : Xml} (h : Document s x) : readXml s = some x := by
  obtain ⟨p, e, rest, pre, n, as, ch, rfl, h1, h2, h3, rfl⟩ := h
  rw [readXml, List.append_assoc]
  have hh := (readTree_root h3 rest _ (Nat.le_refl _)).1
  obtain ⟨f, f1, f2⟩ := readTree_prolog h1 h2 (e ++ rest) (by simp [List.head?_append, hh]) _ (Nat.le_refl _)
  rw [f2]
  exact (readTree_root h3 rest f f1).2

/-- One step of the reader, backwards. -/
theorem readTree_step {fuel : Nat} {s : List Char} {st : List Opened} {x : Xml}
    (h : readTree fuel s st = some x) :
    ∃ fuel' e r k, fuel = fuel' + 1 ∧ s = e ++ r ∧ TokenAt e k ∧
      (e.head? ≠ some '<' → ∀ c ∈ r.head?, c = '<') ∧
      afterToken fuel' e r st k = some x := by
  cases s with
  | nil => cases fuel <;> cases h
  | cons c cs =>
    cases fuel with
    | zero => cases h
    | succ fuel =>
      unfold readTree at h
      cases ht : token (c :: cs) with
      | none => rw [ht] at h; cases h
      | some p =>
        obtain ⟨k, r⟩ := p
        rw [ht] at h
        obtain ⟨e, e1, e2, -, e3⟩ := of_token (by simp) ht
        refine ⟨fuel, e, r, k, rfl, e1, e2, e3, ?_⟩
        rw [← h]
        unfold afterToken
        rw [← sourceOf_append e r, ← e1]
        cases k with
        | start n as closed => cases closed <;> rfl
        | _ => rfl

theorem of_readTree (fuel : Nat) : ∀ (s : List Char) (o : Opened) (st : List Opened) (x : Xml),
    readTree fuel s (o :: st) = some x →
    ∃ c ys n b r fuel', s = c ++ "</".toList ++ n ++ b ++ '>' :: r ∧ Content c ys ∧ QualName n ∧
      cutName n = o.name ∧ Blank b ∧ fuel' < fuel ∧
      (match st with
      | [] => some (Opened.node { o with content := ys.reverse ++ o.content })
      | st => readTree fuel' r (addNode (Opened.node { o with content := ys.reverse ++ o.content }) st)) = some x := by
  induction fuel using Nat.strong_induction_on with
  | _ fuel ih =>
  intro s o st x h
  obtain ⟨f, e, r, k, rfl, rfl, hk, hr, h⟩ := readTree_step h
  have hlt := Nat.lt_succ_self f
  cases hk with
  | @text _ val ht =>
    obtain ⟨c, ys, n, b, r', f', rfl, i1, i2, i3, i4, i5, i6⟩ := ih f hlt _ _ _ _ h
    refine ⟨e ++ c, _, n, b, r', f', by simp, .text ht ?_ i1, i2, i3, i4, by omega, ?_⟩
    · obtain ⟨a, as, rfl, ha⟩ := run_head ht
      have := hr (by simpa using ha)
      cases c with
      | nil => simp
      | cons c cs => simpa using this
    · rw [← i6]
      cases st <;> simp
  | @cdata _ val ht =>
    obtain ⟨c, ys, n, b, r', f', rfl, i1, i2, i3, i4, i5, i6⟩ := ih f hlt _ _ _ _ h
    refine ⟨e ++ c, _, n, b, r', f', by simp, .cdata ht i1, i2, i3, i4, by omega, ?_⟩
    rw [← i6]
    cases st <;> simp
  | skip ht =>
    obtain ⟨c, ys, n, b, r', f', rfl, i1, i2, i3, i4, i5, i6⟩ := ih f hlt _ _ _ _ h
    refine ⟨e ++ c, _, n, b, r', f', by simp, .skipped ht i1, i2, i3, i4, by omega, ?_⟩
    rw [← i6]
    cases st <;> simp
  | @start t n as closed ht =>
    have hq : QualName n := by obtain ⟨_, _, -, h, -⟩ := ht; exact h
    cases closed with
    | true =>
      obtain ⟨c, ys, n', b, r', f', rfl, i1, i2, i3, i4, i5, i6⟩ := ih f hlt _ _ _ _ h
      refine ⟨t ++ "/>".toList ++ c, _, n', b, r', f', by simp [tagEnd], .empty ht (localPart_iff.2 rfl) i1, i2, i3, i4, by omega, ?_⟩
      rw [← i6]
      cases st <;> simp [Opened.node]
    | false =>
      obtain ⟨c, ys, n', b, r', f', rfl, i1, i2, i3, i4, i5, i6⟩ := ih f hlt _ _ _ _ h
      have := cutName_inj i3.symm
      subst this
      obtain ⟨c₂, ys₂, n₂, b₂, r₂, f₂, rfl, j1, j2, j3, j4, j5, j6⟩ := ih f' (by omega) _ _ _ _ i6
      refine ⟨t ++ '>' :: c ++ "</".toList ++ n ++ b ++ '>' :: c₂, _, n₂, b₂, r₂, f₂, by simp [tagEnd],
        .pair ht (localPart_iff.2 rfl) i4 i1 j1, j2, j3, j4, by omega, ?_⟩
      rw [← j6]
      cases st <;> simp [Opened.node]
  | @stop n b hn hb =>
    dsimp only [afterToken] at h
    split_ifs at h with hc
    exact ⟨[], [], n, b, r, f, by simp, .nil, hn, hc.symm, hb, hlt, by rw [← h]; cases st <;> rfl⟩

theorem readTree_document (fuel : Nat) : ∀ (s : List Char) (x : Xml),
    readTree fuel s [] = some x → Document s x := by
  induction fuel with
  | zero => intro s x h; cases s <;> cases h
  | succ fuel ih =>
  intro s x h
  obtain ⟨f, e, r, k, hf, rfl, hk, hr, h⟩ := readTree_step h
  cases hf
  have key : ∀ {y : Xml}, (∃ r v, y = .text r v) →
      (∀ c ys, Content c ys → (∀ a ∈ c.head?, r.head? = some a) → Content (e ++ c) (y :: ys)) →
      Document r x → Document (e ++ r) x := by
    rintro y hy hc ⟨p, e', rest, pre, n, as, ch, rfl, h1, h2, h3, h4⟩
    refine ⟨e ++ p, e', rest, y :: pre, n, as, ch, by simp, hc p pre h1 ?_, ?_, h3, h4⟩
    · intro a ha
      cases p with
      | nil => cases ha
      | cons c p => simpa using ha
    · intro z hz
      rcases List.mem_cons.1 hz with rfl | hz
      · exact hy
      · exact h2 z hz
  cases hk with
  | @text _ val ht =>
    refine key ⟨_, _, rfl⟩ (fun c ys h hc => .text ht (fun a ha => ?_) h) (ih _ _ h)
    obtain ⟨c', cs, rfl, hc'⟩ := run_head ht
    exact hr (by simpa using hc') a (hc a ha)
  | @cdata _ val ht =>
    exact key ⟨_, _, rfl⟩ (fun c ys h _ => .cdata ht h) (ih _ _ h)
  | skip ht =>
    exact key ⟨_, _, rfl⟩ (fun c ys h _ => .skipped ht h) (ih _ _ h)
  | @start t n as closed ht =>
    have hq : QualName n := by obtain ⟨_, _, -, h, -⟩ := ht; exact h
    cases closed with
    | true =>
      cases h
      exact ⟨[], t ++ "/>".toList ++ [], r, [], _, _, _, by simp [tagEnd], .nil, by simp,
        .empty ht (localPart_iff.2 rfl) .nil, rfl⟩
    | false =>
      obtain ⟨c, ys, n', b, r', f', rfl, i1, i2, i3, i4, i5, i6⟩ := of_readTree _ _ _ _ _ h
      have := cutName_inj i3.symm
      subst this
      have hx : x = .elem (String.ofList (cutName n).loc) as ys := by
        simpa [Opened.node] using (Option.some.inj i6).symm
      subst hx
      exact ⟨[], t ++ '>' :: c ++ "</".toList ++ n ++ b ++ '>' :: [], r', [], _, _, _, by simp [tagEnd], .nil, by simp,
        .pair ht (localPart_iff.2 rfl) i4 i1 .nil, rfl⟩
  | @stop n b hn hb => cases h

theorem readXml_iff {s : List Char} {x : Xml} : readXml s = some x ↔ Document s x :=
  ⟨readTree_document _ _ _, document_readXml⟩

end Tags

end Gopmml.XmlText
