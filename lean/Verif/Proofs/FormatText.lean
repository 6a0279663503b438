import Verif.Proofs.Format
import Verif.Proofs.F64Error

namespace Gopmml
open Spec F64

/-! ### The layout -/

theorem twoDigits_spec (n : Nat) : DigitsAre (twoDigits n) n ∧ 2 ≤ (twoDigits n).length ∧
    (2 < (twoDigits n).length → (twoDigits n).head? ≠ some '0') := by
  unfold twoDigits
  split_ifs with h
  · refine ⟨?_, ?_, ?_⟩
    · exact digits_zeros_left (toDigits_digits n) 1
    · rw [toDigits_small h]; simp
    · rw [toDigits_small h]; simp
  · refine ⟨toDigits_digits n, ?_, fun _ => toDigits_head (by omega)⟩
    have := (numDigits_le (v := n) (n := 1) (by decide)).not.mpr (by simpa using h)
    unfold numDigits at this; omega

theorem layout_laid (v : Nat) (k : Int) : LaidOut (Nat.toDigits 10 v) k (layout v k) := by
  have hne : Nat.toDigits 10 v ≠ [] := Nat.toDigits_ne_nil
  unfold layout
  simp only
  generalize Nat.toDigits 10 v = ds at *
  split_ifs with h1 hneg h2 h3
  · obtain ⟨t1, t2, t3⟩ := twoDigits_spec ((ds.length : Int) + k - 1).natAbs
    have e : k + ((ds.length : Int) - 1) = -(((ds.length : Int) + k - 1).natAbs : Int) := by omega
    cases ds with
    | nil => exact absurd rfl hne
    | cons d r =>
      cases r with
      | nil =>
        exact .one (neg := true) rfl t1 t2 t3 (by simpa using e) (by simp only [if_true]; omega)
      | cons d' r =>
        exact .more (neg := true) rfl (by simp) t1 t2 t3 (by simp only [if_true]; rw [← e]; simp)
          (by simp only [if_true]; omega)
  · obtain ⟨t1, t2, t3⟩ := twoDigits_spec ((ds.length : Int) + k - 1).natAbs
    have e : k + ((ds.length : Int) - 1) = (((ds.length : Int) + k - 1).natAbs : Int) := by omega
    cases ds with
    | nil => exact absurd rfl hne
    | cons d r =>
      cases r with
      | nil =>
        exact .one (neg := false) rfl t1 t2 t3 (by simpa using e) (by simp only [Bool.false_eq_true, if_false]; omega)
      | cons d' r =>
        exact .more (neg := false) rfl (by simp) t1 t2 t3
          (by simp only [Bool.false_eq_true, if_false]; rw [← e]; simp)
          (by simp only [Bool.false_eq_true, if_false]; omega)
  · exact .small (by omega) (by omega)
  · exact .whole (by omega) (by omega)
  · have hlen : (ds.take ((ds.length : Int) + k).toNat).length = ((ds.length : Int) + k).toNat := by
      rw [List.length_take]; omega
    refine .point (List.take_append_drop _ _).symm ?_ ?_ ?_ (by omega)
    · intro hc; rw [hc] at hlen; simp at hlen; omega
    · intro hc
      have := congrArg List.length hc
      rw [List.length_drop] at this; simp at this; omega
    · rw [List.length_drop]; omega

/-! ### Reading it back -/

theorem numerals_append_zero {l : List Char} {n : Nat} (h : NumeralsAre false l n) : NumeralsAre false ('0' :: l) n := by
  induction h with
  | nil => simpa using NumeralsAre.snoc (hex := false) .nil (.dec .d0)
  | snoc h hd ih => rw [← List.cons_append]; exact .snoc ih hd

theorem firstFive_self {n : Nat} (h : n < 100000) : FirstFive n n := ⟨0, by simp, h, fun hc => absurd rfl hc⟩

theorem exp_text {ee : List Char} {n : Nat} {neg : Bool} (h : DigitsAre ee n) (h2 : 2 ≤ ee.length) (hn : n < 100000) :
    ExpIs false ('e' :: (if neg then '-' else '+') :: ee) (if neg then -(n : Int) else n) := by
  have hne : ee ≠ [] := by rintro rfl; simp at h2
  cases neg
  · exact ExpIs.some (sg := ['+']) .e .plus h hne (firstFive_self hn)
  · exact ExpIs.some (sg := ['-']) .e .minus h hne (firstFive_self hn)

/-- What is laid out stands for the decimal it was made of. -/
theorem laid_plain {ds t : List Char} {v : Nat} {k : Int} (hd : DigitsAre ds v) (hne : ds ≠ []) (hl : LaidOut ds k t)
    (hb : |(ds.length : Int) + k - 1| < 100000) {sg : List Char} {neg : Bool} (hs : SignIs sg neg) :
    PlainText false (sg ++ t) neg ((if neg then -1 else 1) * Decimal v k) := by
  rw [abs_lt] at hb
  have hten : (10 : ℚ) ≠ 0 := by norm_num
  have hn := digits_numerals hd
  cases hl with
  | @small z hz hz3 =>
    refine ⟨sg, [], ['0'], '.' :: (zeros z ++ ds), zeros z ++ ds, [], v, 0, by simp, hs, .dec, .point, .none, ?_, by simp, ?_⟩
    · exact numerals_append_zero (digits_numerals (digits_zeros_left hd z))
    · unfold Decimal
      rw [show k = -((zeros z ++ ds).length : Int) by simp; omega, zpow_neg, zpow_natCast]
      simp only [Bool.false_eq_true, if_false, zpow_zero, mul_one]
      field_simp
  | @whole z hk hz =>
    refine ⟨sg, [], ds ++ zeros z, [], [], [], v * 10 ^ z, 0, by simp, hs, .dec, .none, .none, ?_, by simp [hne], ?_⟩
    · rw [List.append_nil]; exact digits_numerals (digits_zeros_right hd z)
    · unfold Decimal
      rw [hk, zpow_natCast]
      simp
  | @point a b hab ha hb' hk hlen =>
    refine ⟨sg, [], a, '.' :: b, b, [], v, 0, by simp, hs, .dec, .point, .none, by rw [← hab]; exact hn, by simp [ha], ?_⟩
    unfold Decimal
    rw [hk, zpow_neg, zpow_natCast]
    simp only [Bool.false_eq_true, if_false, zpow_zero, mul_one]
    field_simp
  | @one d ee n neg' hds hee h2 h3 hk hn' =>
    refine ⟨sg, [], [d], [], [], _, v, k, by simp, hs, .dec, .none, hk ▸ exp_text hee h2 ?_, by simpa [hds] using hn,
      by simp, ?_⟩
    · unfold Decimal; simp only [Bool.false_eq_true, if_false, List.length_nil, pow_zero]; ring
    · subst hds; simp at hb; cases neg' <;> simp at hk <;> omega
  | @more d r ee n neg' hds hr hee h2 h3 hk hn' =>
    refine ⟨sg, [], [d], '.' :: r, r, _, v, k + r.length, by simp, hs, .dec, .point, hk ▸ exp_text hee h2 ?_,
      by simpa [hds] using hn, by simp, ?_⟩
    · unfold Decimal
      simp only [Bool.false_eq_true, if_false]
      rw [zpow_add₀ hten, zpow_natCast]
      field_simp
    · subst hds; simp at hb; cases neg' <;> simp at hk <;> omega

/-- The characters of a written number. -/
theorem laid_chars {ds t : List Char} {v : Nat} {k : Int} (hd : DigitsAre ds v) (hl : LaidOut ds k t) :
    ∀ c ∈ t, isDigit c = true ∨ c = '.' ∨ c = 'e' ∨ c = '+' ∨ c = '-' := by
  have h1 : ∀ {l : List Char} {n : Nat}, DigitsAre l n → ∀ c ∈ l, isDigit c = true := fun h c hc =>
    List.all_eq_true.mp (digits_iff.mp h).1 c hc
  have h0 : ∀ {z : Nat} {c : Char}, c ∈ zeros z → isDigit c = true := by
    intro z c hc; rw [List.eq_of_mem_replicate hc]; decide
  have hds := h1 hd
  intro c hc
  cases hl with
  | @small z hz hz3 =>
    simp only [List.mem_cons, List.mem_append] at hc
    rcases hc with rfl | rfl | hc | hc
    · left; decide
    · simp
    · exact .inl (h0 hc)
    · exact .inl (hds c hc)
  | @whole z hk hz =>
    rcases List.mem_append.mp hc with hc | hc
    · exact .inl (hds c hc)
    · exact .inl (h0 hc)
  | @point a b hab ha hb' hk hlen =>
    subst hab
    simp only [List.mem_cons, List.mem_append] at hc
    rcases hc with hc | rfl | hc
    · exact .inl (hds c (by simp [hc]))
    · simp
    · exact .inl (hds c (by simp [hc]))
  | @one d ee n neg' he hee h2 h3 hk hn' =>
    subst he
    simp only [List.mem_cons] at hc
    rcases hc with rfl | rfl | rfl | hc
    · exact .inl (hds _ (by simp))
    · simp
    · cases neg' <;> simp
    · exact .inl (h1 hee c hc)
  | @more d r ee n neg' he hr hee h2 h3 hk hn' =>
    subst he
    simp only [List.mem_cons, List.mem_append] at hc
    rcases hc with rfl | rfl | hc | rfl | rfl | hc
    · exact .inl (hds _ (by simp))
    · simp
    · exact .inl (hds _ (by simp [hc]))
    · simp
    · cases neg' <;> simp
    · exact .inl (h1 hee c hc)

/-- A number without underscores is a number. -/
theorem numText_plain {s : String} {neg : Bool} {q : ℚ} (h : PlainText false s.toList neg q)
    (hu : ∀ c ∈ s.toList, c ≠ '_') : NumText s neg q := by
  refine ⟨false, ?_, ?_⟩
  · intro a b hab
    exact absurd rfl (hu '_' (by rw [hab]; simp))
  · rw [List.filter_eq_self.mpr (by simpa using hu)]; exact h

theorem laid_num {ds t sg : List Char} {v : Nat} {k : Int} {neg : Bool} (hd : DigitsAre ds v) (hne : ds ≠ [])
    (hl : LaidOut ds k t) (hb : |(ds.length : Int) + k - 1| < 100000) (hs : SignIs sg neg) :
    NumText (String.ofList (sg ++ t)) neg ((if neg then -1 else 1) * Decimal v k) := by
  apply numText_plain
  · rw [String.toList_ofList]; exact laid_plain hd hne hl hb hs
  · rw [String.toList_ofList]
    intro c hc
    rcases List.mem_append.mp hc with hc | hc
    · cases hs <;> simp at hc <;> subst hc <;> decide
    · rcases laid_chars hd hl c hc with h | rfl | rfl | rfl | rfl <;> first | decide | skip
      rintro rfl; exact absurd h (by decide)

/-! ### What `%v` writes -/

/-- The numbers of a format of `p` bits. -/
def InFormat (p : Nat) (emin : Int) : F64 → Prop
  | .fin q _ => Grid p emin q
  | _ => True

theorem inFormat53 (x : F64) : InFormat 53 (-1074) x := by
  cases x with
  | fin q h => exact h.1
  | _ => trivial

theorem digits_unique {ds : List Char} {v v' : Nat} (h : DigitsAre ds v) (h' : DigitsAre ds v') : v = v' := by
  rw [digits_iff] at h h'; rw [h.2, h'.2]

theorem fmtFloat_written {p : Nat} {emin : Int} (hp : 1 < p) (hp' : p ≤ 53) {x : F64} (hx : InFormat p emin x) :
    Written p emin x (fmtFloat p emin x) := by
  cases x with
  | nan => exact .nan
  | negZero => exact .negZero
  | inf b => cases b <;> [exact .posInf; exact .negInf]
  | fin q h =>
    unfold fmtFloat
    by_cases h0 : q = 0
    · subst h0; simp only [if_true]; exact .zero
    · simp only [h0, if_false]
      have hg : Grid p emin q := hx
      rcases lt_or_gt_of_ne h0 with hneg | hpos
      · obtain ⟨hs, -⟩ := shortest_spec hp hp' hg.neg (show 0 < -q by linarith)
        rw [if_pos hneg, abs_of_neg hneg]
        refine .neg hneg hs ⟨toDigits_digits _, Nat.toDigits_ne_nil, toDigits_head ?_⟩ (layout_laid _ _)
        intro hc; exact hs.last (by rw [hc])
      · obtain ⟨hs, -⟩ := shortest_spec hp hp' hg hpos
        rw [if_neg (by linarith), abs_of_pos hpos]
        refine .pos hpos hs ⟨toDigits_digits _, Nat.toDigits_ne_nil, toDigits_head ?_⟩ (layout_laid _ _)
        intro hc; exact hs.last (by rw [hc])

/-- The digits of a number and its decimal point. -/
theorem digitsOf_bounds {ds : List Char} {v : Nat} (h : DigitsOf ds v) : v < 10 ^ ds.length ∧ 10 ^ (ds.length - 1) ≤ v := by
  obtain ⟨hd, hne, hh⟩ := h
  suffices ∀ {l : List Char} {n : Nat}, DigitsAre l n → n < 10 ^ l.length ∧
      (l ≠ [] → l.head? ≠ some '0' → 10 ^ (l.length - 1) ≤ n) by
    obtain ⟨h1, h2⟩ := this hd
    refine ⟨h1, ?_⟩
    cases ds with
    | nil => exact absurd rfl hne
    | cons c r => exact h2 (by simp) hh
  intro l n hl
  induction hl with
  | nil => simp
  | @snoc l n c d h hd ih =>
    obtain ⟨i1, i2⟩ := ih
    have hd10 : d < 10 := by cases hd <;> decide
    refine ⟨?_, fun _ hc => ?_⟩
    · rw [List.length_append, List.length_singleton, pow_succ]; omega
    · cases l with
      | nil =>
        simp at hc ⊢
        cases h' : d with
        | zero => subst h'; cases hd; exact absurd rfl hc
        | succ d => omega
      | cons a r =>
        have := i2 (by simp) (by simpa using hc)
        simp only [List.length_append, List.length_cons, List.length_nil, Nat.add_sub_cancel] at this ⊢
        rw [pow_succ]; omega

/-- The exponent of the decimal of a float64 is small. -/
theorem shortest_exponent {p : Nat} {emin : Int} (hp : 0 < p) (he : emin ≤ 0) {q : ℚ} (h : Rep q) (h0 : 0 < q) {v : Nat}
    {k : Int} {ds : List Char} (hn : Nearest p emin (Decimal v k) q) (hd : DigitsOf ds v) :
    |(ds.length : Int) + k - 1| < 100000 := by
  obtain ⟨b1, b2⟩ := digitsOf_bounds hd
  have hlen : 0 < ds.length := List.length_pos_iff.mpr hd.2.1
  have hpk : (0 : ℚ) < 10 ^ k := by positivity
  have hr0 : 0 ≤ Decimal v k := by unfold Decimal; positivity
  have hz : Binary p emin 0 := ⟨0, emin, by simp, le_rfl, by simp⟩
  have hbig : Binary p emin (2 ^ (1024 : Int)) :=
    ⟨1, 1024, by rw [abs_one]; exact one_lt_pow₀ (by norm_num) (by omega), by omega, by simp⟩
  have hlo : q ≤ 2 * Decimal v k := by
    have := hn.2.1 0 hz
    rw [zero_sub, abs_neg, abs_of_nonneg hr0] at this
    have := (abs_le.mp this).2; linarith
  have hq1 : q < 2 ^ (1024 : Int) := by
    have := h.2; rwa [abs_of_pos h0, pow2_eq] at this
  have hhi : Decimal v k ≤ 2 ^ (1024 : Int) := by
    by_contra hc; push Not at hc
    have := hn.2.1 _ hbig
    rw [abs_of_neg (by linarith), abs_of_neg (by linarith)] at this
    linarith
  have hq2 : (2 : ℚ) ^ (-1074 : Int) ≤ q := by
    obtain ⟨m, hm⟩ := rep_multiple h
    have hp2 := pow2_pos (-1074)
    have hm0 : (0 : ℚ) < m := by
      rw [hm] at h0; exact pos_of_mul_pos_left h0 hp2.le
    have : (1 : ℚ) ≤ m := by
      have : 0 < m := by exact_mod_cast hm0
      exact_mod_cast this
    rw [hm, pow2_eq] at *
    nlinarith
  rw [abs_lt]
  constructor
  · have h1 : (10 : ℚ) ^ (-1075 : Int) < 10 ^ ((ds.length : Int) + k) := by
      calc (10 : ℚ) ^ (-1075 : Int) ≤ 2 ^ (-1075 : Int) := by
            rw [zpow_neg, zpow_neg]
            exact inv_anti₀ (by positivity) (zpow_le_zpow_left₀ (by norm_num) (by norm_num) (by norm_num))
        _ ≤ Decimal v k := by
            have : (2 : ℚ) ^ (-1074 : Int) = 2 * 2 ^ (-1075 : Int) := by
              rw [show (-1074 : Int) = 1 + -1075 by norm_num, zpow_add₀ (by norm_num)]; norm_num
            linarith
        _ < ((10 ^ ds.length : Nat) : ℚ) * 10 ^ k := by
            unfold Decimal; exact mul_lt_mul_of_pos_right (by exact_mod_cast b1) hpk
        _ = _ := by rw [zpow_add₀ (by norm_num), zpow_natCast]; push_cast; rfl
    have := (zpow_lt_zpow_iff_right₀ (by norm_num : (1 : ℚ) < 10)).mp h1
    omega
  · have h1 : (10 : ℚ) ^ ((ds.length : Int) + k - 1) ≤ 10 ^ (1024 : Int) := by
      calc (10 : ℚ) ^ ((ds.length : Int) + k - 1) = ((10 ^ (ds.length - 1) : Nat) : ℚ) * 10 ^ k := by
            rw [show (ds.length : Int) + k - 1 = ((ds.length - 1 : Nat) : Int) + k by omega, zpow_add₀ (by norm_num),
              zpow_natCast]; push_cast; rfl
        _ ≤ Decimal v k := by
            unfold Decimal; exact mul_le_mul_of_nonneg_right (by exact_mod_cast b2) hpk.le
        _ ≤ _ := hhi
        _ ≤ _ := zpow_le_zpow_left₀ (by norm_num) (by norm_num) (by norm_num)
    have := (zpow_le_zpow_iff_right₀ (by norm_num : (1 : ℚ) < 10)).mp h1
    omega

theorem nearest_neg {p : Nat} (hp : 1 < p) {emin : Int} {r q : ℚ} (h : Nearest p emin r (-q)) : Nearest p emin (-r) q := by
  rw [nearest_iff hp] at h ⊢
  rw [roundQ_neg, ← h]; ring

/-- A written finite number is a decimal whose nearest number of the format is that number. -/
theorem written_num {p : Nat} {emin : Int} (hp : 1 < p) (he : emin ≤ 0) {q : ℚ} {h : Rep q} {s : String}
    (hw : Written p emin (.fin q h) s) : ∃ r, NumText s (decide (q < 0)) r ∧ Nearest p emin r q := by
  cases hw with
  | zero =>
    refine ⟨0, numText_plain ⟨[], [], ['0'], [], [], [], 0, 0, by decide, by simpa using SignIs.none, .dec, .none, .none, ?_,
      by simp, by simp⟩ (by decide), ?_⟩
    · simpa using numerals_append_zero .nil
    · rw [nearest_iff hp]; simp [roundQ]
  | @pos q h v k ds t h0 hs hd hl =>
    have := laid_num hd.1 hd.2.1 hl (shortest_exponent (by omega) he h h0 hs.reads hd) .none
    refine ⟨Decimal v k, ?_, hs.reads⟩
    rw [decide_eq_false (by linarith)]
    simpa using this
  | @neg q h v k ds t h0 hs hd hl =>
    have hrep : Rep (-q) := ⟨h.1.neg, by rw [abs_neg]; exact h.2⟩
    have := laid_num hd.1 hd.2.1 hl (shortest_exponent (by omega) he hrep (by linarith) hs.reads hd) .minus
    refine ⟨-Decimal v k, ?_, nearest_neg hp hs.reads⟩
    rw [decide_eq_true h0]
    simpa using this

/-- What is written for a float64 reads back as it. -/
theorem written_reads {x : F64} {s : String} (hw : Written 53 (-1074) x s) : FloatText s x := by
  cases x with
  | nan =>
    cases hw
    exact parseF64_iff.mp (by decide +kernel)
  | negZero =>
    cases hw
    exact parseF64_iff.mp (by decide +kernel)
  | inf b =>
    cases hw <;> exact parseF64_iff.mp (by decide +kernel)
  | fin q h =>
    obtain ⟨r, hr, hn⟩ := written_num (by decide) (by decide) hw
    refine .number hr ⟨q, hn, .inr (.inr ⟨?_, ?_, h, rfl⟩)⟩ (by simp)
    · have := h.2
      rw [pow2_eq] at this
      exact_mod_cast this
    · rintro ⟨rfl, hc⟩; simp at hc

/-! ### Whole numbers -/

theorem digitsOf_unique {ds : List Char} {v : Nat} (h : DigitsOf ds v) : ds = Nat.toDigits 10 v := by
  obtain ⟨hd, hne, hh⟩ := h
  induction hd with
  | nil => exact absurd rfl hne
  | @snoc l n c d h hd ih =>
    have hd10 : d < 10 := by cases hd <;> decide
    have hc : c = Nat.digitChar d := by cases hd <;> rfl
    cases l with
    | nil =>
      cases hl : n with
      | zero => subst hc; simp [toDigits_small hd10]
      | succ m =>
        have := (digits_iff.mp h).2
        simp [digitsVal] at this; omega
    | cons a r =>
      have hi := ih (by simp) (by simpa using hh)
      have hn : n ≠ 0 := by
        have := (digitsOf_bounds ⟨h, by simp, by simpa using hh⟩).2
        have : 0 < 10 ^ ((a :: r).length - 1) := by positivity
        omega
      rw [toDigits_step (by omega), hi, hc, show (10 * n + d) / 10 = n by omega, show (10 * n + d) % 10 = d by omega]

theorem roundQ_int {n : Int} (h : |n| ≤ 2 ^ 53) : roundQ 53 (-1074) n = n :=
  roundQ_exact (by decide) ⟨n, 0, h, by decide, by rw [pow2_eq]; simp⟩

/-- The decimal written for a whole number below a million is that number. -/
theorem shortest_whole {n v : Nat} {k : Int} (h0 : n ≠ 0) (h : n < 10 ^ 6) (hs : Shortest 53 (-1074) n v k) :
    ∃ z : Nat, k = z ∧ n = v * 10 ^ z := by
  have hnQ : (n : ℚ) < 10 ^ 6 := by exact_mod_cast h
  have hn1 : (1 : ℚ) ≤ n := by exact_mod_cast Nat.one_le_iff_ne_zero.mpr h0
  have hself : Nearest 53 (-1074) (Decimal n 0) n := by
    rw [nearest_iff (by decide), show Decimal n 0 = ((n : Int) : ℚ) by simp [Decimal], roundQ_int]
    · simp
    · rw [abs_of_nonneg (by omega)]; omega
  have hv6 := hs.fewest n 0 hself 6 h
  have hr := hs.reads
  rw [nearest_iff (by decide)] at hr
  have hv0 : v ≠ 0 := fun hc => hs.last (by rw [hc])
  rcases le_or_gt 0 k with hk | hk
  · obtain ⟨z, rfl⟩ := Int.eq_ofNat_of_zero_le hk
    refine ⟨z, rfl, ?_⟩
    have e : Decimal v z = (((v * 10 ^ z : Nat) : Int) : ℚ) := by unfold Decimal; rw [zpow_natCast]; push_cast; rfl
    rcases le_or_gt (v * 10 ^ z) (2 ^ 53) with hle | hgt
    · rw [e, roundQ_int (by rw [abs_of_nonneg (by positivity)]; exact_mod_cast hle)] at hr
      exact_mod_cast hr
    · exfalso
      have h1 : ((2 ^ 53 : Int) : ℚ) ≤ Decimal v z := by rw [e]; exact_mod_cast hgt.le
      have := roundQ_mono (p := 53) (by decide) (emin := -1074) h1
      rw [← hr, roundQ_int (by norm_num)] at this
      norm_num at this hnQ
      linarith
  · exfalso
    obtain ⟨z, hz⟩ := Int.eq_ofNat_of_zero_le (show 0 ≤ -k by omega)
    have hz0 : z ≠ 0 := by omega
    have hk' : k = -(z : Int) := by omega
    subst hk'
    have e : Decimal v (-(z : Int)) = (v : ℚ) / 10 ^ z := by unfold Decimal; rw [zpow_neg, zpow_natCast]; rfl
    have hz10 : (0 : ℚ) < 10 ^ z := by positivity
    have hne : v ≠ n * 10 ^ z := by
      intro hc; apply hs.last; rw [hc]
      obtain ⟨y, rfl⟩ := Nat.exists_eq_succ_of_ne_zero hz0
      rw [pow_succ, ← mul_assoc, Nat.mul_mod_left]
    have herr := roundQ_error (Decimal v (-(z : Int)))
    rw [← hr, e, abs_of_nonneg (show 0 ≤ (v : ℚ) / 10 ^ z by positivity)] at herr
    have hgap : (1 : ℚ) / 10 ^ z ≤ |(n : ℚ) - v / 10 ^ z| := by
      have := int_gap (m := n * 10 ^ z) (m' := v) (x := 1 / 10 ^ z) (by positivity) (by
        intro hc
        have := mul_right_cancel₀ (by positivity) hc
        exact hne (by exact_mod_cast this.symm))
      push_cast at this
      rw [show (n : ℚ) * 10 ^ z * (1 / 10 ^ z) - v * (1 / 10 ^ z) = n - v / 10 ^ z by field_simp] at this
      exact this
    have hvq : (v : ℚ) < 10 ^ 6 := by exact_mod_cast hv6
    have huu : uu = 1 / 2 ^ 53 := rfl
    have heta : eta ≤ 1 / 2 ^ 53 := by
      rw [eta_eq, pow2_eq, show (1 : ℚ) / 2 ^ 53 = 2 ^ (-53 : Int) by rw [zpow_neg, one_div]; rfl]
      exact zpow_le_zpow_right₀ (by norm_num) (by norm_num)
    -- the error is at most (v / 10^z + 1) / 2^53, so 2^53 ≤ v + 10^z, but 10^z ≤ 2 v
    have h1 : (1 : ℚ) / 10 ^ z ≤ 1 / 2 ^ 53 * ((v : ℚ) / 10 ^ z) + 1 / 2 ^ 53 := by
      rw [huu] at herr; linarith
    have h2 : (2 : ℚ) ^ 53 ≤ v + 10 ^ z := by
      have : (1 : ℚ) / 10 ^ z ≤ ((v : ℚ) + 10 ^ z) / 2 ^ 53 / 10 ^ z := by
        calc (1 : ℚ) / 10 ^ z ≤ 1 / 2 ^ 53 * ((v : ℚ) / 10 ^ z) + 1 / 2 ^ 53 := h1
          _ = _ := by field_simp
      have := (div_le_div_iff_of_pos_right hz10).mp this
      rwa [le_div_iff₀ (by positivity), one_mul] at this
    have hz : Binary 53 (-1074) 0 := ⟨0, -1074, by simp, le_rfl, by simp⟩
    have h3 := hs.reads.2.1 0 hz
    rw [e, zero_sub, abs_neg, abs_of_nonneg (show 0 ≤ (v : ℚ) / 10 ^ z by positivity)] at h3
    have h4 : (n : ℚ) ≤ 2 * ((v : ℚ) / 10 ^ z) := by have := (abs_le.mp h3).2; linarith
    have h5 : (10 : ℚ) ^ z ≤ 2 * v := by
      have : (1 : ℚ) ≤ 2 * v / 10 ^ z := by rw [mul_div_assoc]; linarith
      rwa [le_div_iff₀ hz10, one_mul] at this
    norm_num at h2
    have : (10 : ℚ) ^ 6 = 1000000 := by norm_num
    linarith

/-- A decimal laid out below a million and whole is its digits. -/
theorem laid_whole {ds t : List Char} {v z : Nat} (hd : DigitsOf ds v) (hl : LaidOut ds z t) (h : v * 10 ^ z < 10 ^ 6) :
    t = Nat.toDigits 10 (v * 10 ^ z) := by
  have hlen : 0 < ds.length := List.length_pos_iff.mpr hd.2.1
  have hb := (digitsOf_bounds hd).2
  have hdp : ds.length + z ≤ 6 := by
    by_contra hc
    have : 10 ^ 6 ≤ 10 ^ (ds.length - 1) * 10 ^ z := by
      rw [← pow_add]; exact Nat.pow_le_pow_right (by decide) (by omega)
    have : 10 ^ (ds.length - 1) * 10 ^ z ≤ v * 10 ^ z := Nat.mul_le_mul_right _ hb
    omega
  cases hl with
  | @small y hz hz3 => omega
  | @whole y hk hz =>
    have : y = z := by omega
    subst this
    apply digitsOf_unique
    refine ⟨digits_zeros_right hd.1 _, by simp [hd.2.1], ?_⟩
    rw [List.head?_append]
    have := hd.2.2
    cases hh : ds.head? with
    | none => exact absurd (List.head?_eq_none_iff.mp hh) hd.2.1
    | some c => rw [hh] at this; simpa using this
  | @point a b hab ha hb' hk hlen =>
    have : 0 < b.length := List.length_pos_iff.mpr hb'
    omega
  | @one d ee n neg' he hee h2 h3 hk hn' =>
    subst he
    cases neg' <;> simp at hk hn' hdp <;> omega
  | @more d r ee n neg' he hr hee h2 h3 hk hn' =>
    subst he
    cases neg' <;> simp at hk hn' hdp <;> omega

/-- A million or more is written with an exponent. -/
theorem laid_large {ds t : List Char} {v : Nat} {k : Int} (hd : DigitsOf ds v) (hl : LaidOut ds k t)
    (h : (10 : ℚ) ^ 6 ≤ Decimal v k) : 'e' ∈ t := by
  have hb := (digitsOf_bounds hd).1
  have hdp : 6 < (ds.length : Int) + k := by
    have : (10 : ℚ) ^ (6 : Int) < 10 ^ ((ds.length : Int) + k) := by
      calc (10 : ℚ) ^ (6 : Int) = 10 ^ 6 := by norm_cast
        _ ≤ Decimal v k := h
        _ < ((10 ^ ds.length : Nat) : ℚ) * 10 ^ k := by
            unfold Decimal; exact mul_lt_mul_of_pos_right (by exact_mod_cast hb) (by positivity)
        _ = _ := by rw [zpow_add₀ (by norm_num), zpow_natCast]; push_cast; rfl
    exact (zpow_lt_zpow_iff_right₀ (by norm_num : (1 : ℚ) < 10)).mp this
  cases hl with
  | @small y hz hz3 => omega
  | @whole y hk hz => omega
  | @point a b hab ha hb' hk hlen => subst hab; simp at hdp; omega
  | @one d ee n neg' he hee h2 h3 hk hn' => simp
  | @more d r ee n neg' he hr hee h2 h3 hk hn' => simp

end Gopmml
