import Verif.Spec.Format
import Verif.Proofs.Nearest
import Verif.Proofs.Text

namespace Gopmml
open Spec F64

/-! ### Digits -/

theorem digitChar_is {d : Nat} (h : d < 10) : DigitIs (Nat.digitChar d) d := by
  have : d = 0 ∨ d = 1 ∨ d = 2 ∨ d = 3 ∨ d = 4 ∨ d = 5 ∨ d = 6 ∨ d = 7 ∨ d = 8 ∨ d = 9 := by omega
  rcases this with rfl | rfl | rfl | rfl | rfl | rfl | rfl | rfl | rfl | rfl
  · exact .d0
  · exact .d1
  · exact .d2
  · exact .d3
  · exact .d4
  · exact .d5
  · exact .d6
  · exact .d7
  · exact .d8
  · exact .d9

theorem toDigits_step {v : Nat} (h : 10 ≤ v) :
    Nat.toDigits 10 v = Nat.toDigits 10 (v / 10) ++ [Nat.digitChar (v % 10)] :=
  Nat.toDigits_of_base_le (by decide) h

theorem toDigits_small {v : Nat} (h : v < 10) : Nat.toDigits 10 v = [Nat.digitChar v] :=
  Nat.toDigits_of_lt_base h

theorem toDigits_digits (v : Nat) : DigitsAre (Nat.toDigits 10 v) v := by
  induction v using Nat.strongRecOn with
  | ind v ih =>
    by_cases h : v < 10
    · rw [toDigits_small h]
      have := DigitsAre.snoc .nil (digitChar_is h)
      simpa using this
    · rw [toDigits_step (by omega)]
      have := DigitsAre.snoc (ih (v / 10) (by omega)) (digitChar_is (Nat.mod_lt v (by decide : 0 < 10)))
      rwa [Nat.div_add_mod] at this

theorem toDigits_head {v : Nat} (h : v ≠ 0) : (Nat.toDigits 10 v).head? ≠ some '0' := by
  induction v using Nat.strongRecOn with
  | ind v ih =>
    by_cases h10 : v < 10
    · rw [toDigits_small h10]
      have : v = 1 ∨ v = 2 ∨ v = 3 ∨ v = 4 ∨ v = 5 ∨ v = 6 ∨ v = 7 ∨ v = 8 ∨ v = 9 := by omega
      rcases this with rfl | rfl | rfl | rfl | rfl | rfl | rfl | rfl | rfl <;> decide
    · rw [toDigits_step (by omega)]
      have := ih (v / 10) (by omega) (by omega)
      rw [List.head?_append]
      cases hd : (Nat.toDigits 10 (v / 10)).head? with
      | none => exact absurd (List.head?_eq_none_iff.mp hd) Nat.toDigits_ne_nil
      | some c => rw [hd] at this; simpa using this

theorem numDigits_le {v n : Nat} (hn : 0 < n) : numDigits v ≤ n ↔ v < 10 ^ n :=
  Nat.length_toDigits_le_iff (by decide) hn

theorem numDigits_pos (v : Nat) : 0 < numDigits v := List.length_pos_iff.mpr Nat.toDigits_ne_nil

theorem lt_numDigits (v : Nat) : v < 10 ^ numDigits v := (numDigits_le (numDigits_pos v)).mp le_rfl

theorem numDigits_ge {v : Nat} (h : v ≠ 0) : 10 ^ (numDigits v - 1) ≤ v := by
  by_contra hc
  by_cases h1 : numDigits v = 1
  · rw [h1] at hc; simp at hc; omega
  · have := (numDigits_le (v := v) (n := numDigits v - 1) (by have := numDigits_pos v; omega)).mpr (by omega)
    have := numDigits_pos v; omega

theorem digits_numerals {l : List Char} {n : Nat} (h : DigitsAre l n) : NumeralsAre false l n := by
  induction h with
  | nil => exact .nil
  | snoc h hd ih => exact .snoc ih (.dec hd)

theorem digits_zeros_left {l : List Char} {n : Nat} (h : DigitsAre l n) (m : Nat) : DigitsAre (zeros m ++ l) n := by
  induction h with
  | nil =>
    rw [List.append_nil]
    induction m with
    | zero => exact .nil
    | succ m ih => rw [zeros, List.replicate_succ']; simpa using DigitsAre.snoc ih .d0
  | snoc h hd ih => rw [← List.append_assoc]; exact .snoc ih hd

theorem digits_zeros_right {l : List Char} {n : Nat} (h : DigitsAre l n) (m : Nat) :
    DigitsAre (l ++ zeros m) (n * 10 ^ m) := by
  induction m with
  | zero => simpa [zeros] using h
  | succ m ih =>
    rw [zeros, List.replicate_succ', ← List.append_assoc]
    have := DigitsAre.snoc ih .d0
    rw [pow_succ]
    convert this using 1
    ring

/-! ### The place of the decimal point -/

theorem decPoint_spec {q : ℚ} (h : 0 < q) : (10 : ℚ) ^ (decPoint q - 1) ≤ q ∧ q < 10 ^ decPoint q := by
  have hnum : 0 < q.num := Rat.num_pos.mpr h
  obtain ⟨a, ha⟩ := Int.eq_ofNat_of_zero_le hnum.le
  have hapos : 0 < a := by omega
  have hd := q.den_pos
  have hq : q = (a : ℚ) / q.den := by
    have := Rat.num_div_den q
    rw [ha, Int.cast_natCast] at this; exact this.symm
  unfold decPoint
  simp only [ha, Int.toNat_natCast]
  generalize hj : numDigits q.den = j
  have hj' : q.den < 10 ^ j := hj ▸ lt_numDigits q.den
  generalize hd' : q.den = d at *
  generalize hM : a * 10 ^ j / d = M
  have hM0 : M ≠ 0 := by
    rw [← hM]
    have : 1 ≤ a * 10 ^ j / d := by
      rw [Nat.le_div_iff_mul_le hd]
      nlinarith
    omega
  have l1 : M * d ≤ a * 10 ^ j := by rw [← hM]; exact Nat.div_mul_le_self _ _
  have l2 : a * 10 ^ j < (M + 1) * d := by
    rw [← hM]; rw [Nat.add_mul, one_mul]
    have := Nat.lt_div_mul_add hd (a := a * 10 ^ j); linarith
  have g1 := numDigits_ge hM0
  have g2 := lt_numDigits M
  have hp := numDigits_pos M
  generalize numDigits M = D at *
  have hdq : (0 : ℚ) < d := by exact_mod_cast hd
  have e1 : (10 : ℚ) ^ (D : Int) = ((10 ^ D : Nat) : ℚ) := by push_cast; rw [zpow_natCast]
  have ej : (10 : ℚ) ^ (j : Int) = ((10 ^ j : Nat) : ℚ) := by push_cast; rw [zpow_natCast]
  have hjp : (0 : ℚ) < 10 ^ (j : Int) := by positivity
  have m1 : (M : ℚ) * d ≤ a * 10 ^ (j : Int) := by rw [ej]; exact_mod_cast l1
  have m2 : (a : ℚ) * 10 ^ (j : Int) < (M + 1) * d := by rw [ej]; exact_mod_cast l2
  constructor
  · have e2 : (10 : ℚ) ^ ((D : Int) - j - 1) = ((10 ^ (D - 1) : Nat) : ℚ) / 10 ^ (j : Int) := by
      rw [show (D : Int) - j - 1 = ((D - 1 : Nat) : Int) - j by omega, zpow_sub₀ (by norm_num)]
      push_cast; rw [zpow_natCast]
    have g1' : ((10 ^ (D - 1) : Nat) : ℚ) ≤ M := by exact_mod_cast g1
    rw [e2, hq, div_le_div_iff₀ hjp hdq]
    nlinarith
  · have g2' : (M : ℚ) + 1 ≤ ((10 ^ D : Nat) : ℚ) := by exact_mod_cast g2
    rw [zpow_sub₀ (by norm_num), e1, hq, div_lt_div_iff₀ hdq hjp]
    nlinarith

/-! ### Distinct numbers of a format are apart -/

theorem pow2_int {e f : Int} (h : e ≤ f) : ∃ c : Int, 0 < c ∧ pow2 f = c * pow2 e := by
  obtain ⟨n, hn⟩ := Int.eq_ofNat_of_zero_le (show 0 ≤ f - e by omega)
  refine ⟨2 ^ n, by positivity, ?_⟩
  rw [show f = n + e by omega, pow2_add, pow2_nat]

theorem int_gap {m m' : Int} {x : ℚ} (hx : 0 < x) (h : (m : ℚ) * x ≠ m' * x) : x ≤ |(m : ℚ) * x - m' * x| := by
  have hne : m - m' ≠ 0 := by
    intro h0
    exact h (by rw [show m = m' by omega])
  have h1 : (1 : ℚ) ≤ |((m - m' : Int) : ℚ)| := by
    rw [← Int.cast_abs]; exact_mod_cast Int.one_le_abs hne
  rw [← sub_mul, abs_mul, abs_of_pos hx, ← Int.cast_sub]
  nlinarith

theorem grid_gap {p : Nat} (hp : 0 < p) {emin : Int} {q s : ℚ} (hq : Grid p emin q) (hs : Grid p emin s)
    (h0 : 0 < q) (hne : s ≠ q) : q ≤ |s - q| * 2 ^ p := by
  obtain ⟨m, e, hm, -, rfl⟩ := hq
  obtain ⟨m', e', hm', -, rfl⟩ := hs
  have hmq : (m : ℚ) ≤ 2 ^ p := by
    have : m ≤ 2 ^ p := le_trans (le_abs_self _) hm
    exact_mod_cast this
  have hmq' : (m' : ℚ) ≤ 2 ^ p := by
    have : m' ≤ 2 ^ p := le_trans (le_abs_self _) hm'
    exact_mod_cast this
  have hpe := pow2_pos e
  have hpe' := pow2_pos e'
  have hpp : (0 : ℚ) < 2 ^ p := by positivity
  rcases le_or_gt e e' with hle | hlt
  · obtain ⟨c, -, hc⟩ := pow2_int hle
    rw [hc, ← mul_assoc] at hne ⊢
    have := int_gap (m := m' * c) (m' := m) hpe (by push_cast; exact hne)
    push_cast at this
    calc (m : ℚ) * pow2 e ≤ 2 ^ p * pow2 e := by nlinarith
      _ ≤ _ := by rw [mul_comm]; exact mul_le_mul_of_nonneg_right this hpp.le
  · rcases le_or_gt ((m : ℚ) * pow2 e) (2 ^ p * pow2 e') with hsm | hbig
    · obtain ⟨c, -, hc⟩ := pow2_int hlt.le
      rw [hc, ← mul_assoc] at hne hsm ⊢
      have := int_gap (m := m') (m' := m * c) hpe' (by push_cast; exact hne)
      push_cast at this
      refine hsm.trans ?_
      rw [mul_comm]; exact mul_le_mul_of_nonneg_right this hpp.le
    · have hsle : (m' : ℚ) * pow2 e' ≤ 2 ^ p * pow2 e' := by nlinarith
      have habs : (m : ℚ) * pow2 e - 2 ^ p * pow2 e' ≤ |(m' : ℚ) * pow2 e' - m * pow2 e| := by
        rw [abs_sub_comm]; exact le_trans (by linarith) (le_abs_self _)
      have h2p : (2 : ℚ) ^ p * pow2 e' = pow2 (p + e') := by
        rw [pow2_add, pow2_eq p, zpow_natCast]
      have hm1 : (1 : ℚ) ≤ m := by
        have : (0 : ℚ) < m := by
          by_contra hc; push Not at hc; nlinarith
        have : 0 < m := by exact_mod_cast this
        exact_mod_cast this
      suffices pow2 e ≤ (m : ℚ) * pow2 e - 2 ^ p * pow2 e' ∨ (m : ℚ) * pow2 e ≤ 2 * (m * pow2 e - 2 ^ p * pow2 e') by
        rcases this with h | h
        · calc (m : ℚ) * pow2 e ≤ 2 ^ p * pow2 e := by nlinarith
            _ ≤ _ := by rw [mul_comm]; exact mul_le_mul_of_nonneg_right (h.trans habs) hpp.le
        · have h2 : (2 : ℚ) ≤ 2 ^ p := by
            calc (2 : ℚ) = 2 ^ 1 := by norm_num
              _ ≤ 2 ^ p := pow_le_pow_right₀ (by norm_num) hp
          refine h.trans ?_
          rw [mul_comm]
          exact mul_le_mul habs h2 (by norm_num) (abs_nonneg _)
      rcases le_or_gt e (p + e') with h1 | h1
      · left
        obtain ⟨c, -, hc⟩ := pow2_int h1
        rw [h2p, hc] at hbig ⊢
        have := int_gap (m := m) (m' := c) hpe (ne_of_gt hbig)
        rwa [abs_of_pos (by linarith)] at this
      · right
        have : pow2 (p + e') * 2 ≤ pow2 e := by
          have e2 : pow2 1 = 2 := by rw [pow2_eq]; norm_num
          rw [← e2, ← pow2_add]; exact pow2_le (by omega)
        rw [h2p]
        nlinarith

theorem grid_of_binary {p : Nat} {emin : Int} {q : ℚ} (h : Binary p emin q) : Grid p emin q := by
  obtain ⟨m, e, hm, he, rfl⟩ := h
  exact ⟨m, e, hm.le, he, by rw [pow2_eq]⟩

theorem round_back {p : Nat} (hp : 1 < p) {emin : Int} {q r : ℚ} (hq : Grid p emin q) (h0 : 0 < q)
    (h : |r - q| * 2 ^ (p + 1) < q) : roundQ p emin r = q := by
  by_contra hne
  have hn := roundQ_nearest hp emin r
  have hqb : Binary p emin q := by
    have := (roundQ_nearest hp emin q).1
    rwa [roundQ_exact (by omega) hq] at this
  have h1 := hn.2.1 q hqb
  have h2 := grid_gap (by omega) hq (grid_of_binary hn.1) h0 hne
  have h3 : |roundQ p emin r - q| ≤ 2 * |r - q| := by
    calc |roundQ p emin r - q| = |(roundQ p emin r - r) + (r - q)| := by ring_nf
      _ ≤ |roundQ p emin r - r| + |r - q| := abs_add_le _ _
      _ ≤ |q - r| + |r - q| := by linarith
      _ = 2 * |r - q| := by rw [abs_sub_comm q r]; ring
  have hpp : (0 : ℚ) < 2 ^ p := by positivity
  rw [pow_succ] at h
  nlinarith

/-! ### Candidates of `n` digits -/

section
variable {p : Nat} {emin : Int} {q : ℚ}

theorem scale_ten (v : Nat) (k : Int) : scale 10 v k = Decimal v k := by
  rw [scale_eq (by decide)]; simp [Decimal]

/-- The number in units of `10 ^ (decPoint q - n)`. -/
abbrev units (q : ℚ) (n : Nat) : ℚ := q * 10 ^ ((n : Int) - decPoint q)

abbrev downOf (q : ℚ) (n : Nat) : Nat := ⌊units q n⌋.toNat
abbrev placeOf (q : ℚ) (n : Nat) : Int := decPoint q - n

theorem units_mul (q : ℚ) (n : Nat) : units q n * 10 ^ placeOf q n = q := by
  unfold units placeOf
  rw [mul_assoc, ← zpow_add₀ (by norm_num)]
  rw [show (n : Int) - decPoint q + (decPoint q - n) = 0 by ring]; simp

theorem units_ge (h : 0 < q) {n : Nat} (hn : 0 < n) : ((10 ^ (n - 1) : Nat) : ℚ) ≤ units q n := by
  have h1 := (decPoint_spec h).1
  unfold units
  calc ((10 ^ (n - 1) : Nat) : ℚ) = 10 ^ (decPoint q - 1) * 10 ^ ((n : Int) - decPoint q) := by
        rw [← zpow_add₀ (by norm_num), show decPoint q - 1 + (n - decPoint q) = ((n - 1 : Nat) : Int) by omega,
          zpow_natCast]; push_cast; rfl
    _ ≤ _ := mul_le_mul_of_nonneg_right h1 (by positivity)

theorem units_lt (h : 0 < q) (n : Nat) : units q n < ((10 ^ n : Nat) : ℚ) := by
  have h1 := (decPoint_spec h).2
  unfold units
  calc _ < 10 ^ decPoint q * (10 : ℚ) ^ ((n : Int) - decPoint q) := mul_lt_mul_of_pos_right h1 (by positivity)
    _ = ((10 ^ n : Nat) : ℚ) := by
        rw [← zpow_add₀ (by norm_num), show decPoint q + (n - decPoint q) = (n : Int) by omega, zpow_natCast]
        push_cast; rfl

theorem units_pos (h : 0 < q) (n : Nat) : 0 < units q n := mul_pos h (by positivity)

theorem down_eq (h : 0 < q) (n : Nat) : ((downOf q n : Nat) : Int) = ⌊units q n⌋ :=
  Int.toNat_of_nonneg (Int.floor_nonneg.mpr (units_pos h n).le)

theorem down_le (h : 0 < q) (n : Nat) : ((downOf q n : Nat) : ℚ) ≤ units q n := by
  have := Int.floor_le (units q n)
  rw [← down_eq h] at this; exact_mod_cast this

theorem lt_up (h : 0 < q) (n : Nat) : units q n < ((downOf q n + 1 : Nat) : ℚ) := by
  have := Int.lt_floor_add_one (units q n)
  rw [← down_eq h] at this; push_cast at this ⊢; exact this

theorem down_ge (h : 0 < q) {n : Nat} (hn : 0 < n) : 10 ^ (n - 1) ≤ downOf q n := by
  have h1 := units_ge h hn
  have h2 := lt_up h n
  have : ((10 ^ (n - 1) : Nat) : ℚ) < ((downOf q n + 1 : Nat) : ℚ) := lt_of_le_of_lt h1 h2
  have : 10 ^ (n - 1) < downOf q n + 1 := by exact_mod_cast this
  omega

theorem down_lt (h : 0 < q) (n : Nat) : downOf q n < 10 ^ n := by
  have := lt_of_le_of_lt (down_le h n) (units_lt h n)
  exact_mod_cast this

theorem decimal_down_le (h : 0 < q) (n : Nat) : Decimal (downOf q n) (placeOf q n) ≤ q := by
  conv_rhs => rw [← units_mul q n]
  exact mul_le_mul_of_nonneg_right (down_le h n) (by positivity)

theorem decimal_up_gt (h : 0 < q) (n : Nat) : q < Decimal (downOf q n + 1) (placeOf q n) := by
  conv_lhs => rw [← units_mul q n]
  exact mul_lt_mul_of_pos_right (lt_up h n) (by positivity)

theorem half_nat (h : 0 < q) (n : Nat) : (((roundHalfEven (units q n)).toNat : Nat) : Int) = roundHalfEven (units q n) := by
  apply Int.toNat_of_nonneg
  have := down_eq h n
  rcases roundHalfEven_cases (units q n) with h | h <;> rw [h] <;> omega

theorem half_cases (h : 0 < q) (n : Nat) : (roundHalfEven (units q n)).toNat = downOf q n ∨
    (roundHalfEven (units q n)).toNat = downOf q n + 1 := by
  have := down_eq h n
  have h2 := half_nat h n
  rcases roundHalfEven_cases (units q n) with h | h <;> [left; right] <;> omega

/-- The step of the algorithm without its arithmetic. -/
theorem tryDigits_eq (p : Nat) (emin : Int) (q : ℚ) (n : Nat) : tryDigits p emin q n =
    if roundQ p emin (Decimal (downOf q n) (placeOf q n)) = q ∧
        roundQ p emin (Decimal (downOf q n + 1) (placeOf q n)) = q then
      some ((roundHalfEven (units q n)).toNat, placeOf q n)
    else if roundQ p emin (Decimal (downOf q n) (placeOf q n)) = q then some (downOf q n, placeOf q n)
    else if roundQ p emin (Decimal (downOf q n + 1) (placeOf q n)) = q then some (downOf q n + 1, placeOf q n)
    else none := by
  have hk : q * scale 10 1 (-(decPoint q - n)) = units q n := by
    rw [show (1 : Int) = ((1 : Nat) : Int) by rfl, scale_ten]
    unfold units Decimal
    rw [show -(decPoint q - (n : Int)) = n - decPoint q by ring]; simp
  unfold tryDigits
  simp only [hk, scale_ten, decide_eq_true_eq]

/-- A decimal of at most `n` digits is at most the lower candidate or at least the upper one. -/
theorem bracket (h : 0 < q) {n : Nat} {v : Nat} {k : Int} (hv : v < 10 ^ n) :
    (Decimal v k ≤ q → Decimal v k ≤ Decimal (downOf q n) (placeOf q n)) ∧
    (q < Decimal v k → Decimal (downOf q n + 1) (placeOf q n) ≤ Decimal v k) := by
  rcases Nat.eq_zero_or_pos n with rfl | hn
  · have : v = 0 := by simpa using hv
    subst this
    refine ⟨fun _ => ?_, fun hc => ?_⟩
    · unfold Decimal; simp; positivity
    · unfold Decimal at hc; simp at hc; linarith
  rcases lt_or_ge k (placeOf q n) with hk | hk
  · have hlt : Decimal v k < 10 ^ (decPoint q - 1) := by
      unfold Decimal
      calc (v : ℚ) * 10 ^ k < ((10 ^ n : Nat) : ℚ) * 10 ^ k :=
            mul_lt_mul_of_pos_right (by exact_mod_cast hv) (by positivity)
        _ = 10 ^ ((n : Int) + k) := by rw [zpow_add₀ (by norm_num)]; push_cast; rw [zpow_natCast]
        _ ≤ _ := zpow_le_zpow_right₀ (by norm_num) (by unfold placeOf at hk; omega)
    have hge : (10 : ℚ) ^ (decPoint q - 1) ≤ Decimal (downOf q n) (placeOf q n) := by
      unfold Decimal
      calc (10 : ℚ) ^ (decPoint q - 1) = ((10 ^ (n - 1) : Nat) : ℚ) * 10 ^ placeOf q n := by
            push_cast
            rw [← zpow_natCast, ← zpow_add₀ (by norm_num)]
            congr 1; unfold placeOf; omega
        _ ≤ _ := mul_le_mul_of_nonneg_right (by exact_mod_cast down_ge h hn) (by positivity)
    refine ⟨fun _ => hlt.le.trans hge, fun hc => ?_⟩
    have := (decPoint_spec h).1
    linarith
  · obtain ⟨j, hj⟩ := Int.eq_ofNat_of_zero_le (show 0 ≤ k - placeOf q n by omega)
    have e : Decimal v k = ((v * 10 ^ j : Nat) : ℚ) * 10 ^ placeOf q n := by
      unfold Decimal
      rw [show k = j + placeOf q n by omega, zpow_add₀ (by norm_num), zpow_natCast]; push_cast; ring
    have hpos : (0 : ℚ) < 10 ^ placeOf q n := by positivity
    constructor
    · intro hle
      have : ((v * 10 ^ j : Nat) : ℚ) ≤ units q n := by
        rw [e] at hle
        exact le_of_mul_le_mul_right (hle.trans (units_mul q n).ge) hpos
      have hfl : ((v * 10 ^ j : Nat) : Int) ≤ ⌊units q n⌋ := Int.le_floor.mpr (by exact_mod_cast this)
      rw [← down_eq h] at hfl
      rw [e]; unfold Decimal
      exact mul_le_mul_of_nonneg_right (by exact_mod_cast hfl) hpos.le
    · intro hlt
      have : units q n < ((v * 10 ^ j : Nat) : ℚ) := by
        rw [e] at hlt
        exact lt_of_mul_lt_mul_right ((units_mul q n).le.trans_lt hlt) hpos.le
      have h2 := lt_of_le_of_lt (down_le h n) this
      have h3 : downOf q n < v * 10 ^ j := by exact_mod_cast h2
      rw [e]; unfold Decimal
      exact mul_le_mul_of_nonneg_right (by exact_mod_cast h3) hpos.le

/-- What a successful step gives. -/
structure Chosen (p : Nat) (emin : Int) (q : ℚ) (n : Nat) (v : Nat) (k : Int) : Prop where
  place : k = placeOf q n
  reads : roundQ p emin (Decimal v k) = q
  choice : (v = downOf q n ∧ (roundQ p emin (Decimal (downOf q n + 1) k) ≠ q ∨ (v : Int) = roundHalfEven (units q n))) ∨
    (v = downOf q n + 1 ∧ (roundQ p emin (Decimal (downOf q n) k) ≠ q ∨ (v : Int) = roundHalfEven (units q n)))

theorem tryDigits_some (h : 0 < q) {n : Nat} {r : Nat × Int} (ht : tryDigits p emin q n = some r) :
    Chosen p emin q n r.1 r.2 := by
  rw [tryDigits_eq] at ht
  split_ifs at ht with h1 h2 h3
  · cases ht
    rcases half_cases h n with hc | hc
    · refine ⟨rfl, ?_, .inl ⟨hc, .inr (half_nat h n)⟩⟩
      show roundQ p emin (Decimal (roundHalfEven (units q n)).toNat (placeOf q n)) = q
      rw [hc]; exact h1.1
    · refine ⟨rfl, ?_, .inr ⟨hc, .inr (half_nat h n)⟩⟩
      show roundQ p emin (Decimal (roundHalfEven (units q n)).toNat (placeOf q n)) = q
      rw [hc]; exact h1.2
  · cases ht
    exact ⟨rfl, h2, .inl ⟨rfl, .inl fun hc => h1 ⟨h2, hc⟩⟩⟩
  · cases ht
    exact ⟨rfl, h3, .inr ⟨rfl, .inl fun hc => h2 hc⟩⟩

/-- A decimal of at most `n` digits that reads back makes the step succeed. -/
theorem tryDigits_of (hp : 0 < p) (hq : Grid p emin q) (h : 0 < q) {n : Nat} {v : Nat} {k : Int} (hv : v < 10 ^ n)
    (hr : roundQ p emin (Decimal v k) = q) : tryDigits p emin q n ≠ none := by
  have hqq := roundQ_exact hp hq
  have hb := bracket h (k := k) hv
  rw [tryDigits_eq]
  rcases le_or_gt (Decimal v k) q with hle | hgt
  · have h1 : roundQ p emin (Decimal (downOf q n) (placeOf q n)) = q := by
      apply le_antisymm
      · have := roundQ_mono hp (emin := emin) (decimal_down_le h n); rwa [hqq] at this
      · have := roundQ_mono hp (emin := emin) (hb.1 hle); rwa [hr] at this
    split_ifs <;> simp
  · have h1 : roundQ p emin (Decimal (downOf q n + 1) (placeOf q n)) = q := by
      apply le_antisymm
      · have := roundQ_mono hp (emin := emin) (hb.2 hgt); rwa [hr] at this
      · have := roundQ_mono hp (emin := emin) (decimal_up_gt h n).le; rwa [hqq] at this
    split_ifs <;> simp

/-- Seventeen digits are enough. -/
theorem tryDigits_seventeen (hp : 1 < p) (hp' : p ≤ 53) (hq : Grid p emin q) (h : 0 < q) :
    tryDigits p emin q 17 ≠ none := by
  have key : roundQ p emin (Decimal (roundHalfEven (units q 17)).toNat (placeOf q 17)) = q := by
    apply round_back hp hq h
    have hd := roundHalfEven_dist (units q 17)
    have hn : (((roundHalfEven (units q 17)).toNat : Nat) : ℚ) = (roundHalfEven (units q 17) : ℚ) := by
      have := half_nat h 17
      exact_mod_cast congrArg (Int.cast (R := ℚ)) this
    have hpos : (0 : ℚ) < 10 ^ placeOf q 17 := by positivity
    have e : |Decimal (roundHalfEven (units q 17)).toNat (placeOf q 17) - q| =
        |(roundHalfEven (units q 17) : ℚ) - units q 17| * 10 ^ placeOf q 17 := by
      rw [show Decimal (roundHalfEven (units q 17)).toNat (placeOf q 17) - q =
        ((roundHalfEven (units q 17) : ℚ) - units q 17) * 10 ^ placeOf q 17 by
          rw [sub_mul, units_mul, Decimal, hn], abs_mul, abs_of_pos hpos]
    have hge := units_ge h (n := 17) (by decide)
    have h2 : (2 : ℚ) ^ (p + 1) ≤ 2 ^ 54 := pow_le_pow_right₀ (by norm_num) (by omega)
    have hpp : (0 : ℚ) < 2 ^ (p + 1) := by positivity
    calc _ ≤ 1 / 2 * 10 ^ placeOf q 17 * 2 ^ 54 := by
          rw [e]
          apply mul_le_mul _ h2 hpp.le (by positivity)
          exact mul_le_mul_of_nonneg_right hd hpos.le
      _ < ((10 ^ (17 - 1) : Nat) : ℚ) * 10 ^ placeOf q 17 := by
          have : (1 / 2 : ℚ) * 2 ^ 54 < ((10 ^ (17 - 1) : Nat) : ℚ) := by norm_num
          nlinarith
      _ ≤ units q 17 * 10 ^ placeOf q 17 := mul_le_mul_of_nonneg_right hge hpos.le
      _ = q := units_mul q 17
  rw [tryDigits_eq]
  rcases half_cases h 17 with hc | hc <;> rw [hc] at key <;> split_ifs <;> simp_all

/-- The loop finds the first number of digits that works. -/
theorem firstDigits_spec (p : Nat) (emin : Int) (q : ℚ) (fuel : Nat) : ∀ n m, n ≤ m → m < n + fuel →
    tryDigits p emin q m ≠ none → ∃ i, n ≤ i ∧ i ≤ m ∧ tryDigits p emin q i = some (firstDigits p emin q fuel n) ∧
      ∀ j, n ≤ j → j < i → tryDigits p emin q j = none := by
  induction fuel with
  | zero => intro n m h1 h2; omega
  | succ fuel ih =>
    intro n m h1 h2 hm
    cases ht : tryDigits p emin q n with
    | some r =>
      refine ⟨n, le_rfl, h1, ?_, fun j hj hj' => by omega⟩
      simp only [firstDigits.eq_def, ht]
    | none =>
      have hne : n ≠ m := fun hc => hm (hc ▸ ht)
      obtain ⟨i, hi1, hi2, hi3, hi4⟩ := ih (n + 1) m (by omega) (by omega) hm
      refine ⟨i, by omega, hi2, ?_, fun j hj hj' => ?_⟩
      · rw [firstDigits.eq_def]; simp only [ht]; exact hi3
      · rcases Nat.eq_or_lt_of_le hj with rfl | hlt
        · exact ht
        · exact hi4 j hlt hj'

/-- Stripping zeros keeps the value and ends in a digit that is not zero. -/
theorem stripZeros_spec (fuel : Nat) : ∀ v k, v ≠ 0 → v < 10 ^ fuel → ∃ s : Nat,
    v = (stripZeros fuel (v, k)).1 * 10 ^ s ∧ (stripZeros fuel (v, k)).2 = k + s ∧
      (stripZeros fuel (v, k)).1 % 10 ≠ 0 := by
  induction fuel with
  | zero => intro v k h0 h1; simp at h1; exact absurd h1 h0
  | succ fuel ih =>
    intro v k h0 h1
    rw [stripZeros]
    split_ifs with hm
    · obtain ⟨s, e1, e2, e3⟩ := ih (v / 10) (k + 1) (by omega) (by rw [pow_succ] at h1; omega)
      refine ⟨s + 1, ?_, by rw [e2]; push_cast; ring, e3⟩
      rw [pow_succ, ← mul_assoc, ← e1]; omega
    · exact ⟨0, by simp, by simp, hm⟩

theorem decimal_shift (v s : Nat) (k : Int) : Decimal (v * 10 ^ s) k = Decimal v (k + s) := by
  unfold Decimal
  rw [zpow_add₀ (by norm_num), zpow_natCast]; push_cast; ring

/-- The chosen one is the closest of those that read back. -/
theorem Chosen.closest (h : 0 < q) {n v : Nat} {k : Int} (hc : Chosen p emin q n v k) {v' : Nat} {k' : Int}
    (hp : 0 < p) (hq : Grid p emin q) (hv : v' < 10 ^ n) (hr : roundQ p emin (Decimal v' k') = q) :
    |Decimal v k - q| ≤ |Decimal v' k' - q| := by
  have hqq := roundQ_exact hp hq
  have hb := bracket h (k := k') hv
  have hdl := decimal_down_le h n
  have hug := decimal_up_gt h n
  obtain ⟨rfl, hrd, hch⟩ := hc
  have hpos : (0 : ℚ) < 10 ^ placeOf q n := by positivity
  have half : (v : Int) = roundHalfEven (units q n) → |Decimal v (placeOf q n) - q| ≤ 1 / 2 * 10 ^ placeOf q n := by
    intro he
    have hd := roundHalfEven_dist (units q n)
    rw [← he] at hd
    rw [show Decimal v (placeOf q n) - q = ((v : ℚ) - units q n) * 10 ^ placeOf q n by
      rw [sub_mul, units_mul, Decimal], abs_mul, abs_of_pos hpos]
    exact mul_le_mul_of_nonneg_right (by exact_mod_cast hd) hpos.le
  have hdiff : Decimal (downOf q n + 1) (placeOf q n) - Decimal (downOf q n) (placeOf q n) = 10 ^ placeOf q n := by
    unfold Decimal; push_cast; ring
  rcases le_or_gt (Decimal v' k') q with hle | hgt
  · have h1 := hb.1 hle
    have hok : roundQ p emin (Decimal (downOf q n) (placeOf q n)) = q := by
      apply le_antisymm
      · have := roundQ_mono hp (emin := emin) hdl; rwa [hqq] at this
      · have := roundQ_mono hp (emin := emin) h1; rwa [hr] at this
    rw [abs_of_nonpos (show Decimal v' k' - q ≤ 0 by linarith)]
    rcases hch with ⟨rfl, -⟩ | ⟨rfl, hne | he⟩
    · rw [abs_of_nonpos (by linarith)]; linarith
    · exact absurd hok hne
    · have := half he
      rw [abs_of_nonneg (by linarith)] at this ⊢
      linarith
  · have h1 := hb.2 hgt
    have hok : roundQ p emin (Decimal (downOf q n + 1) (placeOf q n)) = q := by
      apply le_antisymm
      · have := roundQ_mono hp (emin := emin) h1; rwa [hr] at this
      · have := roundQ_mono hp (emin := emin) hug.le; rwa [hqq] at this
    rw [abs_of_pos (show 0 < Decimal v' k' - q by linarith)]
    rcases hch with ⟨rfl, hne | he⟩ | ⟨rfl, -⟩
    · exact absurd hok hne
    · have := half he
      rw [abs_of_nonpos (by linarith)] at this ⊢
      linarith
    · rw [abs_of_nonneg (by linarith)]; linarith

/-- When another multiple of the same power is as close, the chosen one is even and has no zero to strip. -/
theorem Chosen.even (h : 0 < q) {n v : Nat} {k : Int} (hc : Chosen p emin q n v k) {w : Nat}
    (hp : 0 < p) (hq : Grid p emin q) (hw : w ≠ v) (hr : roundQ p emin (Decimal w k) = q)
    (hd : |Decimal w k - q| = |Decimal v k - q|) : v % 2 = 0 ∧ (w = v + 1 ∨ v = w + 1) := by
  have hqq := roundQ_exact hp hq
  have hdl := down_le h n
  have hug := lt_up h n
  obtain ⟨rfl, hrd, hch⟩ := hc
  have hpos : (0 : ℚ) < 10 ^ placeOf q n := by positivity
  have eu : ∀ u : Nat, |Decimal u (placeOf q n) - q| = |(u : ℚ) - units q n| * 10 ^ placeOf q n := by
    intro u
    rw [show Decimal u (placeOf q n) - q = ((u : ℚ) - units q n) * 10 ^ placeOf q n by
      rw [sub_mul, units_mul, Decimal], abs_mul, abs_of_pos hpos]
  rw [eu, eu] at hd
  have hd' := mul_right_cancel₀ hpos.ne' hd
  have hwv : (w : ℚ) ≠ v := by exact_mod_cast hw
  have hsum : (w : ℚ) + v = 2 * units q n := by
    rcases abs_eq_abs.mp hd' with h1 | h1
    · exact absurd (by linarith) hwv
    · linarith
  have mono : ∀ {a b : Nat}, a ≤ b → Decimal a (placeOf q n) ≤ Decimal b (placeOf q n) := fun hab =>
    mul_le_mul_of_nonneg_right (by exact_mod_cast hab) hpos.le
  have hpush : ((downOf q n + 1 : Nat) : ℚ) = (downOf q n : ℚ) + 1 := by push_cast; rfl
  have hev : ∀ u : Nat, (u : Int) = roundHalfEven (units q n) → (units q n - ⌊units q n⌋ = 1 / 2) → u % 2 = 0 := by
    intro u hu ht
    have hdn := down_eq h n
    unfold roundHalfEven at hu
    rw [ht] at hu
    simp only [lt_irrefl, if_false] at hu
    split_ifs at hu <;> omega
  have hfl : (⌊units q n⌋ : ℚ) = downOf q n := by
    have := down_eq h n
    exact_mod_cast congrArg (Int.cast (R := ℚ)) this.symm
  rcases hch with ⟨rfl, hch⟩ | ⟨rfl, hch⟩
  · have hgt : downOf q n < w := by
      have : (downOf q n : ℚ) ≤ w := by linarith
      have : downOf q n ≤ w := by exact_mod_cast this
      omega
    rcases hch with hne | he
    · exfalso; apply hne
      apply le_antisymm
      · have := roundQ_mono hp (emin := emin) (mono (show downOf q n + 1 ≤ w from hgt)); rwa [hr] at this
      · have := roundQ_mono hp (emin := emin) (decimal_up_gt h n).le; rwa [hqq] at this
    · have hw2 : w = downOf q n + 1 := by
        have hdist := roundHalfEven_dist (units q n)
        rw [← he] at hdist
        have h3 := (abs_le.mp hdist).1
        push_cast at h3
        have : (w : ℚ) ≤ downOf q n + 1 := by linarith
        have : w ≤ downOf q n + 1 := by exact_mod_cast this
        omega
      refine ⟨hev _ he ?_, .inl hw2⟩
      rw [hfl]
      rw [hw2, hpush] at hsum
      linarith
  · have hlt : w ≤ downOf q n := by
      have : (w : ℚ) < downOf q n + 1 := by linarith
      have : w < downOf q n + 1 := by exact_mod_cast this
      omega
    rcases hch with hne | he
    · exfalso; apply hne
      apply le_antisymm
      · have := roundQ_mono hp (emin := emin) (decimal_down_le h n); rwa [hqq] at this
      · have := roundQ_mono hp (emin := emin) (mono hlt); rwa [hr] at this
    · have hw2 : w = downOf q n := by
        have hdist := roundHalfEven_dist (units q n)
        rw [← he] at hdist
        have h3 := (abs_le.mp hdist).2
        push_cast at h3
        have : (downOf q n : ℚ) ≤ w := by rw [hpush] at hsum; linarith
        have : downOf q n ≤ w := by exact_mod_cast this
        omega
      refine ⟨hev _ he ?_, .inr (by rw [hw2])⟩
      rw [hfl]
      rw [hw2, hpush] at hsum
      linarith

/-- **The algorithm finds the shortest decimal.** -/
theorem shortest_spec (hp : 1 < p) (hp' : p ≤ 53) (hq : Grid p emin q) (h : 0 < q) :
    Shortest p emin q (shortest p emin q).1 (shortest p emin q).2 ∧
    q ≤ 2 * Decimal (shortest p emin q).1 (shortest p emin q).2 ∧
    Decimal (shortest p emin q).1 (shortest p emin q).2 ≤ 2 * q := by
  have hp0 : 0 < p := by omega
  have hN : ∀ r, Nearest p emin r q ↔ roundQ p emin r = q := fun r =>
    ⟨fun hr => ((nearest_iff hp).mp hr).symm, fun hr => (nearest_iff hp).mpr hr.symm⟩
  obtain ⟨n, hn1, hn17, htry, hmin⟩ := firstDigits_spec p emin q 17 1 17 (by decide) (by decide)
    (tryDigits_seventeen hp hp' hq h)
  have hc := tryDigits_some h htry
  unfold shortest
  rw [show firstDigits p emin q 17 1 = ((firstDigits p emin q 17 1).1, (firstDigits p emin q 17 1).2) from rfl]
  generalize (firstDigits p emin q 17 1).1 = w at hc ⊢
  generalize (firstDigits p emin q 17 1).2 = k at hc ⊢
  have hdg := down_ge h hn1
  have hdl := down_lt h n
  have hwb : 10 ^ (n - 1) ≤ w ∧ w ≤ 10 ^ n := by
    rcases hc.choice with ⟨rfl, -⟩ | ⟨rfl, -⟩ <;> omega
  have hpw : 0 < 10 ^ (n - 1) := by positivity
  have hw18 : w < 10 ^ 18 := by
    have : 10 ^ n ≤ 10 ^ 17 := Nat.pow_le_pow_right (by decide) hn17
    have : 10 ^ 17 < 10 ^ 18 := by norm_num
    omega
  obtain ⟨s, e1, e2, e3⟩ := stripZeros_spec 18 w k (by omega) hw18
  generalize hs1 : (stripZeros 18 (w, k)).1 = v at *
  generalize hs2 : (stripZeros 18 (w, k)).2 = j at *
  have hval : Decimal v j = Decimal w k := by rw [e2, ← decimal_shift, ← e1]
  have hv10 : v < 10 ^ n := by
    rcases Nat.eq_zero_or_pos s with rfl | hs
    · rw [pow_zero, mul_one] at e1
      have hne : w ≠ 10 ^ n := by
        rintro rfl
        apply e3
        rw [← e1, show n = (n - 1) + 1 by omega, pow_succ]; omega
      omega
    · have : v * 10 ≤ w := by
        rw [e1]
        exact Nat.mul_le_mul_left _ (by
          calc 10 = 10 ^ 1 := by norm_num
            _ ≤ 10 ^ s := Nat.pow_le_pow_right (by decide) hs)
      have : 0 < v := by omega
      omega
  have few : ∀ v' k', roundQ p emin (Decimal v' k') = q → ∀ m, v' < 10 ^ m → n ≤ m := by
    intro v' k' hr m hm
    by_contra hlt
    rcases Nat.eq_zero_or_pos m with rfl | hm0
    · have : v' = 0 := by simpa using hm
      rw [this] at hr
      have : roundQ p emin 0 = 0 := by simp [roundQ]
      rw [show Decimal 0 k' = 0 by simp [Decimal], this] at hr
      linarith
    · exact tryDigits_of hp0 hq h hm hr (hmin m hm0 (by omega))
  refine ⟨⟨?_, e3, ?_, ?_, ?_⟩, ?_, ?_⟩
  · rw [hN, hval]; exact hc.reads
  · intro v' k' hr m hm
    have := few v' k' ((hN _).mp hr) m hm
    exact lt_of_lt_of_le hv10 (Nat.pow_le_pow_right (by decide) this)
  · intro v' k' hr hm
    rw [hval]
    exact hc.closest h hp0 hq (hm n hv10) ((hN _).mp hr)
  · intro v' hne hr hd
    rw [e2, ← decimal_shift, ← decimal_shift, ← e1] at hd
    rw [hN, e2, ← decimal_shift] at hr
    have hpz : 0 < 10 ^ s := by positivity
    have hne' : v' * 10 ^ s ≠ w := by
      rw [e1]; intro hc; exact hne (Nat.eq_of_mul_eq_mul_right hpz hc)
    obtain ⟨h1, h2⟩ := hc.even h hp0 hq hne' hr hd
    have hs0 : s = 0 := by
      by_contra hs
      obtain ⟨t, rfl⟩ := Nat.exists_eq_succ_of_ne_zero hs
      rw [pow_succ, ← mul_assoc] at h2 e1
      omega
    subst hs0
    rw [pow_zero, mul_one] at e1
    rw [← e1]; exact h1
  · rw [hval]
    have hpos : (0 : ℚ) < 10 ^ placeOf q n := by positivity
    have h1 := decimal_up_gt h n
    have hk := hc.place
    have : Decimal (downOf q n + 1) (placeOf q n) ≤ 2 * Decimal w k := by
      rw [hk]; unfold Decimal
      have : downOf q n + 1 ≤ 2 * w := by rcases hc.choice with ⟨rfl, -⟩ | ⟨rfl, -⟩ <;> omega
      have : ((downOf q n + 1 : Nat) : ℚ) ≤ 2 * w := by exact_mod_cast this
      nlinarith
    linarith
  · rw [hval]
    have hpos : (0 : ℚ) < 10 ^ placeOf q n := by positivity
    have h1 := decimal_down_le h n
    have hk := hc.place
    have : Decimal w k ≤ 2 * Decimal (downOf q n) (placeOf q n) := by
      rw [hk]; unfold Decimal
      have : w ≤ 2 * downOf q n := by rcases hc.choice with ⟨rfl, -⟩ | ⟨rfl, -⟩ <;> omega
      have : (w : ℚ) ≤ 2 * downOf q n := by exact_mod_cast this
      nlinarith
    linarith

end

end Gopmml
