import Verif.Proofs.F64Mono
import Verif.Spec.Mining

/-!
# Order of float64 results, NaN aside
-/

namespace Gopmml.F64

open Gopmml

/-- `x` is not above `y`, unless one of them is NaN. -/
def Up (x y : F64) : Prop := x ≠ nan → y ≠ nan → le x y = true

theorem Up.refl (x : F64) : Up x x := fun h _ => le_refl h

theorem Up.of_le {x y : F64} (h : le x y = true) : Up x y := fun _ _ => h

theorem Up.add {x x' y y' : F64} (h : Up x x') (h' : Up y y') : Up (add x y) (add x' y') := by
  intro hn hn'
  obtain ⟨h1, h2⟩ := add_ne_nan hn
  obtain ⟨h3, h4⟩ := add_ne_nan hn'
  exact add_le (h h1 h3) (h' h2 h4) hn hn'

theorem F64_mul_comm (x y : F64) : mul x y = mul y x := by
  cases x with
  | nan => cases y <;> rfl
  | inf a =>
    cases y with
    | nan => rfl
    | inf b => simp only [mul, bne_comm]
    | negZero => rfl
    | fin q h => simp only [mul, bne_comm]
  | negZero => cases y <;> rfl
  | fin q h =>
    cases y with
    | nan => rfl
    | inf b => simp only [mul, bne_comm]
    | negZero => rfl
    | fin r h' => simp only [mul, bne_comm, mul_comm]

theorem Up.mul {c x y : F64} (hc : le Arith.zero c = true) (h : Up x y) : Up (mul x c) (mul y c) := by
  intro hn hn'
  rw [F64_mul_comm] at hn hn' ⊢
  rw [F64_mul_comm y c]
  exact mul_le hc (h (mul_ne_nan hn).2 (mul_ne_nan hn').2) hn hn'

theorem div_ne_nan {x y : F64} (h : div x y ≠ nan) : x ≠ nan ∧ y ≠ nan := by
  constructor
  · rintro rfl; simp [div] at h
  · rintro rfl; cases x <;> simp [div] at h

theorem div_finite_ext {x : F64} {a q : ℚ} (hx : x = negZero ∧ a = 0 ∨ ∃ h, x = fin a h) (hq : Rep q) (h0 : 0 < q) :
    ext (div x (fin q hq)) = ext (ofRat false (a / q)) := by
  have hneg : isNeg (fin q hq) = false := by simp [isNeg, le_of_lt h0]
  rcases hx with ⟨rfl, rfl⟩ | ⟨ha, rfl⟩
  · simp only [div, if_neg (ne_of_gt h0), hneg, zero_div, ext_ofRat_exact rep_zero]
    rfl
  · simp only [div, if_neg (ne_of_gt h0)]
    rw [ext_ofRat, ext_ofRat]

theorem ext_zeroOf (b : Bool) : ext (zeroOf b) = (((0 : ℚ) : WithTop ℚ) : WithBot (WithTop ℚ)) := by
  cases b <;> rfl

/-- Division by a number that is at least one. -/
theorem Up.div {c x y : F64} (hc : le Arith.one c = true) (h : Up x y) : Up (div x c) (div y c) := by
  intro hn hn'
  have hxy := h (div_ne_nan hn).1 (div_ne_nan hn').1
  have hcn : c ≠ nan := (le_not_nan hc).2
  rw [le_iff one_ne_nan hcn, ext_one] at hc
  have hc0 : NonNeg c := ⟨hcn, _root_.le_trans (by exact_mod_cast zero_le_one) hc⟩
  rcases hc0.cases with rfl | rfl | ⟨q, hq, rfl, h0⟩
  · have fin_of : ∀ {z : F64}, F64.div z (inf false) ≠ nan → ext (F64.div z (inf false)) = (((0 : ℚ) : WithTop ℚ) : WithBot (WithTop ℚ)) := by
      intro z hz
      cases z with
      | nan => simp [F64.div] at hz
      | inf b => simp [F64.div] at hz
      | negZero => simp only [F64.div]; exact ext_zeroOf _
      | fin r hr => simp only [F64.div]; exact ext_zeroOf _
    rw [le_iff hn hn', fin_of hn, fin_of hn']
  · simp only [ext] at hc; exact absurd (by exact_mod_cast hc : (1 : ℚ) ≤ 0) (by norm_num)
  · have h1 : (1 : ℚ) ≤ q := by simp only [ext] at hc; exact_mod_cast hc
    have hpos : 0 < q := lt_of_lt_of_le one_pos h1
    have hneg : isNeg (fin q hq) = false := by simp [isNeg, le_of_lt hpos]
    rcases le_cases hxy with rfl | rfl | ⟨a, b, hab, ha, hb⟩
    · have : F64.div (inf true) (fin q hq) = inf true := by simp [F64.div, hneg]
      rw [this]; exact le_negInf hn'
    · have : F64.div (inf false) (fin q hq) = inf false := by simp [F64.div, hneg]
      rw [this]; exact le_posInf hn
    · rw [le_iff hn hn', div_finite_ext ha hq hpos, div_finite_ext hb hq hpos]
      exact ext_ofRat_mono (div_le_div_of_nonneg_right hab h0) _ _

theorem one_le_ofInt {n : Nat} (h : n ≠ 0) : le Arith.one (Arith.ofInt (n : Int) : F64) = true := by
  have he : (Arith.ofInt (n : Int) : F64) = ofRat false ((n : Int) : ℚ) := rfl
  rw [he, one_eq, le_iff (ofRat_ne_nan _ _) (ofRat_ne_nan _ _)]
  refine ext_ofRat_mono ?_ _ _
  have : 1 ≤ n := Nat.one_le_iff_ne_zero.mpr h
  exact_mod_cast this

open Spec in
theorem Up.rescaled {x y : F64} (h : Up x y) (ts : List (Target F64))
    (ht : ∀ t ∈ ts, ∀ k, t.rescaleFactor = some k → le Arith.zero k = true) :
    Up (Spec.rescaled x ts) (Spec.rescaled y ts) := by
  induction ts generalizing x y with
  | nil => exact h
  | cons t ts ih =>
    unfold Spec.rescaled
    have h1 := ht t (by simp)
    have ih' := fun {x y} (h : Up x y) => ih (x := x) (y := y) h (fun u hu => ht u (by simp [hu]))
    cases hf : t.rescaleFactor with
    | none =>
      cases hc : t.rescaleConstant with
      | none => exact ih' h
      | some c => exact ih' (h.add (Up.refl c))
    | some k =>
      cases hc : t.rescaleConstant with
      | none => exact ih' (h.mul (h1 k hf))
      | some c => exact ih' ((h.mul (h1 k hf)).add (Up.refl c))

/-- Adding something that is at most zero, or nothing. -/
theorem Up.add_left {x x' y : F64} (h : Up x x') (hy : le y Arith.zero = true) : Up (F64.add x y) x' := by
  intro hn hn'
  have h1 := h (add_ne_nan hn).1 hn'
  have hz : F64.add x' Arith.zero ≠ nan ∧ le (F64.add x' Arith.zero) x' = true := by
    rcases finite_or hn' with rfl | rfl | ⟨q, hq, hx⟩
    · rw [zero_eq]; exact ⟨by decide +kernel, by decide +kernel⟩
    · rw [zero_eq]; exact ⟨by decide +kernel, by decide +kernel⟩
    · have hz0 : (Arith.zero : F64) = negZero ∧ (0 : ℚ) = 0 ∨ ∃ h, (Arith.zero : F64) = fin 0 h := by
        right; exact ⟨rep_zero, by decide +kernel⟩
      obtain ⟨h2, h3⟩ := add_finite hx hz0
      refine ⟨h2, ?_⟩
      have hrep : Rep q := by
        rcases hx with ⟨-, rfl⟩ | ⟨h, -⟩
        · exact rep_zero
        · exact h
      rw [le_iff h2 hn', h3, add_zero, ext_ofRat_exact hrep, hq]
  exact le_trans (add_le h1 hy hn hz.1) hz.2

/-- Adding something that is at least zero, or nothing. -/
theorem Up.add_right {x x' y : F64} (h : Up x x') (hy : le Arith.zero y = true) : Up x (F64.add x' y) := by
  intro hn hn'
  have h1 := h hn (add_ne_nan hn').1
  have hz : F64.add x Arith.zero ≠ nan ∧ le x (F64.add x Arith.zero) = true := by
    rcases finite_or hn with rfl | rfl | ⟨q, hq, hx⟩
    · rw [zero_eq]; exact ⟨by decide +kernel, by decide +kernel⟩
    · rw [zero_eq]; exact ⟨by decide +kernel, by decide +kernel⟩
    · have hz0 : (Arith.zero : F64) = negZero ∧ (0 : ℚ) = 0 ∨ ∃ h, (Arith.zero : F64) = fin 0 h := by
        right; exact ⟨rep_zero, by decide +kernel⟩
      obtain ⟨h2, h3⟩ := add_finite hx hz0
      refine ⟨h2, ?_⟩
      have hrep : Rep q := by
        rcases hx with ⟨-, rfl⟩ | ⟨h, -⟩
        · exact rep_zero
        · exact h
      rw [le_iff hn h2, h3, add_zero, ext_ofRat_exact hrep, hq]
  exact le_trans hz.2 (add_le h1 hy hz.1 hn')

end Gopmml.F64
