import Verif.Model.F64

/-!
# Order lemmas for float64
-/

namespace Gopmml.F64

theorem arith_lt (x y : F64) : Arith.lt x y = lt x y := rfl
theorem arith_le (x y : F64) : Arith.le x y = le x y := rfl
theorem arith_eq (x y : F64) : Arith.eq x y = eq x y := rfl
theorem arith_add (x y : F64) : Arith.add x y = add x y := rfl
theorem arith_sub (x y : F64) : Arith.sub x y = sub x y := rfl
theorem arith_mul (x y : F64) : Arith.mul x y = mul x y := rfl
theorem arith_div (x y : F64) : Arith.div x y = div x y := rfl

@[simp] theorem lt_nan_left (y : F64) : lt nan y = false := by cases y <;> rfl
@[simp] theorem lt_nan_right (x : F64) : lt x nan = false := by cases x <;> rfl
@[simp] theorem eq_nan_left (y : F64) : eq nan y = false := by cases y <;> rfl
@[simp] theorem eq_nan_right (x : F64) : eq x nan = false := by cases x <;> rfl
@[simp] theorem le_nan_left (y : F64) : le nan y = false := by simp [le]
@[simp] theorem le_nan_right (x : F64) : le x nan = false := by simp [le]

/-- On numbers the order is total. -/
theorem le_eq_not_lt {x y : F64} (hx : x ≠ nan) (hy : y ≠ nan) : le x y = !lt y x := by
  cases x with
  | nan => exact absurd rfl hx
  | inf a => cases y with
    | nan => exact absurd rfl hy
    | inf b => cases a <;> cases b <;> rfl
    | negZero => cases a <;> rfl
    | fin q h => cases a <;> rfl
  | negZero => cases y with
    | nan => exact absurd rfl hy
    | inf b => cases b <;> rfl
    | negZero => rfl
    | fin q h =>
      simp only [le, lt, eq]
      rcases lt_trichotomy q 0 with h | h | h
      · simp [h, h.ne, not_lt.mpr h.le]
      · simp [h]
      · simp [h, h.le]
  | fin q h => cases y with
    | nan => exact absurd rfl hy
    | inf b => cases b <;> rfl
    | negZero =>
      simp only [le, lt, eq]
      rcases lt_trichotomy q 0 with h | h | h
      · simp [h, not_lt.mpr h.le]
      · simp [h]
      · simp [h, h.ne', not_lt.mpr h.le]
    | fin r k =>
      simp only [le, lt, eq]
      rcases lt_trichotomy q r with h | h | h
      · simp [h, not_lt.mpr h.le]
      · simp [h]
      · simp [h, h.ne', not_lt.mpr h.le]

end Gopmml.F64
