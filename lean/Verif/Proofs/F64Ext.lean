import Mathlib.Order.WithBot
import Verif.Proofs.F64Order

/-!
# float64 comparison is the order of the extended rationals
-/

namespace Gopmml.F64

/-- The extended rational a number denotes (junk for NaN). -/
def ext : F64 → WithBot (WithTop ℚ)
  | nan => ⊥
  | inf true => ⊥
  | inf false => ((⊤ : WithTop ℚ) : WithBot (WithTop ℚ))
  | negZero => (((0 : ℚ) : WithTop ℚ) : WithBot (WithTop ℚ))
  | fin q _ => ((q : WithTop ℚ) : WithBot (WithTop ℚ))

theorem lt_iff {x y : F64} (hx : x ≠ nan) (hy : y ≠ nan) : lt x y = true ↔ ext x < ext y := by
  cases x with
  | nan => exact absurd rfl hx
  | inf a => cases y with
    | nan => exact absurd rfl hy
    | inf b => cases a <;> cases b <;> simp [lt, ext]
    | negZero => cases a <;> simp [lt, ext]
    | fin q h => cases a <;> simp [lt, ext]
  | negZero => cases y with
    | nan => exact absurd rfl hy
    | inf b =>
      cases b
      · simp [lt, ext, -WithTop.coe_zero, -WithBot.coe_zero, -WithBot.coe_top]
      · simp [lt, ext]
    | negZero => simp [lt, ext]
    | fin q h => simp [lt, ext, -WithTop.coe_zero, -WithBot.coe_zero]
  | fin q h => cases y with
    | nan => exact absurd rfl hy
    | inf b =>
      cases b
      · simp [lt, ext, -WithBot.coe_top]
      · simp [lt, ext]
    | negZero => simp [lt, ext, -WithTop.coe_zero, -WithBot.coe_zero]
    | fin r k => simp [lt, ext]

theorem le_iff {x y : F64} (hx : x ≠ nan) (hy : y ≠ nan) : le x y = true ↔ ext x ≤ ext y := by
  rw [le_eq_not_lt hx hy, Bool.not_eq_true', ← Bool.not_eq_true, lt_iff hy hx, not_lt]

theorem lt_not_nan {x y : F64} (h : lt x y = true) : x ≠ nan ∧ y ≠ nan := by
  constructor <;> rintro rfl <;> simp at h

theorem le_not_nan {x y : F64} (h : le x y = true) : x ≠ nan ∧ y ≠ nan := by
  constructor <;> rintro rfl <;> simp at h

theorem lt_trans {x y z : F64} (h : lt x y = true) (h' : lt y z = true) : lt x z = true := by
  have h1 := lt_not_nan h
  have h2 := lt_not_nan h'
  rw [lt_iff h1.1 h1.2] at h
  rw [lt_iff h2.1 h2.2] at h'
  rw [lt_iff h1.1 h2.2]
  exact _root_.lt_trans h h'

theorem le_trans {x y z : F64} (h : le x y = true) (h' : le y z = true) : le x z = true := by
  have h1 := le_not_nan h
  have h2 := le_not_nan h'
  rw [le_iff h1.1 h1.2] at h
  rw [le_iff h2.1 h2.2] at h'
  rw [le_iff h1.1 h2.2]
  exact _root_.le_trans h h'

theorem le_refl {x : F64} (h : x ≠ nan) : le x x = true := by
  rw [le_iff h h]

/-- What does not exceed `a` is below everything `a` is below, unless it is NaN. -/
theorem lt_of_not_lt {a b c : F64} (h : lt a b = false) (h' : lt a c = true) :
    lt b c = true ∨ b = nan := by
  by_cases hb : b = nan
  · exact .inr hb
  · left
    have h2 := lt_not_nan h'
    rw [← Bool.not_eq_true, lt_iff h2.1 hb, not_lt] at h
    rw [lt_iff h2.1 h2.2] at h'
    rw [lt_iff hb h2.2]
    exact lt_of_le_of_lt h h'

end Gopmml.F64
