import Verif.Model.F64
import Verif.Model.Regression

/-!
# What is known about `math.Exp`, `math.Atan` and `1/math.Pi`

The functions of the library themselves are not modelled.  These are facts about their float64
values; the bounds are rough on purpose.
-/

namespace Gopmml.Spec
open F64

/-- `math.Exp` overflows above 709.78 and is nought below -745.13; in between it is e^x up to an error
in the last place, and e^700 < 2^1010.  `math.Atan` lies between the float64 numbers nearest to -π/2
and π/2. -/
structure GoMath [Trans F64] : Prop where
  exp_nan : Trans.exp nan = (nan : F64)
  exp_mono : ∀ {x y : F64}, Arith.le x y = true → Arith.le (Trans.exp x) (Trans.exp y) = true
  exp_nonneg : ∀ {x : F64}, x ≠ nan → Arith.le Arith.zero (Trans.exp x) = true
  exp_le_one : ∀ {x : F64}, Arith.le x Arith.zero = true → Arith.le (Trans.exp x) Arith.one = true
  exp_overflow : ∀ {x : F64}, Arith.le (Arith.lit 710 1) x = true → Trans.exp x = inf false
  exp_underflow : ∀ {x : F64}, Arith.le x (Arith.lit (-746) 1) = true → Arith.le (Trans.exp x) Arith.zero = true
  exp_bounded : ∀ {x : F64}, Arith.le x (Arith.lit 700 1) = true →
    Arith.le (Trans.exp x) (Arith.lit (2 ^ 1010) 1) = true
  exp_positive : ∀ {x : F64}, Arith.le (Arith.lit (-700) 1) x = true → Arith.lt Arith.zero (Trans.exp x) = true
  atan_nan : Trans.atan nan = (nan : F64)
  atan_low : ∀ {x : F64}, x ≠ nan → Arith.le (Arith.lit (-7074237752028440) (2 ^ 52)) (Trans.atan x) = true
  atan_high : ∀ {x : F64}, x ≠ nan → Arith.le (Trans.atan x) (Arith.lit 7074237752028440 (2 ^ 52)) = true
  invPi_eq : (Trans.invPi : F64) = Arith.lit 5734161139222659 (2 ^ 54)

end Gopmml.Spec
