import Verif.Model.F64

/-!
# The number a float64 stands for, and the size of rounding errors

The exact results float64 results are compared with are rational numbers: nothing here refers to
the rounding function of `Verif.Model.F64`.
-/

namespace Gopmml.F64

/-- The rational number a finite float64 denotes. -/
def val : F64 → Option ℚ
  | nan => none
  | inf _ => none
  | negZero => some 0
  | fin q _ => some q

/-- The unit roundoff, `2^-53`. -/
def uu : ℚ := 1 / 2 ^ 53

/-- Half the smallest positive float64, `2^-1075`. -/
def eta : ℚ := 1 / 2 ^ 1075

end Gopmml.F64
