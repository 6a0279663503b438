import Verif.Spec.Text

/-!
# How a floating point number is written (for C77)

Which decimal `%v` writes for a float, stated with the nearest number of the format and no algorithm.
-/

namespace Gopmml.Spec
open Gopmml

/-- The decimal `v * 10 ^ k`. -/
def Decimal (v : Nat) (k : Int) : ℚ := v * 10 ^ k

/-- The decimal `v * 10 ^ k` is the one written for the positive number `q` of a binary format: it reads
back as `q`, its last digit is not zero, no decimal with fewer digits reads back as `q`, and of the decimals
with as many digits that do it is the closest to `q`; when the neighbour is as close, its last digit is even. -/
structure Shortest (p : Nat) (emin : Int) (q : ℚ) (v : Nat) (k : Int) : Prop where
  reads : Nearest p emin (Decimal v k) q
  last : v % 10 ≠ 0
  fewest : ∀ v' k', Nearest p emin (Decimal v' k') q → ∀ n, v' < 10 ^ n → v < 10 ^ n
  closest : ∀ v' k', Nearest p emin (Decimal v' k') q → (∀ n, v < 10 ^ n → v' < 10 ^ n) →
    |Decimal v k - q| ≤ |Decimal v' k' - q|
  even : ∀ v', v' ≠ v → Nearest p emin (Decimal v' k) q → |Decimal v' k - q| = |Decimal v k - q| → v % 2 = 0

/-- Digits of `v`, the first of which is not zero. -/
def DigitsOf (ds : List Char) (v : Nat) : Prop := DigitsAre ds v ∧ ds ≠ [] ∧ ds.head? ≠ some '0'

/-- `m` zeros. -/
abbrev zeros (m : Nat) : List Char := List.replicate m '0'

/-- The ways the digits `ds` times `10 ^ k` are laid out; `ds.length + k` is the place of the decimal point. -/
inductive LaidOut (ds : List Char) (k : Int) : List Char → Prop
  /-- `0.00123` -/
  | small {z : Nat} : (ds.length : Int) + k = -z → z ≤ 3 → LaidOut ds k ('0' :: '.' :: (zeros z ++ ds))
  /-- `12300` -/
  | whole {z : Nat} : k = z → ds.length + z ≤ 6 → LaidOut ds k (ds ++ zeros z)
  /-- `12.3` -/
  | point {a b : List Char} : ds = a ++ b → a ≠ [] → b ≠ [] → k = -b.length → a.length ≤ 6 → LaidOut ds k (a ++ '.' :: b)
  /-- `1e+06`, `2e-05` -/
  | one {d : Char} {ee : List Char} {n : Nat} {neg : Bool} : ds = [d] → DigitsAre ee n → 2 ≤ ee.length →
      (2 < ee.length → ee.head? ≠ some '0') → k = (if neg then -(n : Int) else n) → (if neg then 4 < n else 6 ≤ n) →
      LaidOut ds k (d :: 'e' :: (if neg then '-' else '+') :: ee)
  /-- `1.23e+06`, `2.34e-05` -/
  | more {d : Char} {r ee : List Char} {n : Nat} {neg : Bool} : ds = d :: r → r ≠ [] → DigitsAre ee n → 2 ≤ ee.length →
      (2 < ee.length → ee.head? ≠ some '0') → k + r.length = (if neg then -(n : Int) else n) →
      (if neg then 4 < n else 6 ≤ n) → LaidOut ds k (d :: '.' :: (r ++ 'e' :: (if neg then '-' else '+') :: ee))

/-- `s` is how the float `x` of `p` bits is written. -/
inductive Written (p : Nat) (emin : Int) : F64 → String → Prop
  | nan : Written p emin .nan "NaN"
  | posInf : Written p emin (.inf false) "+Inf"
  | negInf : Written p emin (.inf true) "-Inf"
  | negZero : Written p emin .negZero "-0"
  | zero {h : Rep 0} : Written p emin (.fin 0 h) "0"
  | pos {q : ℚ} {h : Rep q} {v : Nat} {k : Int} {ds t : List Char} : 0 < q → Shortest p emin q v k →
      DigitsOf ds v → LaidOut ds k t → Written p emin (.fin q h) (String.ofList t)
  | neg {q : ℚ} {h : Rep q} {v : Nat} {k : Int} {ds t : List Char} : q < 0 → Shortest p emin (-q) v k →
      DigitsOf ds v → LaidOut ds k t → Written p emin (.fin q h) (String.ofList ('-' :: t))

end Gopmml.Spec
