import Verif.Model.Basic

/-!
# `evaluation.Value` (evaluation/miningschema.go) and `getRawValue`
-/

namespace Gopmml

/-- The integer dynamic types `Value.Int64` knows (miningschema.go:65-99).
`int`/`uint` are 64 bit (64-bit platforms). -/
inductive IntKind where
  | int | int8 | int16 | int32 | int64 | uint | uint8 | uint16 | uint32 | uint64
  deriving DecidableEq, Repr

namespace IntKind
def signed : IntKind → Bool
  | int | int8 | int16 | int32 | int64 => true
  | _ => false
def bits : IntKind → Nat
  | int | int64 | uint | uint64 => 64
  | int8 | uint8 => 8
  | int16 | uint16 => 16
  | int32 | uint32 => 32
/-- The integers a variable of this kind can hold. -/
def InRange (k : IntKind) (n : Int) : Prop :=
  if k.signed then -(2 ^ (k.bits - 1)) ≤ n ∧ n < 2 ^ (k.bits - 1)
  else 0 ≤ n ∧ n < 2 ^ k.bits
instance (k n) : Decidable (InRange k n) := by unfold InRange; infer_instance
end IntKind

/-- A Go `interface{}` value as stored in `Value.val` (miningschema.go:12-14).
`f32 x` is a float32 given by its exact float64 widening `x`.  `other` is any
other dynamic type: `tag` identifies it, `stringer` is its `String()` if it has
one, `fmt` its `%v` rendering.  Simplification: strings are valid Unicode. -/
inductive GoVal (F : Type) where
  | nil
  | bool (b : Bool)
  | str (s : String)
  | int (k : IntKind) (n : Int)
  | f32 (x : F)
  | f64 (x : F)
  | other (tag : Nat) (stringer : Option String) (fmt : String)
  deriving DecidableEq, Repr

/-- External functions: `strconv.ParseFloat(s, 64)` (`none` = error) and the `%v`
rendering of float64 and float32 values. -/
class Lib (F : Type) where
  parseFloat : String → Option F
  fmtF64 : F → String
  fmtF32 : F → String

/-- `int64(x)` for an out-of-range 64-bit unsigned `x`: two's complement wrap. -/
def wrap64 (n : Int) : Int := (n + 2 ^ 63) % 2 ^ 64 - 2 ^ 63

namespace GoVal
variable {F : Type}

/-- miningschema.go:65-99 `Value.Int64` -/
def int64 : GoVal F → Int
  | .int .int n => n
  | .int .int64 n => n
  | .int .int32 n => n
  | .int .int16 n => n
  | .int .int8 n => n
  | .int .uint n => wrap64 n
  | .int .uint8 n => n
  | .int .uint16 n => n
  | .int .uint32 n => n
  | .int .uint64 n => wrap64 n
  | _ => 0

variable [Arith F] [Lib F]

/-- miningschema.go:36-54 `Value.Float64` -/
def float64 : GoVal F → F
  | .f64 x => x
  | .f32 x => x
  | .str s =>
    match Lib.parseFloat s with
    | some x => x
    | none => Arith.zero
  | v => Arith.ofInt v.int64

/-- miningschema.go:24-34 `Value.Float32` (result widened to float64) -/
def float32 : GoVal F → F
  | .f32 x => x
  | .f64 x => Arith.toF32 x
  | v => Arith.ofInt32 v.int64

omit [Arith F] in
/-- miningschema.go:101-111 `Value.String` -/
def string : GoVal F → String
  | .str s => s
  | .other _ (some s) _ => s
  | .other _ none s => s
  | .nil => "<nil>"
  | .bool b => if b then "true" else "false"
  | .int _ n => toString n
  | .f32 x => Lib.fmtF32 x
  | .f64 x => Lib.fmtF64 x

omit [Arith F] [Lib F] in
/-- miningschema.go:56-63 `Value.Bool` -/
def toBool : GoVal F → Bool
  | .bool b => b
  | _ => false

omit [Lib F] in
/-- Go `==` on two interface values: equal dynamic types and equal values (float
comparison is IEEE).  Values of `other` types are never compared with one another
by the code, since one side is always a parsed constant or a string. -/
def ifaceEq : GoVal F → GoVal F → Bool
  | .nil, .nil => true
  | .bool a, .bool b => a == b
  | .str a, .str b => a == b
  | .int k a, .int l b => k == l && a == b
  | .f32 a, .f32 b => Arith.eq a b
  | .f64 a, .f64 b => Arith.eq a b
  | .other a _ _, .other b _ _ => a == b
  | _, _ => false

end GoVal

/-- models/simpleTypes.go:160-180 `DataType`; kinds the evaluator does not
distinguish are `other`. -/
inductive DataType where
  | boolean | double | float | integer | string
  | other (s : String)
  deriving DecidableEq, Repr

def isDigit (c : Char) : Bool := '0' ≤ c && c ≤ '9'

/-- Decimal value of a digit string. -/
def digitsVal (l : List Char) : Nat := l.foldl (fun n c => 10 * n + (c.toNat - '0'.toNat)) 0

/-- `strconv.ParseInt(s, 10, 64)`: optional sign, at least one digit, digits only,
in range; `none` = error. -/
def parseInt (s : String) : Option Int :=
  let l := s.toList
  let (neg, ds) := match l with
    | '-' :: r => (true, r)
    | '+' :: r => (false, r)
    | r => (false, r)
  if ds = [] ∨ ¬ ds.all isDigit then none
  else
    let n := digitsVal ds
    if neg then (if n ≤ 2 ^ 63 then some (-(n : Int)) else none)
    else (if n < 2 ^ 63 then some (n : Int) else none)

/-- `strconv.ParseBool(s)`; `none` = error. -/
def parseBool (s : String) : Option Bool :=
  if s = "1" ∨ s = "t" ∨ s = "T" ∨ s = "true" ∨ s = "TRUE" ∨ s = "True" then some true
  else if s = "0" ∨ s = "f" ∨ s = "F" ∨ s = "false" ∨ s = "FALSE" ∨ s = "False" then some false
  else none

/-- evaluation/evaluation.go:86-101 `getRawValue` -/
def getRawValue {F : Type} [Lib F] (dt : DataType) (val : String) : Res (GoVal F) :=
  match dt with
  | .boolean =>
    match parseBool val with
    | some b => .ok (.bool b)
    | none => fail (.parse val)
  | .double | .float =>
    match Lib.parseFloat val with
    | some x => .ok (.f64 x)
    | none => fail (.parse val)
  | .integer =>
    match parseInt val with
    | some n => .ok (.int .int64 n)
    | none => fail (.parse val)
  | .string => .ok (.str val)
  | .other _ => fail .invalidDataType

/-- A `DataRow` (miningschema.go:113) that may be a nil map: `none`. -/
abbrev Row (F : Type) := Option (GoMap (GoVal F))

namespace Row
variable {F : Type}
/-- `v, ok := row[k]`; reading a nil map is allowed. -/
def get (r : Row F) (k : String) : Option (GoVal F) := r.bind (fun m => m[k]?)
/-- `row[k]` in a single-value context: the zero `Value` when absent. -/
def getD (r : Row F) (k : String) : GoVal F := (r.get k).getD .nil
/-- `row[k] = v`; panics on a nil map. -/
def set (r : Row F) (k : String) (v : GoVal F) : Res (Row F) :=
  match r with
  | some m => .ok (some (m.insert k v))
  | none => panic .nilMapWrite
end Row

end Gopmml
