import Verif.Spec.Rounding


/-!
# Machines that fuse multiplication and addition

The Go specification, "Floating-point operators": "An implementation may combine multiple floating-point
operations into a single fused operation, possibly across statements, and produce a result that differs from the
value obtained by executing and rounding the instructions individually." The Go compiler does so on arm64,
ppc64le, s390x and riscv64 (and on amd64 with GOAMD64=v3) and does not on plain amd64.

`Fused fuse` is a type of numbers to run the model with. A number remembers the two factors if it has just been
computed as a product; when it is added to something, `fuse` decides whether the product is rounded first, as
`Verif.Model.F64` does, or the exact product is added and the sum rounded once. Nothing restricts `fuse`.
A compiler chooses place by place; `fuse` sees the operands instead, so what is not covered are compilers that
treat two places differently which meet exactly the same operands in one evaluation. Places in /repo where products meet sums:
evaluation/regression.go:76, 113, 182; evaluation/tree.go:296-297; evaluation/mining.go:185-188; derived fields
that multiply and add (evaluation/transformation.go).
-/

namespace Gopmml

namespace F64

/-- `x * y + z` rounded once (IEEE-754 `fusedMultiplyAdd`). If `x * y` is zero or no finite number, rounding it
makes no difference; a finite product changes neither an infinity nor NaN. -/
def fma (x y z : F64) : F64 :=
  match x.val, y.val with
  | some a, some b =>
    match z.val with
    | some c => if a * b = 0 then add (mul x y) z else ofRat (a * b + c < 0) (a * b + c)
    | none => z
  | _, _ => add (mul x y) z

end F64

/-- A number on a machine that may fuse. -/
structure Fused (fuse : F64 → F64 → F64 → Bool) where
  /-- The number, rounded. -/
  val : F64
  /-- Its factors, if it is a product. -/
  prod : Option (F64 × F64)
  deriving DecidableEq

namespace Fused
variable {fuse : F64 → F64 → F64 → Bool}

/-- A number that is not a product: one read from a document or a row. -/
def lift (x : F64) : Fused fuse := ⟨x, none⟩

/-- `x + y`. If both are products, the choice is offered for the left one first. -/
def add (x y : Fused fuse) : F64 :=
  let other := match y.prod with
    | some (a, b) => if fuse a b x.val then F64.fma a b x.val else F64.add x.val y.val
    | none => F64.add x.val y.val
  match x.prod with
  | some (a, b) => if fuse a b y.val then F64.fma a b y.val else other
  | none => other

/-- `-x`, with the sign changed in one factor. -/
def neg (x : Fused fuse) : Fused fuse := ⟨F64.neg x.val, x.prod.map fun p => (F64.neg p.1, p.2)⟩

instance : Arith (Fused fuse) where
  lit n d := lift (Arith.lit n d)
  add x y := lift (add x y)
  sub x y := lift (add x (neg y))
  mul x y := ⟨F64.mul x.val y.val, some (x.val, y.val)⟩
  div x y := lift (F64.div x.val y.val)
  neg := neg
  abs x := lift (F64.abs x.val)
  lt x y := F64.lt x.val y.val
  le x y := F64.le x.val y.val
  eq x y := F64.eq x.val y.val
  ofInt n := lift (Arith.ofInt n)
  ofInt32 n := lift (Arith.ofInt32 n)
  toF32 x := lift (F64.toF32 x.val)

instance : Lib (Fused fuse) where
  parseFloat s := (Lib.parseFloat s).map lift
  fmtF64 x := Lib.fmtF64 x.val
  fmtF32 x := Lib.fmtF32 x.val

instance [Trans F64] : Trans (Fused fuse) where
  exp x := lift (Trans.exp x.val)
  atan x := lift (Trans.atan x.val)
  invPi := lift Trans.invPi

end Fused

end Gopmml
