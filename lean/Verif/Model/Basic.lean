import Std.Data.ExtTreeMap

/-!
# Go run-time notions used by the model

Results with panics, finite maps, map iteration order, float operations and the
external library functions.
-/

namespace Gopmml

/-- Errors returned by the code.  One constructor per `fmt.Errorf` / `errors.New`
/ sentinel site; the message text is not modelled, its arguments are kept where a
property mentions them. -/
inductive Err where
  /-- evaluation/error.go:11 -/
  | notValidated
  /-- evaluation/error.go:12 -/
  | notCompiled
  /-- evaluation/tree.go:392, evaluation/regression.go:49 -/
  | unsupportedMiningFunction
  /-- evaluation/tree.go:420 -/
  | unknownFieldType (field : String)
  /-- any error of `strconv.ParseFloat/ParseInt/ParseBool` -/
  | parse (text : String)
  /-- evaluation/evaluation.go:100 -/
  | invalidDataType
  /-- evaluation/input.go:20 -/
  | unsupportedDataType
  /-- evaluation/input.go:38, 64, 77, 90, 111 -/
  | arity (fn : String) (n : Nat)
  /-- evaluation/input.go:106 -/
  | unsupportedApply (fn : String)
  /-- evaluation/input.go:163 -/
  | unexpectedExpression
  /-- evaluation/input.go:183 -/
  | unsupportedTransformation
  /-- evaluation/evaluation.go:28 -/
  | invalidModelType
  /-- evaluation/mining.go:57, 255 -/
  | unsupportedMultipleModelMethod
  /-- evaluation/mining.go:62, evaluation/regression.go:54 -/
  | unsupportedOutputFeature
  /-- evaluation/mining.go:101 -/
  | segmentGroupSize (n : Nat)
  /-- evaluation/mining.go:129 -/
  | noSegments
  /-- evaluation/regression.go:45, 78, 201 -/
  | unsupportedNormalization
  /-- evaluation/regression.go:89 -/
  | unrecognizedRegressionFunction
  /-- evaluation/regression.go:96 -/
  | tableCount (n : Nat)
  /-- evaluation/regression.go:101 -/
  | outputCount (n : Nat)
  /-- evaluation/regression.go:109, 137, 178 -/
  | missingTerm (name : String)
  /-- evaluation/evaluation.go:42 -/
  | verifyPrefix (column : String)
  /-- evaluation/evaluation.go:72 -/
  | verifyNotProduced (field : String)
  /-- evaluation/evaluation.go:77 -/
  | verifyMismatch (column : String)
  deriving DecidableEq, Repr

/-- Run-time panics the code can raise. -/
inductive Panic where
  /-- `x.(T)` with another dynamic type (evaluation/tree.go:549 ff.) -/
  | typeAssertion
  /-- `scores[0]` on an empty slice (evaluation/tree.go:746) -/
  | indexOutOfRange
  /-- assignment to an entry of a nil map (evaluation/input.go:194, 196;
  evaluation/mining.go:137, 217) -/
  | nilMapWrite
  /-- call of a nil `test` function (evaluation/tree.go:131 ff.) -/
  | nilFuncCall
  deriving DecidableEq, Repr

inductive Fault where
  | err (e : Err)
  | panic (p : Panic)
  deriving DecidableEq, Repr

/-- Result of a Go call: a value, a returned error, or a panic. -/
abbrev Res (α : Type) := Except Fault α

/-- `return …, err` -/
abbrev fail {α : Type} (e : Err) : Res α := .error (.err e)
abbrev panic {α : Type} (p : Panic) : Res α := .error (.panic p)

/-- A Go `map[string]V` (non nil): an extensional finite map. -/
abbrev GoMap (V : Type) := Std.ExtTreeMap String V

/-- The order in which Go's `range` visits maps.  The Go specification leaves it
unspecified and the runtime randomises it, so it is an oracle: at every `range`
site (identified by a path) it picks some permutation of the entries. -/
structure MapOrd where
  order : List Nat → {V : Type} → List (String × V) → List (String × V)
  perm : ∀ site {V : Type} (l : List (String × V)), (order site l).Perm l

namespace MapOrd

/-- The sub-oracle for the `i`-th nested activity. -/
def at_ (o : MapOrd) (i : Nat) : MapOrd where
  order := fun p => o.order (i :: p)
  perm := fun p _ l => o.perm (i :: p) l

/-- `for k, v := range m` visits the entries in this order. -/
def range (o : MapOrd) {V : Type} (m : GoMap V) : List (String × V) :=
  o.order [] m.toList

/-- An oracle visiting keys in increasing order. -/
def sorted : MapOrd := ⟨fun _ _ l => l, fun _ _ _ => .refl _⟩

/-- An oracle visiting keys in decreasing order. -/
def reversed : MapOrd := ⟨fun _ _ l => l.reverse, fun _ _ l => l.reverse_perm⟩

end MapOrd

/-- Operations of Go's `float64` used by the code.  No laws are assumed: anything
proved for every `Arith F` holds for whatever the hardware computes. -/
class Arith (F : Type) where
  /-- the float64 denoted by a decimal literal in the source, here the exact
  rational `n / d` -/
  lit : Int → Nat → F
  add : F → F → F
  sub : F → F → F
  mul : F → F → F
  div : F → F → F
  neg : F → F
  abs : F → F
  lt : F → F → Bool
  le : F → F → Bool
  /-- IEEE `==` -/
  eq : F → F → Bool
  /-- `float64(i)` for an int64 `i` -/
  ofInt : Int → F
  /-- `float64(float32(i))` for an int64 `i` -/
  ofInt32 : Int → F
  /-- `float64(float32(x))` -/
  toF32 : F → F

/-- `math.Exp`, `math.Atan` and the constant `1/math.Pi` (regression.go:65-79). -/
class Trans (F : Type) where
  exp : F → F
  atan : F → F
  invPi : F

namespace Arith
variable {F : Type} [Arith F]
def zero : F := lit 0 1
def one : F := lit 1 1
end Arith

end Gopmml
