import Verif.Model.Expr

/-!
# Specification of expressions and derived fields
-/

namespace Gopmml.Spec

variable {F : Type}

/-- The fields an expression mentions. -/
def exprFields : Expr F → List String
  | .fieldRef f => [f]
  | .const _ _ => []
  | .apply _ args => exprsFields args
  | .mapValues m => m.fieldColumnPairs.map (·.field)
  | .other _ => []
where
  exprsFields : List (Expr F) → List String
    | [] => []
    | e :: es => exprFields e ++ exprsFields es

section
variable [Arith F] [Lib F]

/-- A field read as a number: its float64 view, 0 if it is absent. -/
def fieldNum (row : Row F) (f : String) : F :=
  match row.get f with
  | some v => v.float64
  | none => Arith.ofInt 0

mutual
/-- `Num row e x`: the arithmetic expression `e` denotes `x`. -/
inductive Num (row : Row F) : Expr F → F → Prop
  | field (f : String) : Num row (.fieldRef f) (fieldNum row f)
  | const {s : String} {x : F} : Lib.parseFloat s = some x → Num row (.const .double s) x
  | add {a b : Expr F} {x y : F} : Num row a x → Num row b y → Num row (.apply "+" [a, b]) (Arith.add x y)
  | sub {a b : Expr F} {x y : F} : Num row a x → Num row b y → Num row (.apply "-" [a, b]) (Arith.sub x y)
  | mul {a b : Expr F} {x y : F} : Num row a x → Num row b y → Num row (.apply "*" [a, b]) (Arith.mul x y)
  | div {a b : Expr F} {x y : F} : Num row a x → Num row b y → Num row (.apply "/" [a, b]) (Arith.div x y)
  | sum {es : List (Expr F)} {xs : List F} : Nums row es xs →
      Num row (.apply "sum" es) (xs.foldl Arith.add Arith.zero)
inductive Nums (row : Row F) : List (Expr F) → List F → Prop
  | nil : Nums row [] []
  | cons {e : Expr F} {es : List (Expr F)} {x : F} {xs : List F} :
      Num row e x → Nums row es xs → Nums row (e :: es) (x :: xs)
end

end

mutual
/-- Expressions built from field references, double constants that parse, `+ - * /` with two
operands and `sum`. -/
inductive IsArith [Lib F] : Expr F → Prop
  | field (f : String) : IsArith (.fieldRef f)
  | const {s : String} {x : F} : Lib.parseFloat s = some x → IsArith (.const .double s)
  | bin {op : String} {a b : Expr F} : op = "+" ∨ op = "-" ∨ op = "*" ∨ op = "/" → IsArith a → IsArith b →
      IsArith (.apply op [a, b])
  | sum {es : List (Expr F)} : IsAriths es → IsArith (.apply "sum" es)
inductive IsAriths [Lib F] : List (Expr F) → Prop
  | nil : IsAriths []
  | cons {e : Expr F} {es : List (Expr F)} : IsArith e → IsAriths es → IsAriths (e :: es)
end

/-- Number of arguments a known function takes; `none` for any number. -/
def arity : String → Option (Option Nat)
  | "sum" => some none
  | "+" | "-" | "*" | "/" => some (some 2)
  | "isMissing" | "isNotMissing" => some (some 1)
  | "if" => some (some 3)
  | _ => none

/-- The mapped field's value: the last pair for column `data:input` whose field is present. -/
def mapInput (pairs : List FieldColumnPair) (row : Row F) : Option (GoVal F) :=
  ((pairs.filter (fun p => p.column = "data:input" ∧ (row.get p.field).isSome)).getLast?).bind
    (fun p => row.get p.field)

/-- The output cell of the last row whose input cell is the text `s`. -/
def mapCell (tables : List (List (GoMap (GoVal F)))) (s : String) : Option (GoVal F) :=
  ((tables.flatten.filter (fun (r : GoMap (GoVal F)) =>
      match r["input"]? with
      | some (.str t) => t == s
      | _ => false)).getLast?).map (fun (r : GoMap (GoVal F)) => (r["output"]?).getD .nil)

section
variable [Arith F] [Lib F]

/-- `Reached row e sub`: evaluating `e` on `row` evaluates `sub` unless something before it
fails. -/
inductive Reached (row : Row F) : Expr F → Expr F → Prop
  | self (e : Expr F) : Reached row e e
  | sum {es : List (Expr F)} {e sub : Expr F} : e ∈ es → Reached row e sub →
      Reached row (.apply "sum" es) sub
  | operand {op : String} {es : List (Expr F)} {e sub : Expr F} :
      op = "+" ∨ op = "-" ∨ op = "*" ∨ op = "/" → es.length = 2 → e ∈ es → Reached row e sub →
      Reached row (.apply op es) sub
  | missing {op : String} {e sub : Expr F} : op = "isMissing" ∨ op = "isNotMissing" →
      Reached row e sub → Reached row (.apply op [e]) sub
  | cond {c a b sub : Expr F} : Reached row c sub → Reached row (.apply "if" [c, a, b]) sub
  | then_ {c a b sub : Expr F} : handleExpression row c = .ok (.bool true) → Reached row a sub →
      Reached row (.apply "if" [c, a, b]) sub
  | else_ {c a b sub : Expr F} {v : GoVal F} : handleExpression row c = .ok v → v ≠ .bool true →
      Reached row b sub → Reached row (.apply "if" [c, a, b]) sub

/-- Expressions that are errors by themselves: unknown functions, wrong numbers of arguments,
constants that are not doubles or do not parse, unknown kinds. -/
inductive IllFormed : Expr F → Prop
  | unknown {f : String} {es : List (Expr F)} : arity f = none → IllFormed (.apply f es)
  | wrongArity {f : String} {n : Nat} {es : List (Expr F)} : arity f = some (some n) → es.length ≠ n →
      IllFormed (.apply f es)
  | constType {dt : DataType} {s : String} : dt ≠ .double → IllFormed (.const dt s)
  | constText {s : String} : Lib.parseFloat (F := F) s = none → IllFormed (.const .double s)
  | kind {k : String} : IllFormed (.other k)

/-- A MapValues with nothing to answer: no matching row, and an unusable default or neither
default nor input. -/
def MapFails (row : Row F) (e : Expr F) : Prop :=
  ∃ m, e = .mapValues m ∧ ∃ err, handleMapValues m row = fail err

end

end Gopmml.Spec
