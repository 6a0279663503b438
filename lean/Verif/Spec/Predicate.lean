import Verif.Model.Predicate

/-!
# Specification of predicates, independent of the evaluator's code

Values of simple predicates on document level (the constant as written), and
three-valued logic for compounds.
-/

namespace Gopmml.Spec
open Gopmml

variable {F : Type} [Arith F] [Lib F]

def ofBool (b : Bool) : PredRes := if b then .t else .f

/-- The numeric comparison an ordering operator stands for, on floats. -/
def floatCmp : SimpleOp → Option (F → F → Bool)
  | .lessThan => some fun x c => Arith.lt x c
  | .lessOrEqual => some fun x c => Arith.le x c
  | .greaterThan => some fun x c => Arith.lt c x
  | .greaterOrEqual => some fun x c => Arith.le c x
  | _ => none

/-- The numeric comparison an ordering operator stands for, on integers. -/
def intCmp : SimpleOp → Option (Int → Int → Bool)
  | .lessThan => some fun x c => decide (x < c)
  | .lessOrEqual => some fun x c => decide (x ≤ c)
  | .greaterThan => some fun x c => decide (x > c)
  | .greaterOrEqual => some fun x c => decide (x ≥ c)
  | _ => none

/-- A dynamic value of exactly the given declared type, denoted by the text. -/
def denotes (dt : DataType) (text : String) (v : GoVal F) : Bool :=
  match dt, v with
  | .boolean, .bool b => parseBool text == some b
  | .double, .f64 x | .float, .f64 x =>
    match Lib.parseFloat (F := F) text with
    | some c => Arith.eq x c
    | none => false
  | .integer, .int .int64 n => parseInt text == some n
  | .string, .str s => s == text
  | _, _ => false

/-- Does a present value `v` satisfy `field op text` for a field of type `dt`? -/
def satisfies (dt : DataType) (op : SimpleOp) (text : String) (v : GoVal F) : Bool :=
  match op with
  | .isMissing => false
  | .isNotMissing => true
  | .equal => denotes dt text v
  | .notEqual => !denotes dt text v
  | .other _ => false
  | _ =>
    match dt with
    | .double | .float =>
      match Lib.parseFloat text, floatCmp op with
      | some c, some cmp => cmp v.float64 c
      | _, _ => false
    | .integer =>
      match parseInt text, intCmp op with
      | some c, some cmp => cmp v.int64 c
      | _, _ => false
    | _ => false

/-- Value of a simple predicate of an accepted document on a row. -/
def simpleVal (types : FieldTypes) (row : Row F) (p : SimplePred F) : PredRes :=
  match row.get p.field with
  | none => if p.op = .isMissing then .t else .u
  | some v =>
    match types[p.field]? with
    | none => .f
    | some dt => ofBool (satisfies dt p.op p.value v)

omit [Arith F] [Lib F]

/-- Kleene conjunction. -/
def all3 (l : List PredRes) : PredRes :=
  if .f ∈ l then .f else if .u ∈ l then .u else .t

/-- Kleene disjunction. -/
def any3 (l : List PredRes) : PredRes :=
  if .t ∈ l then .t else if .u ∈ l then .u else .f

/-- Three-valued parity: unknown absorbs. -/
def odd3 (l : List PredRes) : PredRes :=
  if .u ∈ l then .u else if l.count .t % 2 = 1 then .t else .f

/-- The first known value. -/
def firstKnown (l : List PredRes) : PredRes :=
  (l.find? (· ≠ .u)).getD .u

/-- Meaning of a boolean operator. -/
def combine : BoolOp → List PredRes → PredRes
  | .and, l => all3 l
  | .or, l => any3 l
  | .xor, l => odd3 l
  | .surrogate, l => firstKnown l
  | .other _, _ => .f

/-- Three-valued meaning of a predicate, given the values of its leaves. -/
def value (leaf : SimplePred F → PredRes) : Pred F → PredRes
  | .true_ => .t
  | .false_ => .f
  | .set _ => .f
  | .simple p => leaf p
  | .compound op ps => combine op (values leaf ps)
where
  values (leaf : SimplePred F → PredRes) : List (Pred F) → List PredRes
    | [] => []
    | p :: ps => value leaf p :: values leaf ps

/-- The code's treatment of operands: `True`/`False` below a compound are unknown. -/
def operandValue (leaf : SimplePred F → PredRes) : Pred F → PredRes
  | .true_ => .u
  | .false_ => .u
  | .set _ => .f
  | .simple p => leaf p
  | .compound op ps => combine op (operandValues leaf ps)
where
  operandValues (leaf : SimplePred F → PredRes) : List (Pred F) → List PredRes
    | [] => []
    | p :: ps => operandValue leaf p :: operandValues leaf ps

/-- The value of a node's test on document level: `True`/`False` at the top, else
the operand value. -/
def testValue (leaf : SimplePred F → PredRes) : Pred F → PredRes
  | .true_ => .t
  | .false_ => .f
  | p => operandValue leaf p

/-- A predicate without `True`/`False` (inside compounds). -/
def NoConst : Pred F → Prop
  | .true_ => False
  | .false_ => False
  | .set _ => True
  | .simple _ => True
  | .compound _ ps => NoConsts ps
where
  NoConsts : List (Pred F) → Prop
    | [] => True
    | p :: ps => NoConst p ∧ NoConsts ps

/-- The fields a predicate mentions. -/
def predFields : Pred F → List String
  | .simple p => [p.field]
  | .compound _ ps => predsFields ps
  | _ => []
where
  predsFields : List (Pred F) → List String
    | [] => []
    | p :: ps => predFields p ++ predsFields ps

end Gopmml.Spec
