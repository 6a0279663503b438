import Verif.Model.Doc

/-!
# Predicates (evaluation/tree.go:415-439, 516-674)
-/

namespace Gopmml

/-- tree.go:50-56 `predicateResult`; the zero value is `u`. -/
inductive PredRes where
  | u | t | f
  deriving DecidableEq, Repr

variable {F : Type} [Arith F] [Lib F]

/-- `m.fieldTypes` (tree.go:18) -/
abbrev FieldTypes := GoMap DataType

omit [Arith F] in
mutual
/-- tree.go:415-439 `compilePredicate`.  The Go code stores the parsed constant in the
document's own predicate (`p.RawPredicateValue = pv`); here the compiled predicate is
returned as a new value, and `storePred` below is the effect on the document. -/
def compilePredicate (types : FieldTypes) : Pred F → Res (Pred F)
  | .simple p =>
    match types[p.field]? with
    | none => fail (.unknownFieldType p.field)
    | some dt => do
      let pv ← getRawValue dt p.value
      pure (.simple { p with raw := pv })
  | .compound op ps => do
    let ps' ← compilePredicates types ps
    pure (.compound op ps')
  | .true_ => pure .true_
  | .false_ => pure .false_
  | .set fld => pure (.set fld)
/-- tree.go:430-435, the loop over the operands. -/
def compilePredicates (types : FieldTypes) : List (Pred F) → Res (List (Pred F))
  | [] => pure []
  | p :: ps => do
    let p' ← compilePredicate types p
    let ps' ← compilePredicates types ps
    pure (p' :: ps')
end

omit [Arith F] in
mutual
/-- tree.go:415-439: the document's predicate after `compilePredicate`, which may have
stopped at an error half way. -/
def storePred (types : FieldTypes) : Pred F → Pred F
  | .simple p =>
    match compilePredicate types (.simple p) with
    | .ok p' => p'
    | .error _ => .simple p
  | .compound op ps => .compound op (storePreds types ps)
  | .true_ => .true_
  | .false_ => .false_
  | .set fld => .set fld
/-- tree.go:430-435: operands after the first that fails are not touched. -/
def storePreds (types : FieldTypes) : List (Pred F) → List (Pred F)
  | [] => []
  | p :: ps =>
    storePred types p ::
      match compilePredicate types p with
      | .ok _ => storePreds types ps
      | .error _ => ps
end

/-- `if b { return t }` followed by `return f` -/
def tOrF (b : Bool) : PredRes := if b then .t else .f

omit [Arith F] [Lib F] in
/-- `raw.(float64)` -/
def assertF64 : GoVal F → Res F
  | .f64 x => .ok x
  | _ => panic .typeAssertion

omit [Arith F] [Lib F] in
/-- `raw.(int64)` -/
def assertI64 : GoVal F → Res Int
  | .int .int64 n => .ok n
  | _ => panic .typeAssertion

/-- One ordering case of `evaluateSimplePredicate` (tree.go:546-605): the inner
switch on the field's declared type; `cf`/`ci` are the comparisons. -/
def evalOrdering (dt : DataType) (cf : F → F → Bool) (ci : Int → Int → Bool)
    (v raw : GoVal F) : Res PredRes :=
  match dt with
  | .double => do
    let r ← assertF64 raw
    pure (tOrF (cf v.float64 r))
  | .float => do
    let r ← assertF64 raw
    pure (tOrF (cf v.float64 r))
  | .integer => do
    let r ← assertI64 raw
    pure (tOrF (ci v.int64 r))
  | _ => pure .f

/-- tree.go:516-609 `evaluateSimplePredicate` -/
def evalSimple (types : FieldTypes) (p : SimplePred F) (row : Row F) : Res PredRes :=
  match types[p.field]? with
  | none => pure .f
  | some dt =>
    match p.raw with
    | .nil => pure .f
    | raw =>
      match row.get p.field with
      | none => pure (if p.op = .isMissing then .t else .u)
      | some v =>
        match p.op with
        | .isNotMissing => pure .t
        | .equal => pure (tOrF (v.ifaceEq raw))
        | .notEqual => pure (tOrF (!v.ifaceEq raw))
        | .greaterOrEqual =>
          evalOrdering dt (fun a b => Arith.le b a) (fun a b => decide (b ≤ a)) v raw
        | .greaterThan =>
          evalOrdering dt (fun a b => Arith.lt b a) (fun a b => decide (b < a)) v raw
        | .lessOrEqual =>
          evalOrdering dt (fun a b => Arith.le a b) (fun a b => decide (a ≤ b)) v raw
        | .lessThan =>
          evalOrdering dt (fun a b => Arith.lt a b) (fun a b => decide (a < b)) v raw
        | .isMissing | .other _ => pure .f

/-- tree.go:643-673, the final switch of `evaluateCompoundPredicate`. -/
def compoundFinish (op : BoolOp) (len trueCount unknownCount : Nat) : PredRes :=
  match op with
  | .and =>
    if 0 < unknownCount ∧ unknownCount + trueCount = len then .u
    else if trueCount = len then .t
    else .f
  | .or =>
    if 0 < trueCount then .t
    else if 0 < unknownCount then .u
    else .f
  | .xor =>
    if 0 < unknownCount then .u
    else if trueCount % 2 = 1 then .t
    else .f
  | .surrogate => .u
  | .other _ => .f

mutual
/-- tree.go:622-630: the value of one operand of a compound predicate.  `True` and
`False` operands are not handled by the Go switch, so `val` keeps its zero value `u`. -/
def evalOperand (types : FieldTypes) (row : Row F) : Pred F → Res PredRes
  | .simple p => evalSimple types p row
  | .compound op ps => compoundLoop types row op ps.length 0 0 ps
  | .set _ => pure .f
  | .true_ => pure .u
  | .false_ => pure .u
/-- tree.go:615-674 `evaluateCompoundPredicate`: the loop over the operands with
its counters, the early return for `surrogate`, and the final switch. -/
def compoundLoop (types : FieldTypes) (row : Row F) (op : BoolOp) (len trueCount unknownCount : Nat) :
    List (Pred F) → Res PredRes
  | [] => pure (compoundFinish op len trueCount unknownCount)
  | p :: ps => do
    let v ← evalOperand types row p
    if op = .surrogate ∧ v ≠ .u then pure v
    else
      compoundLoop types row op len (if v = .t then trueCount + 1 else trueCount)
        (if v = .u then unknownCount + 1 else unknownCount) ps
end

/-- tree.go:493-510: the `test` closure chosen by `newNode`, applied to a row.  A
nil predicate leaves `test` nil, and calling it panics. -/
def runTest (types : FieldTypes) (pred : Option (Pred F)) (row : Row F) : Res PredRes :=
  match pred with
  | none => panic .nilFuncCall
  | some .true_ => pure .t
  | some .false_ => pure .f
  | some (.set _) => pure .f
  | some p => evalOperand types row p

end Gopmml
