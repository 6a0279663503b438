import Verif.Model.Doc

/-!
# Expressions and derived fields (evaluation/input.go)

The parameters `dd`, `td`, `lt`, `ms` of the Go functions are only passed around,
never read, and are left out.
-/

namespace Gopmml

variable {F : Type} [Arith F] [Lib F]

omit [Arith F] in
/-- input.go:11-21 `handleConstantExpression` -/
def handleConstant (dt : DataType) (value : String) : Res (GoVal F) :=
  match dt with
  | .double =>
    match Lib.parseFloat value with
    | some x => .ok (.f64 x)
    | none => fail (.parse value)
  | _ => fail .unsupportedDataType

omit [Arith F] [Lib F] in
/-- input.go:127-134: the `columns` map after the loop over the pairs. -/
def mapColumns (pairs : List FieldColumnPair) (row : Row F) : GoMap (GoVal F) :=
  pairs.foldl (fun columns pair =>
    match row.get pair.field with
    | some data => columns.insert pair.column data
    | none => columns) ∅

omit [Arith F] [Lib F] in
/-- `row["input"] == s` for an `interface{}` on the left and a string on the right. -/
def cellIs (cell : Option (GoVal F)) (s : String) : Bool :=
  match cell with
  | some (.str t) => t == s
  | _ => false

omit [Arith F] in
/-- input.go:136-142: the loops over the inline tables. -/
def mapLookup (tables : List (List (GoMap (GoVal F)))) (columns : GoMap (GoVal F)) :
    GoMap (GoVal F) :=
  tables.foldl (fun columns rows =>
    rows.foldl (fun columns row =>
      if cellIs row["input"]? ((columns["data:input"]?).getD .nil).string then
        columns.insert "data:output" ((row["output"]?).getD .nil)
      else columns) columns) columns

omit [Arith F] in
/-- input.go:126-164 `handleMapValuesExpression` -/
def handleMapValues (m : MapValues F) (row : Row F) : Res (GoVal F) :=
  let columns := mapLookup m.inlineTables (mapColumns m.fieldColumnPairs row)
  match columns["data:output"]? with
  | some output => .ok output
  | none =>
    match m.defaultValue with
    | some d => getRawValue m.dataType d
    | none =>
      match columns["data:input"]? with
      | some input => .ok input
      | none => fail .unexpectedExpression

mutual
/-- input.go:166-184 `HandleExpression` and input.go:23-107
`handleApplyExpression` (with `isMissing`, input.go:109-124, in line). -/
def handleExpression (row : Row F) : Expr F → Res (GoVal F)
  | .fieldRef field => .ok (row.getD field)
  | .const dt v => handleConstant dt v
  | .mapValues m => handleMapValues m row
  | .other _ => fail .unsupportedTransformation
  | .apply fn args =>
    if fn = "sum" then do
      let s ← sumLoop row Arith.zero args
      pure (.f64 s)
    else if fn = "*" ∨ fn = "+" ∨ fn = "-" ∨ fn = "/" then
      match args with
      | [e1, e2] => do
        let val1 ← handleExpression row e1
        let val2 ← handleExpression row e2
        if fn = "*" then pure (.f64 (Arith.mul val1.float64 val2.float64))
        else if fn = "+" then pure (.f64 (Arith.add val1.float64 val2.float64))
        else if fn = "-" then pure (.f64 (Arith.sub val1.float64 val2.float64))
        else pure (.f64 (Arith.div val1.float64 val2.float64))
      | _ => fail (.arity fn args.length)
    else if fn = "isMissing" then
      match args with
      | [e] => do
        let out ← handleExpression row e
        pure (.bool (match out with | .nil => true | _ => false))
      | _ => fail (.arity fn args.length)
    else if fn = "isNotMissing" then
      match args with
      | [e] => do
        let out ← handleExpression row e
        pure (.bool (!(match out with | .nil => true | _ => false)))
      | _ => fail (.arity fn args.length)
    else if fn = "if" then
      match args with
      | [c, e1, e2] => do
        let condition ← handleExpression row c
        if condition.toBool then handleExpression row e1 else handleExpression row e2
      | _ => fail (.arity fn args.length)
    else fail (.unsupportedApply fn)
/-- input.go:25-32: the accumulation loop of `sum`. -/
def sumLoop (row : Row F) (s : F) : List (Expr F) → Res F
  | [] => .ok s
  | e :: es => do
    let v ← handleExpression row e
    sumLoop row (Arith.add s v.float64) es
end

/-- input.go:193-197: the value stored for a derived field. -/
def storeValue (op : OpType) (v : GoVal F) : GoVal F :=
  match op with
  | .continuous => .f64 v.float64
  | .other _ => v

/-- input.go:186-206 `HandleInput`: the row is updated in place, so the updated row
is returned also when an error (or a panic) stops the loop. -/
def handleInput : List (DerivedField F) → Row F → Res Unit × Row F
  | [], row => (.ok (), row)
  | df :: dfs, row =>
    match handleExpression row df.expr with
    | .error e => (.error e, row)
    | .ok v =>
      match row.set df.name (storeValue df.opType v) with
      | .error e => (.error e, row)
      | .ok row' => handleInput dfs row'

end Gopmml
