import Verif.Model.Verify

/-!
# The interface value `NewModel` returns, and nil arguments

`NewModel` (evaluation.go:19-30) returns a `Model`, which is an interface, and an error. It passes on what
`NewTreeModel` (tree.go:369-387) and `NewMiningModel` (mining.go:26-43) return; these return pointers, so a
nil pointer from them becomes an interface value that is not nil. Here that value is kept, and the arguments
may be nil. Calls of methods through such values dereference nil, which `none` stands for below.

`Model/Mining.lean` has the case of arguments that are not nil, and leaves out the interface value beside an
error; `C87_agrees` (Props/Interface.lean) connects the two.

Simplification. Nil is considered for the arguments of `NewModel` itself. A nil model inside a segment, which
decoding a document never produces, is not.
-/

namespace Gopmml

variable {F : Type} [Arith F] [Lib F] [Trans F]

/-- The pointer types that implement `Model`. -/
inductive ModelKind where
  | tree | mining | regression
  deriving DecidableEq, Repr

/-- A value of the interface type `Model` (evaluation.go:12-17). -/
inductive ModelI (F : Type) where
  /-- the nil interface -/
  | nil
  /-- a nil pointer in an interface -/
  | nilPtr (k : ModelKind)
  /-- a pointer to an evaluator -/
  | live (m : EModel F)
  /-- a pointer to a `RegressionModel` whose field `model` is nil -/
  | noDoc

/-- `m == nil` -/
def ModelI.isNil : ModelI F → Bool
  | .nil => true
  | _ => false

/-- The last argument of `NewModel`. -/
inductive ElemArg (F : Type) where
  /-- the nil interface -/
  | nil
  /-- a nil `*models.TreeModel`, `*models.MiningModel` or `*models.RegressionModel` -/
  | nilPtr (k : ModelKind)
  | elem (e : ModelElem F)

/-- What a call of `NewModel` comes to. -/
inductive NewRet (F : Type) where
  | returned (m : ModelI F) (err : Option Err)
  /-- dereference of a nil pointer -/
  | nilDereference
  | panicked (p : Panic)

/-- `NewTreeModel` and `NewMiningModel` return a nil pointer with every error. -/
def ptrRet (k : ModelKind) : Res (EModel F) → NewRet F
  | .ok m => .returned (.live m) none
  | .error (.err e) => .returned (.nilPtr k) (some e)
  | .error (.panic p) => .panicked p

/-- The two dictionaries, if neither is nil. -/
def dictionaries (dd : Option (List DataField)) (td : Option (TD F)) : Option (List DataField × TD F) :=
  match dd, td with
  | some dd, some td => some (dd, td)
  | _, _ => none

omit [Trans F] in
/-- evaluation.go:19-30 `NewModel`. With a nil dictionary `Compile` dereferences nil at tree.go:685 or 692
and at mining.go:87 or 94, after `Validate` has succeeded. `NewRegressionModel` (regression.go:20-27) only
stores its arguments. -/
def newModelI (dd : Option (List DataField)) (td : Option (TD F)) : ElemArg F → NewRet F
  | .nil => .returned .nil (some .invalidModelType)
  | .nilPtr .tree => .nilDereference
  | .nilPtr .mining => .nilDereference
  | .nilPtr .regression => .returned .noDoc none
  | .elem (.other _) => .returned .nil (some .invalidModelType)
  | .elem (.regression d) => .returned (.live (.regression d)) none
  | .elem (.tree d) =>
    match dictionaries dd td with
    | some (dd, td) => ptrRet .tree ((newTreeModel dd td d).1.map .tree)
    | none =>
      match (TreeModel.init [] d).validate with
      | (.error e, _) => ptrRet .tree (.error e)
      | (.ok (), _) => .nilDereference
  | .elem (.mining h segs) =>
    match dictionaries dd td with
    | some (dd, td) => ptrRet .mining (newModel dd (.mining h segs) td).1
    | none =>
      match (MiningState.init [] h segs).validate with
      | (.error e, _) => ptrRet .mining (.error e)
      | (.ok (), _) => .nilDereference

/-- `m.Validate()` (tree.go:389, mining.go:49, regression.go:34); `none`: nil is dereferenced. -/
def ModelI.validate : ModelI F → Option (Res Unit)
  | .live m => some m.validate.1
  | _ => none

omit [Trans F] in
/-- `m.Compile()` (tree.go:676, mining.go:70, regression.go:29). The last does not look at its receiver. -/
def ModelI.compile (td : TD F) : ModelI F → Option (Res Unit)
  | .live m => some (m.compile td).1
  | .noDoc => some (.ok ())
  | .nilPtr .regression => some (.ok ())
  | _ => none

/-- `m.Verify()` (tree.go:708, mining.go:45, regression.go:61) -/
def ModelI.verify (o : MapOrd) : ModelI F → Option (Res Unit)
  | .live m => some (m.verify o).1
  | _ => none

/-- `m.Evaluate(input)` (tree.go:712, mining.go:224, regression.go:81) -/
def ModelI.evaluate (o : MapOrd) (row : Row F) : ModelI F → Option (Res (Out F))
  | .live m => some (m.evaluate o row).res
  | _ => none

end Gopmml
