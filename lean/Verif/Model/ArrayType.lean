import Verif.Model.Value

/-!
# `models.ArrayType` (models/complexTypes.go)

Slices that may be nil are `Option (List _)`: `none` is the nil slice.  A returned slice is the
cached slice itself, so a caller may write to the cache through it: `ArrOp.writeS` and so on.
-/

namespace Gopmml

/-- models/complexTypes.go:33-34 with models/simpleTypes.go `ArrayTypeType` -/
inductive ArrayKind where
  | int | real | string | other (s : String)
  deriving DecidableEq, Repr

/-- The errors of the accessors: wrong type (models/complexTypes.go:45, 59, 89), an error of
`shellwords.Parse` (54, 68, 98), a word that is no number (76, 106). -/
inductive ArrErr where
  | wrongType | words (msg : String) | number (word : String)
  deriving DecidableEq, Repr

/-- `shellwords.Parse` (external): the words, possibly a nil slice, and the error. -/
class Shell where
  parse : String → Option (List String) × Option String

/-- models/complexTypes.go:32-41 (the attribute `n` is never read) -/
structure ArrayType (F : Type) where
  type : ArrayKind
  rawValue : String
  s : Option (List String) := none
  i : Option (List Int) := none
  f : Option (List F) := none
  deriving DecidableEq

namespace ArrayType
variable {F : Type} [Shell]

/-- models/complexTypes.go:43-55 `Strings` -/
def strings (a : ArrayType F) : (Option (List String) × Option ArrErr) × ArrayType F :=
  if a.type ≠ .string then ((none, some .wrongType), a)
  else
    match a.s with
    | some l => ((some l, none), a)
    | none =>
      let r := Shell.parse a.rawValue
      ((r.1, r.2.map .words), { a with s := r.1 })

/-- models/complexTypes.go:73-80, 103-110: the numbers of the words up to the first word that is
none. -/
def parseAll {α : Type} (p : String → Option α) : List String → Except String (List α)
  | [] => .ok []
  | w :: ws =>
    match p w with
    | none => .error w
    | some x =>
      match parseAll p ws with
      | .error e => .error e
      | .ok xs => .ok (x :: xs)

/-- models/complexTypes.go:57-85 `Int64s` -/
def int64s (a : ArrayType F) : (Option (List Int) × Option ArrErr) × ArrayType F :=
  if a.type ≠ .int then ((none, some .wrongType), a)
  else
    match a.i with
    | some l => ((some l, none), a)
    | none =>
      match Shell.parse a.rawValue with
      | (_, some e) => ((none, some (.words e)), a)
      | (ws, none) =>
        match parseAll parseInt (ws.getD []) with
        | .error w => ((none, some (.number w)), a)
        | .ok l => ((some l, none), { a with i := some l })

/-- models/complexTypes.go:87-115 `Float64s` -/
def float64s [Lib F] (a : ArrayType F) : (Option (List F) × Option ArrErr) × ArrayType F :=
  if a.type ≠ .real then ((none, some .wrongType), a)
  else
    match a.f with
    | some l => ((some l, none), a)
    | none =>
      match Shell.parse a.rawValue with
      | (_, some e) => ((none, some (.words e)), a)
      | (ws, none) =>
        match parseAll Lib.parseFloat (ws.getD []) with
        | .error w => ((none, some (.number w)), a)
        | .ok l => ((some l, none), { a with f := some l })

end ArrayType

/-- What can happen to an array: calls, assignments to its exported fields, and writes through a
slice returned earlier (`slice[k] = x`). -/
inductive ArrOp (F : Type) where
  | setRaw (s : String)
  | setType (t : ArrayKind)
  | strings | int64s | float64s
  | writeS (k : Nat) (x : String)
  | writeI (k : Nat) (x : Int)
  | writeF (k : Nat) (x : F)

/-- The array afterwards. -/
def ArrOp.run {F : Type} [Shell] [Lib F] (a : ArrayType F) : ArrOp F → ArrayType F
  | .setRaw s => { a with rawValue := s }
  | .setType t => { a with type := t }
  | .strings => a.strings.2
  | .int64s => a.int64s.2
  | .float64s => a.float64s.2
  | .writeS k x => { a with s := a.s.map (·.set k x) }
  | .writeI k x => { a with i := a.i.map (·.set k x) }
  | .writeF k x => { a with f := a.f.map (·.set k x) }

end Gopmml
