import Verif.Model.Walk

/-!
# The rows of the performance test (main/perftest.go:70-86)

`rand.Float64()` is a sequence of numbers given in advance, `rand i` the one drawn after `i` others; the
order in which a call visits maps is given for every call. Timing and printing are left out.
-/

namespace Gopmml

variable {F : Type} [Arith F] [Lib F] [Trans F]

/-- main/perftest.go:71 -/
def iterations : Nat := 100000

omit [Arith F] [Lib F] [Trans F] in
/-- main/perftest.go:75-81: the row after `i` other rows. -/
def perfRow (rand : Nat → F) (i : Nat) : Row F :=
  let input : GoMap (GoVal F) := ∅
  let input := input.insert "is_email_domain_free" (.f64 (rand (6 * i)))
  let input := input.insert "emails_per_bank" (.f64 (rand (6 * i + 1)))
  let input := input.insert "dollars_out_by_email" (.f64 (rand (6 * i + 2)))
  let input := input.insert "dollars_in_out_1h" (.f64 (rand (6 * i + 3)))
  let input := input.insert "amount" (.f64 (rand (6 * i + 4)))
  let input := input.insert "emails_per_device" (.f64 (rand (6 * i + 5)))
  some input

omit [Arith F] [Lib F] [Trans F] in
/-- main/perftest.go:74-87: the calls for one file, after `start` calls for other files. -/
def perfCalls (rand : Nat → F) (ord : Nat → MapOrd) (start : Nat) : Nat → List (MapOrd × Row F)
  | 0 => []
  | n + 1 => (ord start, perfRow rand start) :: perfCalls rand ord (start + 1) n

/-- main/perftest.go:48-94 with `n` rows for each file. -/
def perfFiles [NameTables] [Reflect] (rand : Nat → F) (ord : Nat → MapOrd) (n : Nat) :
    (start : Nat) → List (String × List String × Option String) →
    Except MainCrash (List (List String × List (Out F)))
  | _, [] => .ok []
  | start, (_, path, text) :: fs =>
    match text with
    | none => .error (.open_ path)
    | some s =>
      match runText s (perfCalls rand ord start n) with
      | .error c => .error (.file path c)
      | .ok outs =>
        match perfFiles rand ord n (start + n) fs with
        | .error c => .error c
        | .ok rest => .ok ((path, outs) :: rest)

/-- main/perftest.go:26-94 with `n` rows for each file; the program is `perfMain o rand ord iterations`. -/
def perfMain [NameTables] [Reflect] (o : MapOrd) (rand : Nat → F) (ord : Nat → MapOrd) (n : Nat)
    (prefix_ : List String) (root : FsEntry) : Except MainCrash (List (List String × List (Out F))) :=
  match modelFiles prefix_ root with
  | .error p => .error (.walk p)
  | .ok files => perfFiles rand ord n 0 (o.range files)

end Gopmml
