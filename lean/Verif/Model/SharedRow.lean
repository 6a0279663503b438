import Mathlib.Logic.Function.Basic
import Verif.Model.Mining

/-!
# Calls of `Evaluate` that share a row

`DataRow` is a Go map. `Evaluate` stores imputed values, derived fields and the outputs of chained
segments in the caller's row, so two goroutines that pass the same row may write to one map at the same
time. Here a call is a program whose steps are phases in which it only reads the row, and single writes to
it. `EModel.rowProg` repeats the evaluation functions of `Model/Tree.lean` and `Model/Mining.lean` in this
form; `rowProg_run` (Proofs/SharedRow.lean) shows that run alone it does exactly what they do.

The key caches of the trees are the subject of `Model/Conc.lean`; they do not influence answers (C26), so
here every call finds them as they are in `m`. A reading phase is a single step: what is shown below
either has no writes at all, or counts only writes against each other.
-/

namespace Gopmml

variable {F α β : Type}

/-- What is left to do of a call, as far as the row is concerned. -/
inductive RowProg (F α : Type) where
  | done (a : α)
  /-- a phase without writes -/
  | look (k : Row F → RowProg F α)
  /-- `input[key] = v` -/
  | write (key : String) (v : GoVal F) (k : RowProg F α)

namespace RowProg

def bind : RowProg F α → (α → RowProg F β) → RowProg F β
  | .done a, f => f a
  | .look k, f => .look fun r => (k r).bind f
  | .write key v k, f => .write key v (k.bind f)

/-- `input[key] = v`; that this is not a nil map has been checked before. -/
def put (row : Row F) (key : String) (v : GoVal F) : Row F := row.map (·.insert key v)

/-- A call run alone. -/
def run : RowProg F α → Row F → α × Row F
  | .done a, row => (a, row)
  | .look k, row => (k row).run row
  | .write key v k, row => k.run (put row key v)

/-- The keys a call writes when it is run alone, in order. -/
def writes : RowProg F α → Row F → List String
  | .done _, _ => []
  | .look k, row => (k row).writes row
  | .write key v k, row => key :: k.writes (put row key v)

end RowProg

/-- `input[key] = v` on what may be a nil map. -/
def RowProg.set (key : String) (v : GoVal F) (k : RowProg F (Res α)) : RowProg F (Res α) :=
  .look fun row =>
    match row.set key v with
    | .error e => .done (.error e)
    | .ok _ => .write key v k

/-- Go on unless there was an error. -/
def RowProg.andThen (p : RowProg F (Res α)) (f : α → RowProg F (Res β)) : RowProg F (Res β) :=
  p.bind fun
    | .error e => .done (.error e)
    | .ok a => f a

/-- mining.go:136-138 -/
def writeProg : List (String × GoVal F) → RowProg F (Res Unit)
  | [] => .done (.ok ())
  | (k, v) :: es => .set k v (writeProg es)

/-- mining.go:213-222 `imputeMissingValues` -/
def imputeProg : List (String × GoVal F) → RowProg F (Res Unit)
  | [] => .done (.ok ())
  | (fld, d) :: es => .look fun row =>
    match row.getD fld with
    | .nil => .set fld d (imputeProg es)
    | _ => imputeProg es

variable [Arith F] [Lib F]

/-- input.go:186-206 `HandleInput` -/
def inputProg : List (DerivedField F) → RowProg F (Res Unit)
  | [] => .done (.ok ())
  | df :: dfs => .look fun row =>
    match handleExpression row df.expr with
    | .error e => .done (.error e)
    | .ok v => .set df.name (storeValue df.opType v) (inputProg dfs)

/-- tree.go:712-758 `TreeModel.Evaluate` -/
def TreeModel.rowProg (o : MapOrd) (m : TreeModel F) : RowProg F (Res (Out F)) :=
  if ¬ m.validated then .done (fail .notValidated)
  else if ¬ m.compiled then .done (fail .notCompiled)
  else
    (inputProg m.model.localTransformations).andThen fun _ => .look fun row =>
      match evalNode m.ctx o row m.root with
      | .error e => .done (.error e)
      | .ok (scores, result) => .done (m.output scores result).1

variable [Trans F]

mutual
/-- `Model.Evaluate`: tree.go:712-758, regression.go:81-90, mining.go:224-257. -/
def EModel.rowProg (o : MapOrd) : EModel F → RowProg F (Res (Out F))
  | .tree m => m.rowProg o
  | .regression d => .look fun row => .done (d.evaluate row)
  | .mining s ms =>
    if ¬ s.validated then .done (fail .notValidated)
    else if ¬ s.compiled then .done (fail .notCompiled)
    else
      (imputeProg ((o.at_ 0).range s.defaultValues)).andThen fun _ =>
      (inputProg s.head.localTransformations).andThen fun _ =>
        match s.head.method with
        | .average =>
          (sumRowProg (o.at_ 1) s.head.functionName 0 (initScores s) ms).andThen fun sm =>
            let out := sumFinish (o.at_ 2) s sm
            .done (.ok (some (averageLoop s.segments.length ((o.at_ 3).range out) out)))
        | .sum =>
          (sumRowProg (o.at_ 1) s.head.functionName 0 (initScores s) ms).andThen fun sm =>
            .done (.ok (some (sumFinish (o.at_ 2) s sm)))
        | .modelChain => chainRowProg (o.at_ 1) 0 (some ∅) ms
        | .selectFirst => firstRowProg (o.at_ 1) ms
        | _ => .done (fail .unsupportedMultipleModelMethod)
/-- mining.go:119-130 `evaluateMultipleModelSelectFirst` -/
def firstRowProg (o : MapOrd) : List (EModel F) → RowProg F (Res (Out F))
  | [] => .done (fail .noSegments)
  | m :: _ => EModel.rowProg o m
/-- mining.go:132-149 `evaluateMultipleModelChain` -/
def chainRowProg (o : MapOrd) (i : Nat) (lastOut : Out F) : List (EModel F) → RowProg F (Res (Out F))
  | [] => .done (.ok lastOut)
  | m :: ms =>
    (writeProg ((o.at_ (2 * i)).range (lastOut.getD ∅))).andThen fun _ =>
      (EModel.rowProg (o.at_ (2 * i + 1)) m).andThen fun segOut => chainRowProg o (i + 1) segOut ms
/-- mining.go:162-181: the loop of `evaluateMultipleModelSum`. -/
def sumRowProg (o : MapOrd) (fn : MiningFunction) (i : Nat) (scoreMap : GoMap F) :
    List (EModel F) → RowProg F (Res (GoMap F))
  | [] => .done (.ok scoreMap)
  | m :: ms =>
    (EModel.rowProg (o.at_ (2 * i)) m).andThen fun segout =>
      sumRowProg o fn (i + 1) (((o.at_ (2 * i + 1)).range scoreMap).foldl (addScore fn segout) scoreMap) ms
end

/-- A goroutine: between two steps, or inside the step its program begins with. -/
inductive RowThread (F α : Type) where
  | between (p : RowProg F α)
  | inside (p : RowProg F α)

/-- Goroutines, numbered by `ι`, that were passed the same row. -/
structure RowSys (ι F α : Type) where
  row : Row F
  threads : ι → RowThread F α

variable {ι : Type} [DecidableEq ι]

def RowSys.setThread (s : RowSys ι F α) (i : ι) (g : RowThread F α) : RowSys ι F α :=
  { s with threads := Function.update s.threads i g }

/-- One step of one goroutine. Entering a step and leaving it are separate, so that others may be inside
steps of their own at the same time; the effect happens on leaving. -/
inductive RowStep : RowSys ι F α → RowSys ι F α → Prop
  | enter {s : RowSys ι F α} {i : ι} {p} : s.threads i = .between p → (∀ a, p ≠ .done a) →
      RowStep s (s.setThread i (.inside p))
  | leaveLook {s : RowSys ι F α} {i : ι} {k} : s.threads i = .inside (.look k) →
      RowStep s (s.setThread i (.between (k s.row)))
  | leaveWrite {s : RowSys ι F α} {i : ι} {key v k} : s.threads i = .inside (.write key v k) →
      RowStep s { s.setThread i (.between k) with row := RowProg.put s.row key v }

/-- Inside a write to the row. -/
def RowThread.Writing : RowThread F α → Prop
  | .inside (.write _ _ _) => True
  | _ => False

/-- What the Go runtime reports as `fatal error: concurrent map writes`. -/
def RowSys.Race (s : RowSys ι F α) : Prop :=
  ∃ i j, i ≠ j ∧ (s.threads i).Writing ∧ (s.threads j).Writing

/-- The calls have not begun yet. -/
def RowSys.init (row : Row F) (ps : ι → RowProg F α) : RowSys ι F α := ⟨row, fun i => .between (ps i)⟩

/-- What may be reached. -/
inductive RowReach (s : RowSys ι F α) : RowSys ι F α → Prop
  | refl : RowReach s s
  | step {t u : RowSys ι F α} : RowReach s t → RowStep t u → RowReach s u

end Gopmml
