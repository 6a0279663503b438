import Mathlib.Logic.Function.Basic
import Verif.Model.Mining

/-!
# Concurrent calls of `Evaluate`

The only memory that `Evaluate` shares between callers and writes to is the key cache
`TreeModel.outKeys` of every tree in the model (tree.go:737-743); it is a Go map used without a
lock.  Everything else that `Evaluate` writes is local or belongs to the caller's row, which is
assumed not to be shared between goroutines.  (Sharing a row is the subject of
`Model/SharedRow.lean`.)

A call is a program whose steps are its accesses to the caches; the caches live in a store outside
of the model.  `EModel.prog` repeats the evaluation functions of `Model/Tree.lean` and
`Model/Mining.lean` in this form; `prog_run` (Proofs/Conc.lean) shows that run alone it does
exactly what they do.
-/

namespace Gopmml

/-- The tree inside a model whose cache is accessed: the positions of the segments leading to it,
innermost first. -/
abbrev Cell := List Nat

/-- What is left to do of a call, as far as the caches are concerned. -/
inductive Prog (α : Type) where
  | done (a : α)
  | read (c : Cell) (v : String) (k : Option String → Prog α)
  | write (c : Cell) (v key : String) (k : Prog α)

namespace Prog
variable {α β : Type}

def bind : Prog α → (α → Prog β) → Prog β
  | .done a, f => f a
  | .read c v k, f => .read c v fun r => (k r).bind f
  | .write c v key k, f => .write c v key (k.bind f)

end Prog

/-- The caches of all trees. -/
abbrev Store := Cell → GoMap String

/-- `m.outKeys[v] = key` in the tree `c`. -/
def Store.put (σ : Store) (c : Cell) (v key : String) : Store :=
  Function.update σ c ((σ c).insert v key)

/-- A call run alone. -/
def Prog.run {α : Type} : Prog α → Store → α × Store
  | .done a, σ => (a, σ)
  | .read c v k, σ => (k ((σ c)[v]?)).run σ
  | .write c v key k, σ => k.run (σ.put c v key)

variable {F : Type}

/-- tree.go:735-743: the output loop. -/
def outLoop (c : Cell) : List (ScoreDist F) → GoMap (GoVal F) → Prog (GoMap (GoVal F))
  | [], out => .done out
  | s :: l, out => .read c s.value fun
    | some key => outLoop c l (out.insert key (.f64 s.probability))
    | none => .write c s.value (probabilityKey s.value)
        (outLoop c l (out.insert (probabilityKey s.value) (.f64 s.probability)))

variable [Arith F] [Lib F]

/-- tree.go:730-757 -/
def TreeModel.outputProg (c : Cell) (m : TreeModel F) (scores : List (ScoreDist F)) (result : PredRes) :
    Prog (Res (Out F)) :=
  if result = .t then
    match m.model.functionName with
    | .classification =>
      (outLoop c scores
        ((∅ : GoMap (GoVal F)).insert m.targetField (.str (pickBest scores).value))).bind
        fun out => .done (.ok (some out))
    | .regression =>
      match scores with
      | [] => .done (panic .indexOutOfRange)
      | s :: _ =>
        match Lib.parseFloat s.value with
        | none => .done (fail (.parse s.value))
        | some x => .done (.ok (some ((∅ : GoMap (GoVal F)).insert "score" (.f64 x))))
    | .other _ => .done (.ok (some ∅))
  else .done (.ok none)

/-- tree.go:712-758 `TreeModel.Evaluate`: what is returned, and the caller's row. -/
def TreeModel.prog (c : Cell) (o : MapOrd) (m : TreeModel F) (row : Row F) : Prog (Res (Out F) × Row F) :=
  if ¬ m.validated then .done (fail .notValidated, row)
  else if ¬ m.compiled then .done (fail .notCompiled, row)
  else
    match handleInput m.model.localTransformations row with
    | (.error e, row') => .done (.error e, row')
    | (.ok (), row') =>
      match evalNode m.ctx o row' m.root with
      | .error e => .done (.error e, row')
      | .ok (scores, result) => (m.outputProg c scores result).bind fun r => .done (r, row')

variable [Trans F]

mutual
/-- `Model.Evaluate`: tree.go:712-758, regression.go:81-90, mining.go:224-257. -/
def EModel.prog (c : Cell) (o : MapOrd) : EModel F → Row F → Prog (Res (Out F) × Row F)
  | .tree m, row => m.prog c o row
  | .regression d, row => .done (d.evaluate row, row)
  | .mining s ms, row =>
    if ¬ s.validated then .done (fail .notValidated, row)
    else if ¬ s.compiled then .done (fail .notCompiled, row)
    else
      match imputeLoop ((o.at_ 0).range s.defaultValues) row with
      | (.error e, row) => .done (.error e, row)
      | (.ok (), row) =>
        match handleInput s.head.localTransformations row with
        | (.error e, row) => .done (.error e, row)
        | (.ok (), row) =>
          match s.head.method with
          | .average =>
            (sumProg c (o.at_ 1) s.head.functionName 0 (initScores s) ms row).bind fun r =>
              .done (r.1.map fun sm =>
                let out := sumFinish (o.at_ 2) s sm
                some (averageLoop s.segments.length ((o.at_ 3).range out) out), r.2)
          | .sum =>
            (sumProg c (o.at_ 1) s.head.functionName 0 (initScores s) ms row).bind fun r =>
              .done (r.1.map fun sm => some (sumFinish (o.at_ 2) s sm), r.2)
          | .modelChain => chainProg c (o.at_ 1) 0 (some ∅) ms row
          | .selectFirst => firstProg c (o.at_ 1) ms row
          | _ => .done (fail .unsupportedMultipleModelMethod, row)
/-- mining.go:119-130 `evaluateMultipleModelSelectFirst` -/
def firstProg (c : Cell) (o : MapOrd) : List (EModel F) → Row F → Prog (Res (Out F) × Row F)
  | [], row => .done (fail .noSegments, row)
  | m :: _, row => EModel.prog (0 :: c) o m row
/-- mining.go:132-149 `evaluateMultipleModelChain` -/
def chainProg (c : Cell) (o : MapOrd) (i : Nat) (lastOut : Out F) :
    List (EModel F) → Row F → Prog (Res (Out F) × Row F)
  | [], row => .done (.ok lastOut, row)
  | m :: ms, row =>
    match writeAll ((o.at_ (2 * i)).range (lastOut.getD ∅)) row with
    | (.error e, row) => .done (.error e, row)
    | (.ok (), row) =>
      (EModel.prog (i :: c) (o.at_ (2 * i + 1)) m row).bind fun r =>
        match r.1 with
        | .error err => .done (.error err, r.2)
        | .ok segOut => chainProg c o (i + 1) segOut ms r.2
/-- mining.go:162-181: the loop of `evaluateMultipleModelSum`. -/
def sumProg (c : Cell) (o : MapOrd) (fn : MiningFunction) (i : Nat) (scoreMap : GoMap F) :
    List (EModel F) → Row F → Prog (Res (GoMap F) × Row F)
  | [], row => .done (.ok scoreMap, row)
  | m :: ms, row =>
    (EModel.prog (i :: c) (o.at_ (2 * i)) m row).bind fun r =>
      match r.1 with
      | .error err => .done (.error err, r.2)
      | .ok segout =>
        sumProg c o fn (i + 1)
          (((o.at_ (2 * i + 1)).range scoreMap).foldl (addScore fn segout) scoreMap) ms r.2
end

/-- A goroutine: between two accesses, or inside the access its program begins with. -/
inductive Goroutine (α : Type) where
  | between (p : Prog α)
  | inside (p : Prog α)

/-- Goroutines, numbered by `ι`, sharing the caches. -/
structure Sys (ι α : Type) where
  store : Store
  threads : ι → Goroutine α

variable {ι α : Type} [DecidableEq ι]

def Sys.setThread (s : Sys ι α) (i : ι) (g : Goroutine α) : Sys ι α :=
  { s with threads := Function.update s.threads i g }

/-- One step of one goroutine.  Entering an access and leaving it are separate steps, so that other
goroutines may be inside accesses of their own at the same time; the effect happens on leaving. -/
inductive Step : Sys ι α → Sys ι α → Prop
  | enterRead {s : Sys ι α} {i : ι} {c v k} : s.threads i = .between (.read c v k) →
      Step s (s.setThread i (.inside (.read c v k)))
  | enterWrite {s : Sys ι α} {i : ι} {c v key k} : s.threads i = .between (.write c v key k) →
      Step s (s.setThread i (.inside (.write c v key k)))
  | leaveRead {s : Sys ι α} {i : ι} {c v k} : s.threads i = .inside (.read c v k) →
      Step s (s.setThread i (.between (k ((s.store c)[v]?))))
  | leaveWrite {s : Sys ι α} {i : ι} {c v key k} : s.threads i = .inside (.write c v key k) →
      Step s { s.setThread i (.between k) with store := s.store.put c v key }

/-- The cache of which tree the goroutine is inside an access of, if any. -/
def Goroutine.accessing : Goroutine α → Option Cell
  | .inside (.read c _ _) => some c
  | .inside (.write c _ _ _) => some c
  | _ => none

/-- The cache of which tree the goroutine is writing to at the moment, if any. -/
def Goroutine.writing : Goroutine α → Option Cell
  | .inside (.write c _ _ _) => some c
  | _ => none

/-- What the Go runtime reports as `fatal error: concurrent map read and map write` or
`concurrent map writes`. -/
def Sys.Race (s : Sys ι α) : Prop :=
  ∃ i j c, i ≠ j ∧ (s.threads i).writing = some c ∧ (s.threads j).accessing = some c

/-- The calls have not begun yet. -/
def Sys.init (σ : Store) (ps : ι → Prog α) : Sys ι α := ⟨σ, fun i => .between (ps i)⟩

/-- What may be reached. -/
inductive Reach (s : Sys ι α) : Sys ι α → Prop
  | refl : Reach s s
  | step {t u : Sys ι α} : Reach s t → Step t u → Reach s u

end Gopmml
