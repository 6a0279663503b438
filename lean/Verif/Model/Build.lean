import Mathlib.Logic.Function.Basic
import Verif.Model.Conc

/-!
# Building models in several goroutines

`NewModel` writes to memory that other goroutines may use: the transformation dictionary, which all
models of a document share (`m.td.DerivedFields = append(m.td.DerivedFields, tf)`, tree.go:687-689,
mining.go:91-93), and the model element of the document itself (the defaults of `Validate`,
tree.go:396-409, mining.go:50-52, and the constants of the predicates, tree.go:427). None of it is
locked. Here a call is a program whose steps are its accesses to this memory. `ModelElem.buildProg`
repeats the constructors of `Model/Tree.lean` and `Model/Mining.lean` in this form; `buildProg_run`
(Proofs/Build.lean) shows that run alone it does exactly what they do.

Simplifications. The dictionary is one piece of memory: an append reads it, and then writes it with the
new field at the end. (The Go slice has a header and elements, which are read and written one by one; what
is shown below either has no writes to it, or is a schedule in which the accesses do not overlap, or
counts accesses that overlap.) The stores into the document are recorded with the element they belong to,
but not what is stored: a call never reads the constants, and the defaults are read only by the call that
has just stored them.
-/

namespace Gopmml

variable {F α β : Type}

/-- What is left to do of a call of `NewModel`, as far as shared memory is concerned. -/
inductive BuildProg (F α : Type) where
  | done (a : α)
  /-- `m.td.DerivedFields` is read. -/
  | read (k : TD F → BuildProg F α)
  /-- `m.td.DerivedFields` is written. -/
  | write (td : TD F) (k : BuildProg F α)
  /-- A store into the model element at `c` of the document. -/
  | store (c : Cell) (k : BuildProg F α)

namespace BuildProg

def bind : BuildProg F α → (α → BuildProg F β) → BuildProg F β
  | .done a, f => f a
  | .read k, f => .read fun td => (k td).bind f
  | .write td k, f => .write td (k.bind f)
  | .store c k, f => .store c (k.bind f)

/-- Go on unless there was an error. -/
def andThen (p : BuildProg F (Res α)) (f : α → BuildProg F (Res β)) : BuildProg F (Res β) :=
  p.bind fun
    | .error e => .done (.error e)
    | .ok a => f a

/-- A call run alone: what it returns and the dictionary afterwards. -/
def run : BuildProg F α → TD F → α × TD F
  | .done a, td => (a, td)
  | .read k, td => (k td).run td
  | .write td' k, _ => k.run td'
  | .store _ k, td => k.run td

end BuildProg

/-- tree.go:687-689, mining.go:91-93 -/
def appendProg : List (DerivedField F) → BuildProg F Unit
  | [] => .done ()
  | tf :: tfs => .read fun td => .write (td ++ [tf]) (appendProg tfs)

/-- tree.go:395-409: the loop of `Validate`. -/
def fieldsProg (c : Cell) : List MiningField → BuildProg F (List MiningField)
  | [] => .done []
  | f :: fs => .store c ((fieldsProg c fs).bind fun fs' => .done (f.withDefaults :: fs'))

variable [Lib F]

mutual
/-- tree.go:415-439 `compilePredicate` -/
def predProg (c : Cell) (types : FieldTypes) : Pred F → BuildProg F (Res (Pred F))
  | .simple p =>
    match types[p.field]? with
    | none => .done (fail (.unknownFieldType p.field))
    | some dt =>
      match getRawValue dt p.value with
      | .error e => .done (.error e)
      | .ok pv => .store c (.done (.ok (.simple { p with raw := pv })))
  | .compound op ps => (predsProg c types ps).andThen fun ps' => .done (.ok (.compound op ps'))
  | .true_ => .done (.ok .true_)
  | .false_ => .done (.ok .false_)
  | .set fld => .done (.ok (.set fld))
/-- tree.go:430-435 -/
def predsProg (c : Cell) (types : FieldTypes) : List (Pred F) → BuildProg F (Res (List (Pred F)))
  | [] => .done (.ok [])
  | p :: ps =>
    (predProg c types p).andThen fun p' => (predsProg c types ps).andThen fun ps' => .done (.ok (p' :: ps'))
end

variable [Arith F]

mutual
/-- tree.go:441-513 `newNode` -/
def nodeProg (c : Cell) (types : FieldTypes) : Node F → BuildProg F (Res (CNode F))
  | .mk id dc score rc dists nodes pred =>
    (nodesProg c types nodes).andThen fun children =>
      match pred with
      | none => .done (.ok
          (.mk id dc (compileDists dists) ⟨score, Arith.zero, Arith.zero, rc⟩ none children))
      | some p => (predProg c types p).andThen fun p' => .done (.ok
          (.mk id dc (compileDists dists) ⟨score, Arith.zero, Arith.zero, rc⟩ (some p') children))
/-- tree.go:480-486 -/
def nodesProg (c : Cell) (types : FieldTypes) : List (Node F) → BuildProg F (Res (List (CNode F)))
  | [] => .done (.ok [])
  | n :: ns =>
    (nodeProg c types n).andThen fun n' => (nodesProg c types ns).andThen fun ns' => .done (.ok (n' :: ns'))
end

/-- tree.go:676-706 `Compile`, with the mining fields as `Validate` has left them. -/
def TreeDoc.compileProg (c : Cell) (dd : List DataField) (d : TreeDoc F) (fs : List MiningField) :
    BuildProg F (Res (EModel F)) :=
  (appendProg d.localTransformations).bind fun _ =>
  .read fun td =>
  (nodeProg c (buildTypes dd td) d.node).andThen fun root =>
  .done (.ok (.tree
    { validated := true
      compiled := true
      dd := dd
      model := { d with miningFields := fs }
      fieldTypes := buildTypes dd td
      root := root
      outKeys := ∅
      targetField := findTarget "" fs }))

/-- tree.go:369-387 `NewTreeModel`, with `Validate` (tree.go:389-413). -/
def TreeDoc.buildProg (c : Cell) (dd : List DataField) (d : TreeDoc F) : BuildProg F (Res (EModel F)) :=
  if d.functionName ≠ .classification ∧ d.functionName ≠ .regression then
    .done (fail .unsupportedMiningFunction)
  else (fieldsProg c d.miningFields).bind (d.compileProg c dd)

mutual
/-- evaluation.go:19-30 `NewModel`; the model element is found at `c` in the document. -/
def ModelElem.buildProg (c : Cell) (dd : List DataField) : ModelElem F → BuildProg F (Res (EModel F))
  | .tree d => d.buildProg c dd
  | .regression d => .done (.ok (.regression d))
  | .mining h segs =>
    if h.method = .empty then .store c (miningProg c dd h segs) else miningProg c dd h segs
  | .other _ => .done (fail .invalidModelType)
/-- mining.go:53-117: the rest of `Validate`, and `Compile`. -/
def miningProg (c : Cell) (dd : List DataField) (h : MiningHead F) (segs : List (SegDoc F)) :
    BuildProg F (Res (EModel F)) :=
  match (MiningState.init dd h segs).validate with
  | (.error e, _) => .done (.error e)
  | (.ok (), s) =>
    (appendProg s.head.localTransformations).bind fun _ =>
    .read fun _ =>
    (segsProg c dd 0 segs).andThen fun ms => .done (.ok (.mining { s.prepare with compiled := true } ms))
/-- mining.go:99-112: the segments from number `i` on. -/
def segsProg (c : Cell) (dd : List DataField) (i : Nat) :
    List (SegDoc F) → BuildProg F (Res (List (EModel F)))
  | [] => .done (.ok [])
  | .mk _ _ [e] :: segs =>
    (ModelElem.buildProg (i :: c) dd e).andThen fun m =>
    (segsProg c dd (i + 1) segs).andThen fun ms => .done (.ok (m :: ms))
  | .mk _ _ ms :: _ => .done (fail (.segmentGroupSize ms.length))
end

/-! ## Goroutines -/

/-- A goroutine: between two accesses, or inside the access its program begins with. -/
inductive Builder (F α : Type) where
  | between (p : BuildProg F α)
  | inside (p : BuildProg F α)

/-- Goroutines, numbered by `ι`, that share a dictionary. -/
structure BuildSys (F ι α : Type) where
  dict : TD F
  threads : ι → Builder F α

variable {ι : Type}

/-- The calls have not begun yet. -/
def BuildSys.init (td : TD F) (ps : ι → BuildProg F α) : BuildSys F ι α := ⟨td, fun i => .between (ps i)⟩

/-- One step of one goroutine, as in `Model/Conc.lean`: entering an access and leaving it are separate
steps; the effect happens on leaving. -/
inductive BuildStep [DecidableEq ι] : BuildSys F ι α → BuildSys F ι α → Prop
  | enter {s : BuildSys F ι α} {i : ι} {p} : s.threads i = .between p → (∀ a, p ≠ .done a) →
      BuildStep s ⟨s.dict, Function.update s.threads i (.inside p)⟩
  | read {s : BuildSys F ι α} {i : ι} {k} : s.threads i = .inside (.read k) →
      BuildStep s ⟨s.dict, Function.update s.threads i (.between (k s.dict))⟩
  | write {s : BuildSys F ι α} {i : ι} {td k} : s.threads i = .inside (.write td k) →
      BuildStep s ⟨td, Function.update s.threads i (.between k)⟩
  | store {s : BuildSys F ι α} {i : ι} {c k} : s.threads i = .inside (.store c k) →
      BuildStep s ⟨s.dict, Function.update s.threads i (.between k)⟩

/-- What may be reached. -/
inductive BuildReach [DecidableEq ι] (s : BuildSys F ι α) : BuildSys F ι α → Prop
  | refl : BuildReach s s
  | step {t u : BuildSys F ι α} : BuildReach s t → BuildStep t u → BuildReach s u

/-- The memory a goroutine is inside an access of: the dictionary (`none`) or an element of the
document. -/
def Builder.accessing : Builder F α → Option (Option Cell)
  | .inside (.read _) => some none
  | .inside (.write _ _) => some none
  | .inside (.store c _) => some (some c)
  | _ => none

/-- The memory a goroutine is writing to at the moment. -/
def Builder.writing : Builder F α → Option (Option Cell)
  | .inside (.write _ _) => some none
  | .inside (.store c _) => some (some c)
  | _ => none

/-- A data race: two goroutines access the same memory at the same time, and one of them writes. -/
def BuildSys.Race (s : BuildSys F ι α) : Prop :=
  ∃ i j l, i ≠ j ∧ (s.threads i).writing = some l ∧ (s.threads j).accessing = some l

end Gopmml
