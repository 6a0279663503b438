import Verif.Model.Build

/-!
# The constants in a shared document

`compilePredicate` parses the constant of a simple predicate and stores it in the document
(`p.RawPredicateValue = pv`, tree.go:427). The `test` closure of a node keeps the document's predicate and
reads the constant each time it is called (tree.go:493-510, 522-606). So all evaluators built from one
document use the same constants, and `NewModel` stores them again while other goroutines evaluate.

Here every access to this memory is a step of its own. `ModelElem.docProg` is `NewModel`: it repeats
`ModelElem.buildProg` (Model/Build.lean) with the values stored, and `docProg_erase` (Proofs/SharedWorld.lean)
shows that without them it is the same program. `EModel.lookProg` is `Evaluate`: it repeats the evaluation
functions of `Model/Predicate.lean`, `Model/Tree.lean` and `Model/Mining.lean`, but the constants come from
the memory; `lookProg_run` shows that run alone it does what they do. The constants inside the evaluator
are not used by it.

Simplifications. A single access is atomic (`RawPredicateValue` is an interface value, two words). Each call
of `Evaluate` has a row of its own (rows that are shared are the subject of `Model/SharedRow.lean`), and the
key caches of the trees are left out (`Model/Conc.lean`). `Validate` and `Compile` are called only by
`NewModel`.
-/

namespace Gopmml

variable {F α β : Type}

/-- Where a simple predicate is found in a document: the model element it belongs to (as in
`Model/Conc.lean`, with the number of the model in the document last), the node in the tree, and the place
in the node's predicate; numbers of children and operands, innermost first. -/
structure Loc where
  cell : Cell
  node : List Nat
  pred : List Nat
  deriving DecidableEq

/-- The constants of a document: `RawPredicateValue` of its simple predicates. -/
abbrev Consts (F : Type) := Loc → GoVal F

/-- What is left to do of a call, as far as the document and the dictionary are concerned. -/
inductive DocProg (F α : Type) where
  | done (a : α)
  /-- `m.td.DerivedFields` is read. -/
  | read (k : TD F → DocProg F α)
  /-- `m.td.DerivedFields` is written. -/
  | write (td : TD F) (k : DocProg F α)
  /-- A default is stored into the model element at `c` (tree.go:396-409, mining.go:50-52). -/
  | store (c : Cell) (k : DocProg F α)
  /-- `p.RawPredicateValue = v` -/
  | const (l : Loc) (v : GoVal F) (k : DocProg F α)
  /-- `p.RawPredicateValue` is read. -/
  | look (l : Loc) (k : GoVal F → DocProg F α)

namespace DocProg

def bind : DocProg F α → (α → DocProg F β) → DocProg F β
  | .done a, f => f a
  | .read k, f => .read fun td => (k td).bind f
  | .write td k, f => .write td (k.bind f)
  | .store c k, f => .store c (k.bind f)
  | .const l v k, f => .const l v (k.bind f)
  | .look l k, f => .look l fun v => (k v).bind f

/-- Go on unless there was an error. -/
def andThen (p : DocProg F (Res α)) (f : α → DocProg F (Res β)) : DocProg F (Res β) :=
  p.bind fun
    | .error e => .done (.error e)
    | .ok a => f a

/-- A call run alone: what it returns, the dictionary and the constants afterwards. -/
def run : DocProg F α → TD F → Consts F → α × TD F × Consts F
  | .done a, td, σ => (a, td, σ)
  | .read k, td, σ => (k td).run td σ
  | .write td' k, _, σ => k.run td' σ
  | .store _ k, td, σ => k.run td σ
  | .const l v k, td, σ => k.run td (Function.update σ l v)
  | .look l k, td, σ => (k (σ l)).run td σ

end DocProg

/-! ## `NewModel` -/

/-- tree.go:687-689, mining.go:91-93 -/
def appendDoc : List (DerivedField F) → DocProg F Unit
  | [] => .done ()
  | tf :: tfs => .read fun td => .write (td ++ [tf]) (appendDoc tfs)

/-- tree.go:395-409: the loop of `Validate`. -/
def fieldsDoc (c : Cell) : List MiningField → DocProg F (List MiningField)
  | [] => .done []
  | f :: fs => .store c ((fieldsDoc c fs).bind fun fs' => .done (f.withDefaults :: fs'))

variable [Lib F]

mutual
/-- tree.go:415-439 `compilePredicate`, for the predicate at `l`. -/
def predDoc (l : Loc) (types : FieldTypes) : Pred F → DocProg F (Res (Pred F))
  | .simple p =>
    match types[p.field]? with
    | none => .done (fail (.unknownFieldType p.field))
    | some dt =>
      match getRawValue dt p.value with
      | .error e => .done (.error e)
      | .ok pv => .const l pv (.done (.ok (.simple { p with raw := pv })))
  | .compound op ps => (predsDoc l types 0 ps).andThen fun ps' => .done (.ok (.compound op ps'))
  | .true_ => .done (.ok .true_)
  | .false_ => .done (.ok .false_)
  | .set fld => .done (.ok (.set fld))
/-- tree.go:430-435: the operands from number `i` on. -/
def predsDoc (l : Loc) (types : FieldTypes) (i : Nat) : List (Pred F) → DocProg F (Res (List (Pred F)))
  | [] => .done (.ok [])
  | p :: ps =>
    (predDoc { l with pred := i :: l.pred } types p).andThen fun p' =>
      (predsDoc l types (i + 1) ps).andThen fun ps' => .done (.ok (p' :: ps'))
end

variable [Arith F]

mutual
/-- tree.go:441-513 `newNode`, for the node at `np` of the tree at `c`. -/
def nodeDoc (c : Cell) (np : List Nat) (types : FieldTypes) : Node F → DocProg F (Res (CNode F))
  | .mk id dc score rc dists nodes pred =>
    (nodesDoc c np types 0 nodes).andThen fun children =>
      match pred with
      | none => .done (.ok
          (.mk id dc (compileDists dists) ⟨score, Arith.zero, Arith.zero, rc⟩ none children))
      | some p => (predDoc ⟨c, np, []⟩ types p).andThen fun p' => .done (.ok
          (.mk id dc (compileDists dists) ⟨score, Arith.zero, Arith.zero, rc⟩ (some p') children))
/-- tree.go:480-486: the children from number `i` on. -/
def nodesDoc (c : Cell) (np : List Nat) (types : FieldTypes) (i : Nat) :
    List (Node F) → DocProg F (Res (List (CNode F)))
  | [] => .done (.ok [])
  | n :: ns =>
    (nodeDoc c (i :: np) types n).andThen fun n' =>
      (nodesDoc c np types (i + 1) ns).andThen fun ns' => .done (.ok (n' :: ns'))
end

/-- tree.go:676-706 `Compile`, with the mining fields as `Validate` has left them. -/
def TreeDoc.compileDoc (c : Cell) (dd : List DataField) (d : TreeDoc F) (fs : List MiningField) :
    DocProg F (Res (EModel F)) :=
  (appendDoc d.localTransformations).bind fun _ =>
  .read fun td =>
  (nodeDoc c [] (buildTypes dd td) d.node).andThen fun root =>
  .done (.ok (.tree
    { validated := true
      compiled := true
      dd := dd
      model := { d with miningFields := fs }
      fieldTypes := buildTypes dd td
      root := root
      outKeys := ∅
      targetField := findTarget "" fs }))

/-- tree.go:369-387 `NewTreeModel`, with `Validate` (tree.go:389-413). -/
def TreeDoc.docProg (c : Cell) (dd : List DataField) (d : TreeDoc F) : DocProg F (Res (EModel F)) :=
  if d.functionName ≠ .classification ∧ d.functionName ≠ .regression then
    .done (fail .unsupportedMiningFunction)
  else (fieldsDoc c d.miningFields).bind (d.compileDoc c dd)

/-- mining.go:53-117: the rest of `Validate`, and `Compile`; `rest` builds the evaluators of the segments. -/
def miningDoc (dd : List DataField) (h : MiningHead F) (segs : List (SegDoc F))
    (rest : DocProg F (Res (List (EModel F)))) : DocProg F (Res (EModel F)) :=
  match (MiningState.init dd h segs).validate with
  | (.error e, _) => .done (.error e)
  | (.ok (), s) =>
    (appendDoc s.head.localTransformations).bind fun _ =>
    .read fun _ =>
    rest.andThen fun ms => .done (.ok (.mining { s.prepare with compiled := true } ms))

mutual
/-- evaluation.go:19-30 `NewModel`; the model element is found at `c` in the document. -/
def ModelElem.docProg (c : Cell) (dd : List DataField) : ModelElem F → DocProg F (Res (EModel F))
  | .tree d => d.docProg c dd
  | .regression d => .done (.ok (.regression d))
  | .mining h segs =>
    if h.method = .empty then .store c (miningDoc dd h segs (segsDoc c dd 0 segs))
    else miningDoc dd h segs (segsDoc c dd 0 segs)
  | .other _ => .done (fail .invalidModelType)
/-- mining.go:99-112: the segments from number `i` on. -/
def segsDoc (c : Cell) (dd : List DataField) (i : Nat) :
    List (SegDoc F) → DocProg F (Res (List (EModel F)))
  | [] => .done (.ok [])
  | .mk _ _ [e] :: segs =>
    (ModelElem.docProg (i :: c) dd e).andThen fun m =>
    (segsDoc c dd (i + 1) segs).andThen fun ms => .done (.ok (m :: ms))
  | .mk _ _ ms :: _ => .done (fail (.segmentGroupSize ms.length))
end

/-! ## `Evaluate` -/

/-- tree.go:516-609 `evaluateSimplePredicate`, for the predicate at `l`. The constant is read twice: for the
comparison with nil (line 522) and in the comparison itself. (The orderings read it only if the field is
declared double, float or integer; here they always do.) -/
def simpleLook (types : FieldTypes) (l : Loc) (p : SimplePred F) (row : Row F) : DocProg F (Res PredRes) :=
  match types[p.field]? with
  | none => .done (pure .f)
  | some dt => .look l fun
    | .nil => .done (pure .f)
    | _ =>
      match row.get p.field with
      | none => .done (pure (if p.op = .isMissing then .t else .u))
      | some v =>
        match p.op with
        | .isNotMissing => .done (pure .t)
        | .equal => .look l fun raw => .done (pure (tOrF (v.ifaceEq raw)))
        | .notEqual => .look l fun raw => .done (pure (tOrF (!v.ifaceEq raw)))
        | .greaterOrEqual => .look l fun raw => .done
          (evalOrdering dt (fun a b => Arith.le b a) (fun a b => decide (b ≤ a)) v raw)
        | .greaterThan => .look l fun raw => .done
          (evalOrdering dt (fun a b => Arith.lt b a) (fun a b => decide (b < a)) v raw)
        | .lessOrEqual => .look l fun raw => .done
          (evalOrdering dt (fun a b => Arith.le a b) (fun a b => decide (a ≤ b)) v raw)
        | .lessThan => .look l fun raw => .done
          (evalOrdering dt (fun a b => Arith.lt a b) (fun a b => decide (a < b)) v raw)
        | .isMissing | .other _ => .done (pure .f)

mutual
/-- tree.go:622-630: one operand of a compound predicate. -/
def operandLook (types : FieldTypes) (row : Row F) (l : Loc) : Pred F → DocProg F (Res PredRes)
  | .simple p => simpleLook types l p row
  | .compound op ps => loopLook types row l op ps.length 0 0 0 ps
  | .set _ => .done (pure .f)
  | .true_ => .done (pure .u)
  | .false_ => .done (pure .u)
/-- tree.go:615-674 `evaluateCompoundPredicate`: the operands from number `i` on. -/
def loopLook (types : FieldTypes) (row : Row F) (l : Loc) (op : BoolOp) (len i trueCount unknownCount : Nat) :
    List (Pred F) → DocProg F (Res PredRes)
  | [] => .done (pure (compoundFinish op len trueCount unknownCount))
  | p :: ps =>
    (operandLook types row { l with pred := i :: l.pred } p).andThen fun v =>
      if op = .surrogate ∧ v ≠ .u then .done (pure v)
      else
        loopLook types row l op len (i + 1) (if v = .t then trueCount + 1 else trueCount)
          (if v = .u then unknownCount + 1 else unknownCount) ps
end

/-- tree.go:493-510: the `test` closure of a node. -/
def testLook (types : FieldTypes) (l : Loc) (pred : Option (Pred F)) (row : Row F) : DocProg F (Res PredRes) :=
  match pred with
  | none => .done (panic .nilFuncCall)
  | some .true_ => .done (pure .t)
  | some .false_ => .done (pure .f)
  | some (.set _) => .done (pure .f)
  | some p => operandLook types row l p

mutual
/-- tree.go:130-146 `evaluateMissingValueStrategyNone` -/
def noneLook (x : TreeCtx F) (row : Row F) (c : Cell) (np : List Nat) : CNode F → DocProg F (Res (NodeRes F))
  | .mk id dc sd sc pred cs =>
    (testLook x.types ⟨c, np, []⟩ pred row).andThen fun result =>
      if result = .f ∨ result = .u then .done (pure ([], .f))
      else (noneLooks x row c np 0 cs).andThen fun
        | some r => .done (pure r)
        | none => .done (pure (outputScoreDist x (.mk id dc sd sc pred cs), result))
/-- tree.go:137-143 -/
def noneLooks (x : TreeCtx F) (row : Row F) (c : Cell) (np : List Nat) (i : Nat) :
    List (CNode F) → DocProg F (Res (Option (NodeRes F)))
  | [] => .done (pure none)
  | n :: ns => (noneLook x row c (i :: np) n).andThen fun r =>
    if r.2 = .t then .done (pure (some r)) else noneLooks x row c np (i + 1) ns
end

mutual
/-- tree.go:225-249 `evaluateMissingValueStrategyNullPrediction` -/
def nullLook (x : TreeCtx F) (row : Row F) (c : Cell) (np : List Nat) : CNode F → DocProg F (Res (NodeRes F))
  | .mk id dc sd sc pred cs =>
    (testLook x.types ⟨c, np, []⟩ pred row).andThen fun result =>
      if result = .f then .done (pure ([], result))
      else if result = .u then .done (pure ([], result))
      else (nullLooks x row c np 0 cs).andThen fun
        | some r => .done (pure r)
        | none => .done (pure (outputScoreDist x (.mk id dc sd sc pred cs), result))
/-- tree.go:236-246 -/
def nullLooks (x : TreeCtx F) (row : Row F) (c : Cell) (np : List Nat) (i : Nat) :
    List (CNode F) → DocProg F (Res (Option (NodeRes F)))
  | [] => .done (pure none)
  | n :: ns => (nullLook x row c (i :: np) n).andThen fun r =>
    if r.2 = .t then .done (pure (some r))
    else if r.2 = .u then .done (pure (some ([], r.2)))
    else nullLooks x row c np (i + 1) ns
end

mutual
/-- tree.go:148-175 `evaluateMissingValueStrategyLastPrediction` -/
def lastLook (x : TreeCtx F) (row : Row F) (c : Cell) (np : List Nat) : CNode F → DocProg F (Res (NodeRes F))
  | .mk id dc sd sc pred cs =>
    (testLook x.types ⟨c, np, []⟩ pred row).andThen fun result =>
      if result = .f then .done (pure ([], result))
      else (lastLooks x row c np 0 cs).andThen fun rs =>
        if ¬ unknownValues rs ∧ trueDist rs ≠ [] then .done (pure (trueDist rs, .t))
        else .done (pure (outputScoreDist x (.mk id dc sd sc pred cs), result))
/-- tree.go:158-159 -/
def lastLooks (x : TreeCtx F) (row : Row F) (c : Cell) (np : List Nat) (i : Nat) :
    List (CNode F) → DocProg F (Res (List (NodeRes F)))
  | [] => .done (pure [])
  | n :: ns => (lastLook x row c (i :: np) n).andThen fun r =>
    (lastLooks x row c np (i + 1) ns).andThen fun rs => .done (pure (r :: rs))
end

mutual
/-- tree.go:177-223 `evaluateMissingValueStrategyDefaultChild` -/
def defaultLook (x : TreeCtx F) (row : Row F) (c : Cell) (np : List Nat) :
    CNode F → DocProg F (Res (NodeRes F))
  | .mk id dc sd sc pred cs =>
    (testLook x.types ⟨c, np, []⟩ pred row).andThen fun result =>
      if result = .f then .done (pure ([], result))
      else (defaultLooks x row c np 0 cs).andThen fun rs =>
        if ¬ unknownValues rs ∧ trueDist rs ≠ [] then .done (pure (trueDist rs, .t))
        else if unknownValues rs then
          match (childScores cs rs)[dc]? with
          | none => .done (pure ([], .u))
          | some scores => .done (pure (scores.map (penalize x.penalty), .t))
        else .done (pure (outputScoreDist x (.mk id dc sd sc pred cs), result))
/-- tree.go:188-189 -/
def defaultLooks (x : TreeCtx F) (row : Row F) (c : Cell) (np : List Nat) (i : Nat) :
    List (CNode F) → DocProg F (Res (List (NodeRes F)))
  | [] => .done (pure [])
  | n :: ns => (defaultLook x row c (i :: np) n).andThen fun r =>
    (defaultLooks x row c np (i + 1) ns).andThen fun rs => .done (pure (r :: rs))
end

mutual
/-- tree.go:251-312 `evaluateMissingValueStrategyWeightedConfidence`; the oracle of child `i` is number
`i + 2`. -/
def weightedLook (x : TreeCtx F) (row : Row F) (c : Cell) (np : List Nat) (o : MapOrd) :
    CNode F → DocProg F (Res (NodeRes F))
  | .mk id dc sd sc pred cs =>
    (testLook x.types ⟨c, np, []⟩ pred row).andThen fun result =>
      if result = .f then .done (pure (sd, result))
      else (weightedLooks x row c np o 0 cs).andThen fun rs =>
        if ¬ unknownValues rs ∧ trueDist rs ≠ [] then .done (pure (trueDist rs, result))
        else if unknownValues rs then
          .done (pure (((o.at_ 1).range (weightedAgg (o.at_ 0) (liveChildren cs rs))).map (·.2), .t))
        else .done (pure (outputScoreDist x (.mk id dc sd sc pred cs), result))
/-- tree.go:264-265 -/
def weightedLooks (x : TreeCtx F) (row : Row F) (c : Cell) (np : List Nat) (o : MapOrd) (i : Nat) :
    List (CNode F) → DocProg F (Res (List (NodeRes F)))
  | [] => .done (pure [])
  | n :: ns => (weightedLook x row c (i :: np) (o.at_ (i + 2)) n).andThen fun r =>
    (weightedLooks x row c np o (i + 1) ns).andThen fun rs => .done (pure (r :: rs))
end

mutual
/-- tree.go:314-367 `evaluateMissingValueStrategyAggregateNodes`; the oracle of child `i` is number
`i + 1`. -/
def aggregateLook (x : TreeCtx F) (row : Row F) (c : Cell) (np : List Nat) (o : MapOrd) :
    CNode F → DocProg F (Res (NodeRes F))
  | .mk id dc sd sc pred cs =>
    (testLook x.types ⟨c, np, []⟩ pred row).andThen fun result =>
      if result = .f then .done (pure (outputScoreDist x (.mk id dc sd sc pred cs), result))
      else (aggregateLooks x row c np o 0 cs).andThen fun rs =>
        if ¬ unknownValues rs ∧ trueDist rs ≠ [] then .done (pure (trueDist rs, result))
        else if unknownValues rs then .done (pure (aggregateDist (o.at_ 0) (rs.flatMap (·.1)), .t))
        else .done (pure (outputScoreDist x (.mk id dc sd sc pred cs), result))
/-- tree.go:325-326 -/
def aggregateLooks (x : TreeCtx F) (row : Row F) (c : Cell) (np : List Nat) (o : MapOrd) (i : Nat) :
    List (CNode F) → DocProg F (Res (List (NodeRes F)))
  | [] => .done (pure [])
  | n :: ns => (aggregateLook x row c (i :: np) (o.at_ (i + 1)) n).andThen fun r =>
    (aggregateLooks x row c np o (i + 1) ns).andThen fun rs => .done (pure (r :: rs))
end

/-- tree.go:81-96 `node.evaluate`, for the root of the tree at `c`. -/
def nodeLook (x : TreeCtx F) (o : MapOrd) (row : Row F) (c : Cell) (n : CNode F) : DocProg F (Res (NodeRes F)) :=
  match x.strategy with
  | .nullPrediction => nullLook x row c [] n
  | .aggregateNodes => aggregateLook x row c [] o n
  | .weightedConfidence => weightedLook x row c [] o n
  | .defaultChild => defaultLook x row c [] n
  | .lastPrediction => lastLook x row c [] n
  | .none | .other _ => noneLook x row c [] n

/-- tree.go:712-758 `TreeModel.Evaluate`: what is returned, and the caller's row. -/
def TreeModel.lookProg (c : Cell) (o : MapOrd) (m : TreeModel F) (row : Row F) :
    DocProg F (Res (Out F) × Row F) :=
  if ¬ m.validated then .done (fail .notValidated, row)
  else if ¬ m.compiled then .done (fail .notCompiled, row)
  else
    match handleInput m.model.localTransformations row with
    | (.error e, row') => .done (.error e, row')
    | (.ok (), row') => (nodeLook m.ctx o row' c m.root).bind fun
      | .error e => .done (.error e, row')
      | .ok (scores, result) => .done ((m.output scores result).1, row')

variable [Trans F]

mutual
/-- `Model.Evaluate`: tree.go:712-758, regression.go:81-90, mining.go:224-257. -/
def EModel.lookProg (c : Cell) (o : MapOrd) : EModel F → Row F → DocProg F (Res (Out F) × Row F)
  | .tree m, row => m.lookProg c o row
  | .regression d, row => .done (d.evaluate row, row)
  | .mining s ms, row =>
    if ¬ s.validated then .done (fail .notValidated, row)
    else if ¬ s.compiled then .done (fail .notCompiled, row)
    else
      match imputeLoop ((o.at_ 0).range s.defaultValues) row with
      | (.error e, row) => .done (.error e, row)
      | (.ok (), row) =>
        match handleInput s.head.localTransformations row with
        | (.error e, row) => .done (.error e, row)
        | (.ok (), row) =>
          match s.head.method with
          | .average =>
            (sumLook c (o.at_ 1) s.head.functionName 0 (initScores s) ms row).bind fun r =>
              .done (r.1.map fun sm =>
                let out := sumFinish (o.at_ 2) s sm
                some (averageLoop s.segments.length ((o.at_ 3).range out) out), r.2)
          | .sum =>
            (sumLook c (o.at_ 1) s.head.functionName 0 (initScores s) ms row).bind fun r =>
              .done (r.1.map fun sm => some (sumFinish (o.at_ 2) s sm), r.2)
          | .modelChain => chainLook c (o.at_ 1) 0 (some ∅) ms row
          | .selectFirst => firstLook c (o.at_ 1) ms row
          | _ => .done (fail .unsupportedMultipleModelMethod, row)
/-- mining.go:119-130 `evaluateMultipleModelSelectFirst` -/
def firstLook (c : Cell) (o : MapOrd) : List (EModel F) → Row F → DocProg F (Res (Out F) × Row F)
  | [], row => .done (fail .noSegments, row)
  | m :: _, row => EModel.lookProg (0 :: c) o m row
/-- mining.go:132-149 `evaluateMultipleModelChain` -/
def chainLook (c : Cell) (o : MapOrd) (i : Nat) (lastOut : Out F) :
    List (EModel F) → Row F → DocProg F (Res (Out F) × Row F)
  | [], row => .done (.ok lastOut, row)
  | m :: ms, row =>
    match writeAll ((o.at_ (2 * i)).range (lastOut.getD ∅)) row with
    | (.error e, row) => .done (.error e, row)
    | (.ok (), row) =>
      (EModel.lookProg (i :: c) (o.at_ (2 * i + 1)) m row).bind fun r =>
        match r.1 with
        | .error err => .done (.error err, r.2)
        | .ok segOut => chainLook c o (i + 1) segOut ms r.2
/-- mining.go:162-181: the loop of `evaluateMultipleModelSum`. -/
def sumLook (c : Cell) (o : MapOrd) (fn : MiningFunction) (i : Nat) (scoreMap : GoMap F) :
    List (EModel F) → Row F → DocProg F (Res (GoMap F) × Row F)
  | [], row => .done (.ok scoreMap, row)
  | m :: ms, row =>
    (EModel.lookProg (i :: c) (o.at_ (2 * i)) m row).bind fun r =>
      match r.1 with
      | .error err => .done (.error err, r.2)
      | .ok segout =>
        sumLook c o fn (i + 1)
          (((o.at_ (2 * i + 1)).range scoreMap).foldl (addScore fn segout) scoreMap) ms r.2
end

/-! ## Goroutines that build and evaluate -/

/-- A goroutine of a program that uses one document. -/
inductive Worker (F : Type) where
  | idle
  /-- inside `NewModel` for model `n` of the document -/
  | building (n : Nat) (p : DocProg F (Res (EModel F)))
  /-- inside `Evaluate` of an evaluator for model `n`, called with `row` -/
  | evaluating (n : Nat) (o : MapOrd) (row : Row F) (p : DocProg F (Res (Out F) × Row F))

/-- A call of `Evaluate` that has returned: the model, the orders in which maps were visited, the row it was
called with, the answer, and the row afterwards. -/
structure Answered (F : Type) where
  model : Nat
  ord : MapOrd
  row : Row F
  res : Res (Out F)
  after : Row F

/-- A program at some moment: the shared dictionary, the constants in the document, the goroutines, the
evaluators built so far (with the number of the model), and the calls of `Evaluate` that have returned. -/
structure World (F ι : Type) where
  dict : TD F
  consts : Consts F
  workers : ι → Worker F
  built : List (Nat × EModel F)
  answered : List (Answered F)

/-- One access to shared memory by a call, with its effect. -/
inductive Access : DocProg F α → TD F → Consts F → DocProg F α → TD F → Consts F → Prop
  | read {k td σ} : Access (.read k) td σ (k td) td σ
  | write {td' k td σ} : Access (.write td' k) td σ k td' σ
  | store {c k td σ} : Access (.store c k) td σ k td σ
  | const {l v k td σ} : Access (.const l v k) td σ k td (Function.update σ l v)
  | look {l k td σ} : Access (.look l k) td σ (k (σ l)) td σ

variable {ι : Type} [DecidableEq ι]

/-- One step of a program that uses the document with the models `es` and data dictionary `dd`. A goroutine
that has nothing to do may call `NewModel` for any model, or `Evaluate` of any evaluator that has been
built, with any row. -/
inductive WorldStep (dd : List DataField) (es : Nat → ModelElem F) : World F ι → World F ι → Prop
  | build {w : World F ι} {i : ι} (n : Nat) : w.workers i = .idle →
      WorldStep dd es w { w with
        workers := Function.update w.workers i (.building n ((es n).docProg [n] dd)) }
  | evaluate {w : World F ι} {i : ι} {n : Nat} {m : EModel F} (o : MapOrd) (row : Row F) :
      w.workers i = .idle → (n, m) ∈ w.built →
      WorldStep dd es w { w with
        workers := Function.update w.workers i (.evaluating n o row (m.lookProg [n] o row)) }
  | buildAccess {w : World F ι} {i : ι} {n p p' td σ} : w.workers i = .building n p →
      Access p w.dict w.consts p' td σ →
      WorldStep dd es w { w with
        dict := td, consts := σ, workers := Function.update w.workers i (.building n p') }
  | evaluateAccess {w : World F ι} {i : ι} {n o row p p' td σ} : w.workers i = .evaluating n o row p →
      Access p w.dict w.consts p' td σ →
      WorldStep dd es w { w with
        dict := td, consts := σ, workers := Function.update w.workers i (.evaluating n o row p') }
  | built {w : World F ι} {i : ι} {n m} : w.workers i = .building n (.done (.ok m)) →
      WorldStep dd es w { w with
        workers := Function.update w.workers i .idle, built := (n, m) :: w.built }
  | failed {w : World F ι} {i : ι} {n e} : w.workers i = .building n (.done (.error e)) →
      WorldStep dd es w { w with workers := Function.update w.workers i .idle }
  | answered {w : World F ι} {i : ι} {n o row a row'} : w.workers i = .evaluating n o row (.done (a, row')) →
      WorldStep dd es w { w with
        workers := Function.update w.workers i .idle, answered := ⟨n, o, row, a, row'⟩ :: w.answered }

/-- What may be reached. -/
inductive WorldReach (dd : List DataField) (es : Nat → ModelElem F) (w : World F ι) : World F ι → Prop
  | refl : WorldReach dd es w w
  | step {u v : World F ι} : WorldReach dd es w u → WorldStep dd es u v → WorldReach dd es w v

/-- A program that has only read the document: nothing is built yet. The constants may be anything: they are
nil after decoding. -/
def World.init (td : TD F) (σ : Consts F) : World F ι := ⟨td, σ, fun _ => .idle, [], []⟩

end Gopmml
