import Verif.Model.Predicate
import Verif.Model.Expr

/-!
# Tree models (evaluation/tree.go)
-/

namespace Gopmml

variable {F : Type}

/-- tree.go:27-32 `scoreDist` -/
structure ScoreDist (F : Type) where
  value : String
  confidence : F
  probability : F
  recordCount : F
  deriving DecidableEq, Repr

/-- tree.go:34-44 `node`.  The `test` closure is defunctionalised: the compiled
predicate is stored and `runTest` applies it.  The back pointer `m` becomes an
explicit `TreeCtx` argument of the evaluation functions. -/
inductive CNode (F : Type) where
  | mk (id defaultChild : String) (scoreDist : List (ScoreDist F)) (score : ScoreDist F)
      (pred : Option (Pred F)) (children : List (CNode F))

namespace CNode
def id : CNode F → String | .mk i _ _ _ _ _ => i
def defaultChild : CNode F → String | .mk _ d _ _ _ _ => d
def scoreDist : CNode F → List (ScoreDist F) | .mk _ _ s _ _ _ => s
def score : CNode F → ScoreDist F | .mk _ _ _ s _ _ => s
def pred : CNode F → Option (Pred F) | .mk _ _ _ _ p _ => p
def children : CNode F → List (CNode F) | .mk _ _ _ _ _ c => c
end CNode

/-- What a node reads through its back pointer `n.m` (tree.go:9-23). -/
structure TreeCtx (F : Type) where
  strategy : MissingValueStrategy
  noTrueChild : NoTrueChildStrategy
  penalty : F
  targetField : String
  dd : List DataField
  types : FieldTypes

variable [Arith F]

/-- tree.go:69-79 `pickBest` -/
def pickBest (scores : List (ScoreDist F)) : ScoreDist F :=
  scores.foldl (fun best score =>
    if Arith.lt best.probability score.probability then score else best)
    ⟨"", Arith.zero, Arith.zero, Arith.zero⟩

/-- tree.go:111-122: the distribution derived from the declared target values. -/
def targetDist (c : TreeCtx F) (score : ScoreDist F) : List (ScoreDist F) :=
  c.dd.flatMap fun field =>
    if field.name = c.targetField then
      field.values.map fun v =>
        if v = score.value then ⟨v, Arith.one, Arith.one, score.recordCount⟩
        else ⟨v, Arith.zero, Arith.zero, Arith.zero⟩
    else []

/-- tree.go:100-128 `outputScoreDist` (nil and empty slices are not distinguished
by any caller). -/
def outputScoreDist (c : TreeCtx F) (n : CNode F) : List (ScoreDist F) :=
  if n.children ≠ [] ∧ c.noTrueChild = .returnNullPrediction then []
  else if n.scoreDist ≠ [] then n.scoreDist
  else if c.targetField ≠ "" then targetDist c n.score
  else [n.score]

variable [Lib F]

/-- What evaluating a node returns: its distribution and a three-valued result. -/
abbrev NodeRes (F : Type) := List (ScoreDist F) × PredRes

mutual
/-- tree.go:130-146 `evaluateMissingValueStrategyNone` -/
def evalNone (c : TreeCtx F) (row : Row F) : CNode F → Res (NodeRes F)
  | .mk id dc sd sc pred cs => do
    let result ← runTest c.types pred row
    if result = .f ∨ result = .u then pure ([], .f)
    else
      match ← evalNoneChildren c row cs with
      | some r => pure r
      | none => pure (outputScoreDist c (.mk id dc sd sc pred cs), result)
/-- tree.go:137-143, the loop with its early return. -/
def evalNoneChildren (c : TreeCtx F) (row : Row F) : List (CNode F) → Res (Option (NodeRes F))
  | [] => pure none
  | n :: ns => do
    let r ← evalNone c row n
    if r.2 = .t then pure (some r) else evalNoneChildren c row ns
end

mutual
/-- tree.go:225-249 `evaluateMissingValueStrategyNullPrediction` -/
def evalNull (c : TreeCtx F) (row : Row F) : CNode F → Res (NodeRes F)
  | .mk id dc sd sc pred cs => do
    let result ← runTest c.types pred row
    if result = .f then pure ([], result)
    else if result = .u then pure ([], result)
    else
      match ← evalNullChildren c row cs with
      | some r => pure r
      | none => pure (outputScoreDist c (.mk id dc sd sc pred cs), result)
/-- tree.go:236-246, the loop with its early returns. -/
def evalNullChildren (c : TreeCtx F) (row : Row F) : List (CNode F) → Res (Option (NodeRes F))
  | [] => pure none
  | n :: ns => do
    let r ← evalNull c row n
    if r.2 = .t then pure (some r)
    else if r.2 = .u then pure (some ([], r.2))
    else evalNullChildren c row ns
end

omit [Arith F] [Lib F] in
/-- The state of the loops `unknownValues`, `trueDist` (tree.go:155-168, 185-199,
258-278, 322-334) after all children. -/
def unknownValues (rs : List (NodeRes F)) : Bool := rs.any (fun r => r.2 == .u)

omit [Arith F] [Lib F] in
/-- `trueDist`: the distribution of the last child that returned `t`, nil if none. -/
def trueDist (rs : List (NodeRes F)) : List (ScoreDist F) :=
  rs.foldl (fun acc r => if r.2 = .t then r.1 else acc) []

mutual
/-- tree.go:148-175 `evaluateMissingValueStrategyLastPrediction` -/
def evalLast (c : TreeCtx F) (row : Row F) : CNode F → Res (NodeRes F)
  | .mk id dc sd sc pred cs => do
    let result ← runTest c.types pred row
    if result = .f then pure ([], result)
    else
      let rs ← evalLastChildren c row cs
      if ¬ unknownValues rs ∧ trueDist rs ≠ [] then pure (trueDist rs, .t)
      else pure (outputScoreDist c (.mk id dc sd sc pred cs), result)
/-- The results of all children, in order (tree.go:158-159). -/
def evalLastChildren (c : TreeCtx F) (row : Row F) : List (CNode F) → Res (List (NodeRes F))
  | [] => pure []
  | n :: ns => do
    let r ← evalLast c row n
    let rs ← evalLastChildren c row ns
    pure (r :: rs)
end

omit [Arith F] [Lib F] in
/-- `childScores` (tree.go:190): each child's distribution under its id; a later
child with the same id overwrites. -/
def childScores (cs : List (CNode F)) (rs : List (NodeRes F)) : GoMap (List (ScoreDist F)) :=
  (cs.zip rs).foldl (fun m p => m.insert p.1.id p.2.1) ∅

omit [Lib F] in
/-- tree.go:213-217 -/
def penalize (penalty : F) (s : ScoreDist F) : ScoreDist F :=
  { s with confidence := Arith.mul s.confidence penalty,
           probability := Arith.mul s.probability penalty }

mutual
/-- tree.go:177-223 `evaluateMissingValueStrategyDefaultChild` -/
def evalDefault (c : TreeCtx F) (row : Row F) : CNode F → Res (NodeRes F)
  | .mk id dc sd sc pred cs => do
    let result ← runTest c.types pred row
    if result = .f then pure ([], result)
    else
      let rs ← evalDefaultChildren c row cs
      if ¬ unknownValues rs ∧ trueDist rs ≠ [] then pure (trueDist rs, .t)
      else if unknownValues rs then
        match (childScores cs rs)[dc]? with
        | none => pure ([], .u)
        | some scores => pure (scores.map (penalize c.penalty), .t)
      else pure (outputScoreDist c (.mk id dc sd sc pred cs), result)
/-- The results of all children, in order (tree.go:188-189). -/
def evalDefaultChildren (c : TreeCtx F) (row : Row F) : List (CNode F) → Res (List (NodeRes F))
  | [] => pure []
  | n :: ns => do
    let r ← evalDefault c row n
    let rs ← evalDefaultChildren c row ns
    pure (r :: rs)
end

omit [Arith F] [Lib F] in
/-- The children that did not return `f`, with their results (tree.go:267). -/
def liveChildren (cs : List (CNode F)) (rs : List (NodeRes F)) : List (CNode F × NodeRes F) :=
  (cs.zip rs).filter (fun p => p.2.2 ≠ .f)

omit [Arith F] [Lib F] in
/-- `childRecordCounts` (tree.go:268) -/
def childRecordCounts (live : List (CNode F × NodeRes F)) : GoMap F :=
  live.foldl (fun m p => m.insert p.1.id p.1.score.recordCount) ∅

omit [Arith F] [Lib F] in
/-- `childScores` (tree.go:269) -/
def liveScores (live : List (CNode F × NodeRes F)) : GoMap (List (ScoreDist F)) :=
  live.foldl (fun m p => m.insert p.1.id p.2.1) ∅

omit [Lib F] in
/-- `totalRecordCount` (tree.go:262, 270) -/
def totalRecordCount (live : List (CNode F × NodeRes F)) : F :=
  live.foldl (fun t p => Arith.add t p.1.score.recordCount) Arith.zero

omit [Lib F] in
/-- tree.go:289-299: add one score, weighted, to the aggregate. -/
def weightedStep (w : F) (agg : GoMap (ScoreDist F)) (score : ScoreDist F) : GoMap (ScoreDist F) :=
  let a := (agg[score.value]?).getD ⟨score.value, Arith.zero, Arith.zero, Arith.zero⟩
  agg.insert score.value
    { a with recordCount := Arith.add a.recordCount score.recordCount,
             probability := Arith.add a.probability (Arith.mul score.probability w),
             confidence := Arith.add a.confidence (Arith.mul score.confidence w) }

omit [Lib F] in
/-- tree.go:285-301: `aggScoreMap`, visiting `childScores` in the oracle's order. -/
def weightedAgg (o : MapOrd) (live : List (CNode F × NodeRes F)) : GoMap (ScoreDist F) :=
  (o.range (liveScores live)).foldl (fun agg p =>
    let w := Arith.div (((childRecordCounts live)[p.1]?).getD Arith.zero) (totalRecordCount live)
    p.2.foldl (weightedStep w) agg) ∅

mutual
/-- tree.go:251-312 `evaluateMissingValueStrategyWeightedConfidence` -/
def evalWeighted (c : TreeCtx F) (row : Row F) (o : MapOrd) : CNode F → Res (NodeRes F)
  | .mk id dc sd sc pred cs => do
    let result ← runTest c.types pred row
    if result = .f then pure (sd, result)
    else
      let rs ← evalWeightedChildren c row o 2 cs
      if ¬ unknownValues rs ∧ trueDist rs ≠ [] then pure (trueDist rs, result)
      else if unknownValues rs then
        pure (((o.at_ 1).range (weightedAgg (o.at_ 0) (liveChildren cs rs))).map (·.2), .t)
      else pure (outputScoreDist c (.mk id dc sd sc pred cs), result)
/-- The results of all children, in order (tree.go:264-265). -/
def evalWeightedChildren (c : TreeCtx F) (row : Row F) (o : MapOrd) (i : Nat) :
    List (CNode F) → Res (List (NodeRes F))
  | [] => pure []
  | n :: ns => do
    let r ← evalWeighted c row (o.at_ i) n
    let rs ← evalWeightedChildren c row o (i + 1) ns
    pure (r :: rs)
end

omit [Lib F] in
/-- tree.go:344-353: add one score's record count to the aggregate. -/
def aggregateStep (agg : GoMap (ScoreDist F)) (sc : ScoreDist F) : GoMap (ScoreDist F) :=
  let a := (agg[sc.value]?).getD ⟨sc.value, Arith.zero, Arith.zero, Arith.zero⟩
  agg.insert sc.value { a with recordCount := Arith.add a.recordCount sc.recordCount }

omit [Lib F] in
/-- tree.go:341-363: the aggregated distribution. -/
def aggregateDist (o : MapOrd) (childScores : List (ScoreDist F)) : List (ScoreDist F) :=
  let agg := childScores.foldl aggregateStep ∅
  let recordCount := childScores.foldl (fun t sc => Arith.add t sc.recordCount) Arith.zero
  (o.range agg).map fun p =>
    { p.2 with probability := Arith.div p.2.recordCount recordCount,
               confidence := Arith.div p.2.recordCount recordCount }

mutual
/-- tree.go:314-367 `evaluateMissingValueStrategyAggregateNodes` -/
def evalAggregate (c : TreeCtx F) (row : Row F) (o : MapOrd) : CNode F → Res (NodeRes F)
  | .mk id dc sd sc pred cs => do
    let result ← runTest c.types pred row
    if result = .f then pure (outputScoreDist c (.mk id dc sd sc pred cs), result)
    else
      let rs ← evalAggregateChildren c row o 1 cs
      if ¬ unknownValues rs ∧ trueDist rs ≠ [] then pure (trueDist rs, result)
      else if unknownValues rs then
        pure (aggregateDist (o.at_ 0) (rs.flatMap (·.1)), .t)
      else pure (outputScoreDist c (.mk id dc sd sc pred cs), result)
/-- The results of all children, in order (tree.go:325-326). -/
def evalAggregateChildren (c : TreeCtx F) (row : Row F) (o : MapOrd) (i : Nat) :
    List (CNode F) → Res (List (NodeRes F))
  | [] => pure []
  | n :: ns => do
    let r ← evalAggregate c row (o.at_ i) n
    let rs ← evalAggregateChildren c row o (i + 1) ns
    pure (r :: rs)
end

/-- tree.go:81-96 `node.evaluate` -/
def evalNode (c : TreeCtx F) (o : MapOrd) (row : Row F) (n : CNode F) : Res (NodeRes F) :=
  match c.strategy with
  | .nullPrediction => evalNull c row n
  | .aggregateNodes => evalAggregate c row o n
  | .weightedConfidence => evalWeighted c row o n
  | .defaultChild => evalDefault c row n
  | .lastPrediction => evalLast c row n
  | .none | .other _ => evalNone c row n

omit [Lib F] in
/-- tree.go:453-476: the compiled distribution of a node. -/
def compileDists (dists : List (ScoreDistribution F)) : List (ScoreDist F) :=
  let totalRecords := dists.foldl (fun t sc => Arith.add t sc.recordCount) Arith.zero
  dists.map fun sc =>
    { value := sc.value,
      confidence := sc.confidence.getD (Arith.div sc.recordCount totalRecords),
      probability := sc.probability.getD (Arith.div sc.recordCount totalRecords),
      recordCount := sc.recordCount }

mutual
/-- tree.go:441-513 `newNode`: children first, then the node's own predicate. -/
def newNode (types : FieldTypes) : Node F → Res (CNode F)
  | .mk id dc score rc dists nodes pred => do
    let children ← newNodes types nodes
    let pred' ← match pred with
      | none => pure none
      | some p => do
        let p' ← compilePredicate types p
        pure (some p')
    pure (.mk id dc (compileDists dists) ⟨score, Arith.zero, Arith.zero, rc⟩ pred' children)
/-- tree.go:480-486 -/
def newNodes (types : FieldTypes) : List (Node F) → Res (List (CNode F))
  | [] => pure []
  | n :: ns => do
    let n' ← newNode types n
    let ns' ← newNodes types ns
    pure (n' :: ns')
end

mutual
/-- tree.go:480-491: the document's node after `newNode`, with the constants stored in
its predicates up to the first error. -/
def storeNode (types : FieldTypes) : Node F → Node F
  | .mk id dc score rc dists nodes pred =>
    .mk id dc score rc dists (storeNodes types nodes)
      (match newNodes types nodes with
       | .ok _ => pred.map (storePred types)
       | .error _ => pred)
/-- tree.go:480-486 -/
def storeNodes (types : FieldTypes) : List (Node F) → List (Node F)
  | [] => []
  | n :: ns =>
    storeNode types n ::
      match newNode types n with
      | .ok _ => storeNodes types ns
      | .error _ => ns
end

omit [Arith F] [Lib F] in
mutual
/-- An evaluator's node as seen after the constants in the document it was built from
have changed: its `test` closure holds the document's predicate itself
(tree.go:493-510). -/
def syncNode : Node F → CNode F → CNode F
  | .mk _ _ _ _ _ nodes pred, .mk id dc sd sc pred' cs =>
    .mk id dc sd sc (pred'.bind fun _ => pred) (syncNodes nodes cs)
/-- The children of `syncNode`. -/
def syncNodes : List (Node F) → List (CNode F) → List (CNode F)
  | n :: ns, c :: cs => syncNode n c :: syncNodes ns cs
  | _, cs => cs
end

/-- `models.TransformationDictionary.DerivedFields`, shared by all models of a
document (models/elements.go:5480-5484). -/
abbrev TD (F : Type) := List (DerivedField F)

/-- tree.go:9-23 `TreeModel`.  `td` is shared with other models, so it is passed to
`compile` explicitly instead of being a field. -/
structure TreeModel (F : Type) where
  validated : Bool
  compiled : Bool
  dd : List DataField
  model : TreeDoc F
  fieldTypes : FieldTypes
  root : CNode F
  outKeys : GoMap String
  targetField : String

omit [Lib F] in
/-- tree.go:370-374: `new(TreeModel)` with its pointers set. -/
def TreeModel.init (dd : List DataField) (d : TreeDoc F) : TreeModel F where
  validated := false
  compiled := false
  dd := dd
  model := d
  fieldTypes := ∅
  root := .mk "" "" [] ⟨"", Arith.zero, Arith.zero, Arith.zero⟩ none []
  outKeys := ∅
  targetField := ""

omit [Arith F] [Lib F] in
/-- tree.go:396-406: defaults of one mining field. -/
def MiningField.withDefaults (f : MiningField) : MiningField :=
  { f with
    usageType := if f.usageType = .other "" then .active else f.usageType
    outliers := if f.outliers = "" then "asIs" else f.outliers
    invalidValueTreatment :=
      if f.invalidValueTreatment = "" then "returnInvalid" else f.invalidValueTreatment }

omit [Arith F] [Lib F] in
/-- tree.go:389-413 `Validate`: outcome and updated model. -/
def TreeModel.validate (m : TreeModel F) : Res Unit × TreeModel F :=
  if m.model.functionName ≠ .classification ∧ m.model.functionName ≠ .regression then
    (fail .unsupportedMiningFunction, m)
  else
    (.ok (), { m with
      model := { m.model with miningFields := m.model.miningFields.map MiningField.withDefaults }
      validated := true })

omit [Arith F] [Lib F] in
/-- tree.go:677-681, mining.go:76-78: the last target mining field, else unchanged. -/
def findTarget (init : String) (fs : List MiningField) : String :=
  fs.foldl (fun t f => if f.usageType = .target then f.name else t) init

omit [Arith F] [Lib F] in
/-- tree.go:683-695 / mining.go:85-97: declared types, derived fields last. -/
def buildTypes (dd : List DataField) (td : TD F) : FieldTypes :=
  td.foldl (fun m df => m.insert df.name df.dataType)
    (dd.foldl (fun m df => m.insert df.name df.dataType) ∅)

/-- tree.go:676-706 `Compile`: outcome, updated model and the shared dictionary.  A
failing `Compile` keeps the old root, but may have changed the constants it uses. -/
def TreeModel.compile (m : TreeModel F) (td : TD F) : Res Unit × TreeModel F × TD F :=
  let td' := td ++ m.model.localTransformations
  let m' := { m with
    targetField := findTarget m.targetField m.model.miningFields
    fieldTypes := buildTypes m.dd td' }
  match newNode m'.fieldTypes m'.model.node with
  | .error e =>
    (.error e, { m' with root := syncNode (storeNode m'.fieldTypes m'.model.node) m'.root }, td')
  | .ok root => (.ok (), { m' with root := root, compiled := true }, td')

/-- tree.go:369-387 `NewTreeModel` -/
def newTreeModel (dd : List DataField) (td : TD F) (d : TreeDoc F) : Res (TreeModel F) × TD F :=
  match (TreeModel.init dd d).validate with
  | (.error e, _) => (.error e, td)
  | (.ok (), m) =>
    match m.compile td with
    | (.error e, _, td') => (.error e, td')
    | (.ok (), m', td') => (.ok m', td')

/-- What `Evaluate` leaves behind: the returned result, the caller's row (updated in
place) and the evaluator. -/
structure Ev (F α S : Type) where
  res : Res α
  row : Row F
  model : S

/-- A returned `DataRow`; `none` is nil ("no prediction"). -/
abbrev Out (F : Type) := Option (GoMap (GoVal F))

omit [Arith F] [Lib F] in
/-- tree.go:739 -/
def probabilityKey (v : String) : String := "probability(" ++ v ++ ")"

omit [Arith F] [Lib F] in
/-- tree.go:737-743: one step of the output loop, with the `outKeys` cache. -/
def outStep (st : GoMap (GoVal F) × GoMap String) (score : ScoreDist F) :
    GoMap (GoVal F) × GoMap String :=
  match st.2[score.value]? with
  | some key => (st.1.insert key (.f64 score.probability), st.2)
  | none =>
    (st.1.insert (probabilityKey score.value) (.f64 score.probability),
     st.2.insert score.value (probabilityKey score.value))

omit [Arith F] [Lib F] in
/-- The context nodes see. -/
def TreeModel.ctx (m : TreeModel F) : TreeCtx F where
  strategy := m.model.missingValueStrategy
  noTrueChild := m.model.noTrueChildStrategy
  penalty := m.model.missingValuePenalty
  targetField := m.targetField
  dd := m.dd
  types := m.fieldTypes

/-- tree.go:730-757: from the root's scores to the returned row, and the new cache. -/
def TreeModel.output (m : TreeModel F) (scores : List (ScoreDist F)) (result : PredRes) :
    Res (Out F) × GoMap String :=
  if result = .t then
    match m.model.functionName with
    | .classification =>
      let st := scores.foldl outStep
        ((∅ : GoMap (GoVal F)).insert m.targetField (.str (pickBest scores).value), m.outKeys)
      (.ok (some st.1), st.2)
    | .regression =>
      match scores with
      | [] => (panic .indexOutOfRange, m.outKeys)
      | s :: _ =>
        match Lib.parseFloat s.value with
        | none => (fail (.parse s.value), m.outKeys)
        | some x => (.ok (some ((∅ : GoMap (GoVal F)).insert "score" (.f64 x))), m.outKeys)
    | .other _ => (.ok (some ∅), m.outKeys)
  else (.ok none, m.outKeys)

/-- tree.go:712-758 `Evaluate` -/
def TreeModel.evaluate (o : MapOrd) (m : TreeModel F) (row : Row F) : Ev F (Out F) (TreeModel F) :=
  if ¬ m.validated then ⟨fail .notValidated, row, m⟩
  else if ¬ m.compiled then ⟨fail .notCompiled, row, m⟩
  else
    match handleInput m.model.localTransformations row with
    | (.error e, row') => ⟨.error e, row', m⟩
    | (.ok (), row') =>
      match evalNode m.ctx o row' m.root with
      | .error e => ⟨.error e, row', m⟩
      | .ok (scores, result) =>
        let r := m.output scores result
        ⟨r.1, row', { m with outKeys := r.2 }⟩

end Gopmml
