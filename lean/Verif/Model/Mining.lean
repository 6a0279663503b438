import Verif.Model.Regression

/-!
# Mining (ensemble) models and the model interface
(evaluation/mining.go, evaluation/evaluation.go)
-/

namespace Gopmml

variable {F : Type} [Arith F] [Lib F] [Trans F]

/-- mining.go:9-24 `MiningModel` without `segmodels`.  (`fieldTypes` is computed by
the Go code but never read, and left out.) -/
structure MiningState (F : Type) where
  validated : Bool
  compiled : Bool
  dd : List DataField
  head : MiningHead F
  segments : List (SegDoc F)
  defaultValues : GoMap (GoVal F)
  targetField : String
  outputFields : List OutputField
  targets : List (Target F)

/-- evaluation.go:12-17 `Model` and its three implementations. -/
inductive EModel (F : Type) where
  | tree (m : TreeModel F)
  | regression (d : RegressionDoc F)
  | mining (s : MiningState F) (segmodels : List (EModel F))

omit [Arith F] [Lib F] [Trans F] in
/-- mining.go:27-30 -/
def MiningState.init (dd : List DataField) (h : MiningHead F) (segs : List (SegDoc F)) :
    MiningState F where
  validated := false
  compiled := false
  dd := dd
  head := h
  segments := segs
  defaultValues := ∅
  targetField := ""
  outputFields := []
  targets := []

omit [Arith F] [Lib F] [Trans F] in
/-- mining.go:49-68 `Validate`; the method default is stored even if a later check
fails. -/
def MiningState.validate (s : MiningState F) : Res Unit × MiningState F :=
  let s' := { s with
    head := { s.head with method := if s.head.method = .empty then .sum else s.head.method } }
  if s'.head.method = .average ∨ s'.head.method = .modelChain ∨ s'.head.method = .sum ∨
      s'.head.method = .selectFirst then
    if s'.head.outputs.all (fun f => f.feature = .empty ∨ f.feature = .probability) then
      (.ok (), { s' with validated := true })
    else (fail .unsupportedOutputFeature, s')
  else (fail .unsupportedMultipleModelMethod, s')

omit [Arith F] [Lib F] [Trans F] in
/-- mining.go:74-83 `defaultValues` -/
def buildDefaults (fs : List MiningField) : GoMap (GoVal F) :=
  fs.foldl (fun m f =>
    match f.missingValueReplacement with
    | some d => m.insert f.name (.str d)
    | none => m) ∅

omit [Arith F] [Lib F] [Trans F] in
/-- mining.go:71-83: the part of `Compile` before the segments. -/
def MiningState.prepare (s : MiningState F) : MiningState F :=
  { s with
    outputFields := s.head.outputs
    targets := s.head.targets
    defaultValues := buildDefaults s.head.miningFields
    targetField := findTarget s.targetField s.head.miningFields }

omit [Trans F] in
mutual
/-- evaluation.go:19-30 `NewModel` (tree.go:369-387, mining.go:26-43,
regression.go:20-27), with the shared transformation dictionary passed through. -/
def newModel (dd : List DataField) : ModelElem F → TD F → Res (EModel F) × TD F
  | .tree d, td =>
    match newTreeModel dd td d with
    | (.error e, td') => (.error e, td')
    | (.ok m, td') => (.ok (.tree m), td')
  | .regression d, td => (.ok (.regression d), td)
  | .mining h segs, td =>
    match (MiningState.init dd h segs).validate with
    | (.error e, _) => (.error e, td)
    | (.ok (), s) =>
      match compileSegments dd segs (td ++ s.head.localTransformations) with
      | (.error e, _, td') => (.error e, td')
      | (.ok (), ms, td') => (.ok (.mining { s.prepare with compiled := true } ms), td')
  | .other _, td => (fail .invalidModelType, td)
/-- mining.go:99-112: the evaluators built so far are returned also on error. -/
def compileSegments (dd : List DataField) :
    List (SegDoc F) → TD F → Res Unit × List (EModel F) × TD F
  | [], td => (.ok (), [], td)
  | .mk _ _ [e] :: segs, td =>
    match newModel dd e td with
    | (.error e, td') => (.error e, [], td')
    | (.ok m, td') =>
      let r := compileSegments dd segs td'
      (r.1, m :: r.2.1, r.2.2)
  | .mk _ _ ms :: _, td => (fail (.segmentGroupSize ms.length), [], td)
end

omit [Trans F] in
mutual
/-- The document after `NewModel`, with the constants stored in the predicates of its
trees up to the first error (tree.go:415-439).  The defaults filled in by `Validate`
(tree.go:396-408, mining.go:50-52) are left out: every evaluator fills them in again. -/
def storeElem (dd : List DataField) : ModelElem F → TD F → ModelElem F
  | .tree d, td =>
    match (TreeModel.init dd d).validate with
    | (.error _, _) => .tree d
    | (.ok (), _) =>
      .tree { d with node := storeNode (buildTypes dd (td ++ d.localTransformations)) d.node }
  | .mining h segs, td =>
    match (MiningState.init dd h segs).validate with
    | (.error _, _) => .mining h segs
    | (.ok (), _) => .mining h (storeSegs dd segs (td ++ h.localTransformations))
  | .regression d, _ => .regression d
  | .other k, _ => .other k
/-- mining.go:99-112 -/
def storeSegs (dd : List DataField) : List (SegDoc F) → TD F → List (SegDoc F)
  | [], _ => []
  | .mk id ps [e] :: segs, td =>
    .mk id ps [storeElem dd e td] ::
      match newModel dd e td with
      | (.ok _, td') => storeSegs dd segs td'
      | (.error _, _) => segs
  | seg :: segs, _ => seg :: segs
end

omit [Arith F] [Lib F] [Trans F] in
mutual
/-- An evaluator as seen after the constants in the document it was built from have
changed. -/
def EModel.sync : ModelElem F → EModel F → EModel F
  | e, .tree m =>
    match e with
    | .tree d => .tree { m with root := syncNode d.node m.root }
    | _ => .tree m
  | _, .regression d => .regression d
  | e, .mining s ms =>
    match e with
    | .mining _ segs => .mining s (syncSegs segs segs ms)
    | _ => .mining s ms
/-- The evaluators of the segments; there are several rounds of them after repeated
compilation.  (Simplification: the rounds are taken to be complete, that is, no earlier
recompilation has failed half way.) -/
def syncSegs (all : List (SegDoc F)) : List (SegDoc F) → List (EModel F) → List (EModel F)
  | _, [] => []
  | [], m :: ms =>
    match all with
    | .mk _ _ [e] :: rest => EModel.sync e m :: syncSegs all rest ms
    | _ => m :: ms
  | .mk _ _ [e] :: rest, m :: ms => EModel.sync e m :: syncSegs all rest ms
  | _ :: _, m :: ms => m :: ms
end

omit [Trans F] in
/-- mining.go:70-117 `Compile` on an existing evaluator: segment evaluators are
appended to the ones already there, which see the constants the new ones store in the
document. -/
def compileMining (s : MiningState F) (ms : List (EModel F)) (td : TD F) :
    Res Unit × EModel F × TD F :=
  let stored := storeSegs s.dd s.segments (td ++ s.head.localTransformations)
  match compileSegments s.dd s.segments (td ++ s.head.localTransformations) with
  | (.error e, ms', td') => (.error e, .mining s.prepare (syncSegs stored stored ms ++ ms'), td')
  | (.ok (), ms', td') =>
    (.ok (), .mining { s.prepare with compiled := true } (syncSegs stored stored ms ++ ms'), td')

omit [Trans F] in
/-- `Model.Compile` (tree.go:676, regression.go:29, mining.go:70) -/
def EModel.compile (m : EModel F) (td : TD F) : Res Unit × EModel F × TD F :=
  match m with
  | .tree m =>
    let r := m.compile td
    (r.1, .tree r.2.1, r.2.2)
  | .regression d => (.ok (), .regression d, td)
  | .mining s ms => compileMining s ms td

omit [Arith F] [Lib F] [Trans F] in
/-- `Model.Validate` (tree.go:389, regression.go:34, mining.go:49) -/
def EModel.validate (m : EModel F) : Res Unit × EModel F :=
  match m with
  | .tree m => (m.validate.1, .tree m.validate.2)
  | .regression d => (d.validate.1, .regression d.validate.2)
  | .mining s ms => (s.validate.1, .mining s.validate.2 ms)

omit [Arith F] [Lib F] [Trans F] in
/-- `for k, v := range … { input[k] = v }` (mining.go:136-138) -/
def writeAll : List (String × GoVal F) → Row F → Res Unit × Row F
  | [], row => (.ok (), row)
  | (k, v) :: es, row =>
    match row.set k v with
    | .error e => (.error e, row)
    | .ok row' => writeAll es row'

omit [Arith F] [Lib F] [Trans F] in
/-- mining.go:213-222 `imputeMissingValues`, visiting the entries in the given order. -/
def imputeLoop : List (String × GoVal F) → Row F → Res Unit × Row F
  | [], row => (.ok (), row)
  | (fld, d) :: es, row =>
    match row.getD fld with
    | .nil =>
      match row.set fld d with
      | .error e => (.error e, row)
      | .ok row' => imputeLoop es row'
    | _ => imputeLoop es row

omit [Lib F] [Trans F] in
/-- mining.go:152-160: the initial score map. -/
def initScores (s : MiningState F) : GoMap F :=
  s.targets.foldl (fun m t => m.insert t.field Arith.zero)
    (s.outputFields.foldl (fun m f => m.insert f.name Arith.zero) ∅)

omit [Trans F] in
/-- mining.go:168-180: one entry of the inner loop. -/
def addScore (fn : MiningFunction) (segout : Out F) (scoreMap : GoMap F) (kv : String × F) :
    GoMap F :=
  let key := if fn = .classification then kv.1 else "score"
  match segout.bind (fun m => m[key]?) with
  | some outval => scoreMap.insert kv.1 (Arith.add kv.2 outval.float64)
  | none => scoreMap

omit [Lib F] [Trans F] in
/-- mining.go:183-190: rescaling of the targets. -/
def rescale (targets : List (Target F)) (scoreMap : GoMap F) : GoMap F :=
  targets.foldl (fun m t =>
    let m := match t.rescaleFactor with
      | some k => m.insert t.field (Arith.mul ((m[t.field]?).getD Arith.zero) k)
      | none => m
    match t.rescaleConstant with
    | some k => m.insert t.field (Arith.add ((m[t.field]?).getD Arith.zero) k)
    | none => m) scoreMap

omit [Arith F] [Lib F] [Trans F] in
/-- mining.go:192-195 -/
def scoresToRow (entries : List (String × F)) : GoMap (GoVal F) :=
  entries.foldl (fun out kv => out.insert kv.1 (.f64 kv.2)) ∅

omit [Trans F] in
/-- mining.go:206-208 -/
def averageLoop (n : Nat) (entries : List (String × GoVal F)) (out : GoMap (GoVal F)) :
    GoMap (GoVal F) :=
  entries.foldl (fun out kv =>
    out.insert kv.1 (.f64 (Arith.div kv.2.float64 (Arith.ofInt n)))) out

omit [Lib F] [Trans F] in
/-- mining.go:183-197: the end of `evaluateMultipleModelSum`. -/
def sumFinish (o : MapOrd) (s : MiningState F) (scoreMap : GoMap F) : GoMap (GoVal F) :=
  scoresToRow (o.range (rescale s.targets scoreMap))

mutual
/-- `Model.Evaluate`: tree.go:712-758, regression.go:81-90, mining.go:224-257. -/
def EModel.evaluate (o : MapOrd) : EModel F → Row F → Ev F (Out F) (EModel F)
  | .tree m, row =>
    let e := m.evaluate o row
    ⟨e.res, e.row, .tree e.model⟩
  | .regression d, row => ⟨d.evaluate row, row, .regression d⟩
  | .mining s ms, row =>
    if ¬ s.validated then ⟨fail .notValidated, row, .mining s ms⟩
    else if ¬ s.compiled then ⟨fail .notCompiled, row, .mining s ms⟩
    else
      match imputeLoop ((o.at_ 0).range s.defaultValues) row with
      | (.error e, row) => ⟨.error e, row, .mining s ms⟩
      | (.ok (), row) =>
        match handleInput s.head.localTransformations row with
        | (.error e, row) => ⟨.error e, row, .mining s ms⟩
        | (.ok (), row) =>
          match s.head.method with
          | .average =>
            let r := sumSegments (o.at_ 1) s.head.functionName 0 (initScores s) ms row
            ⟨r.res.map fun sm =>
                let out := sumFinish (o.at_ 2) s sm
                some (averageLoop s.segments.length ((o.at_ 3).range out) out),
              r.row, .mining s r.model⟩
          | .sum =>
            let r := sumSegments (o.at_ 1) s.head.functionName 0 (initScores s) ms row
            ⟨r.res.map fun sm => some (sumFinish (o.at_ 2) s sm), r.row, .mining s r.model⟩
          | .modelChain =>
            let r := chainSegments (o.at_ 1) 0 (some ∅) ms row
            ⟨r.res, r.row, .mining s r.model⟩
          | .selectFirst =>
            let r := selectFirst (o.at_ 1) ms row
            ⟨r.res, r.row, .mining s r.model⟩
          | _ => ⟨fail .unsupportedMultipleModelMethod, row, .mining s ms⟩
/-- mining.go:119-130 `evaluateMultipleModelSelectFirst` -/
def selectFirst (o : MapOrd) : List (EModel F) → Row F → Ev F (Out F) (List (EModel F))
  | [], row => ⟨fail .noSegments, row, []⟩
  | m :: ms, row =>
    let e := EModel.evaluate o m row
    ⟨e.res, e.row, e.model :: ms⟩
/-- mining.go:132-149 `evaluateMultipleModelChain`; `i` numbers the segments. -/
def chainSegments (o : MapOrd) (i : Nat) (lastOut : Out F) :
    List (EModel F) → Row F → Ev F (Out F) (List (EModel F))
  | [], row => ⟨.ok lastOut, row, []⟩
  | m :: ms, row =>
    match writeAll ((o.at_ (2 * i)).range (lastOut.getD ∅)) row with
    | (.error e, row) => ⟨.error e, row, m :: ms⟩
    | (.ok (), row) =>
      let e := EModel.evaluate (o.at_ (2 * i + 1)) m row
      match e.res with
      | .error err => ⟨.error err, e.row, e.model :: ms⟩
      | .ok segOut =>
        let r := chainSegments o (i + 1) segOut ms e.row
        ⟨r.res, r.row, e.model :: r.model⟩
/-- mining.go:162-181: the loop of `evaluateMultipleModelSum`. -/
def sumSegments (o : MapOrd) (fn : MiningFunction) (i : Nat) (scoreMap : GoMap F) :
    List (EModel F) → Row F → Ev F (GoMap F) (List (EModel F))
  | [], row => ⟨.ok scoreMap, row, []⟩
  | m :: ms, row =>
    let e := EModel.evaluate (o.at_ (2 * i)) m row
    match e.res with
    | .error err => ⟨.error err, e.row, e.model :: ms⟩
    | .ok segout =>
      let scoreMap := ((o.at_ (2 * i + 1)).range scoreMap).foldl (addScore fn segout) scoreMap
      let r := sumSegments o fn (i + 1) scoreMap ms e.row
      ⟨r.res, r.row, e.model :: r.model⟩
end

end Gopmml
