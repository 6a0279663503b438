import Verif.Model.Verify

/-!
# Rows by reference

A `DataRow` is a reference to a map. Elsewhere in the model a call takes the content of the row and returns
its new content and the content of the answer. Here a row is an address: `Evaluate` and `Verify` are written
down once more with every `make(DataRow)`, every read of a row and every write to one acting on a heap of
maps. `C93_by_reference` shows that the model with contents is right about them, and who shares what.

Only maps of type `DataRow` are on the heap: `scoreMap`, `outKeys`, `columns` and `outFields` never leave
the functions they belong to, or the evaluator. Values (miningschema.go:12-14) are copied. A map is never
given back: what Go's garbage collector does cannot be observed.
-/

namespace Gopmml

variable {F : Type}

/-- The maps made so far, by address. -/
abbrev Heap (F : Type) := List (GoMap (GoVal F))

/-- A `DataRow` (miningschema.go:113): an address, or nil. -/
abbrev Ref := Option Nat

namespace Heap

/-- The content of a row. -/
def row (h : Heap F) (r : Ref) : Row F := r.bind fun i => h[i]?

/-- `make(DataRow)` -/
def make (h : Heap F) : Ref × Heap F := (some h.length, h ++ [∅])

/-- `r[k] = v` -/
def put (h : Heap F) (r : Ref) (k : String) (v : GoVal F) : Res Unit × Heap F :=
  match r with
  | none => (panic .nilMapWrite, h)
  | some i => (.ok (), h.modify i (·.insert k v))

/-- `out[k] = v` on a map that was just made. -/
def store (h : Heap F) (out : Ref) (k : String) (v : GoVal F) : Heap F := (h.put out k v).2

end Heap

/-- What a call leaves behind. -/
structure HEv (F α S : Type) where
  res : Res α
  heap : Heap F
  model : S

/-- mining.go:213-222 `imputeMissingValues` -/
def imputeRef (r : Ref) : List (String × GoVal F) → Heap F → Res Unit × Heap F
  | [], h => (.ok (), h)
  | (fld, d) :: es, h =>
    match (h.row r).getD fld with
    | .nil =>
      match h.put r fld d with
      | (.error e, h) => (.error e, h)
      | (.ok (), h) => imputeRef r es h
    | _ => imputeRef r es h

/-- mining.go:136-138: `for k, v := range lastOut { input[k] = v }`; `v` is what the map holds when `k` is
visited. -/
def copyRef (src dst : Ref) : List String → Heap F → Res Unit × Heap F
  | [], h => (.ok (), h)
  | k :: ks, h =>
    match (h.row src).get k with
    | none => copyRef src dst ks h
    | some v =>
      match h.put dst k v with
      | (.error e, h) => (.error e, h)
      | (.ok (), h) => copyRef src dst ks h

/-- regression.go:151-155 -/
def binaryOutRef (outputs : List OutputField) (cat : String) (pred : F) (out : Ref) (h : Heap F) : Heap F :=
  outputs.foldl (fun h o => if cat = o.value then h.store out o.name (.f64 pred) else h) h

/-- The keys `range` visits. -/
def keysOf (o : MapOrd) (row : Row F) : List String := (o.range (Option.getD row ∅)).map (·.1)

variable [Arith F] [Lib F]

/-- mining.go:206-208 -/
def averageRef (n : Nat) (out : Ref) : List String → Heap F → Heap F
  | [], h => h
  | lbl :: lbls, h =>
    match (h.row out).get lbl with
    | none => averageRef n out lbls h
    | some score => averageRef n out lbls (h.store out lbl (.f64 (Arith.div score.float64 (Arith.ofInt n))))

/-- input.go:186-206 `HandleInput` -/
def inputRef (r : Ref) : List (DerivedField F) → Heap F → Res Unit × Heap F
  | [], h => (.ok (), h)
  | df :: dfs, h =>
    match handleExpression (h.row r) df.expr with
    | .error e => (.error e, h)
    | .ok v =>
      match h.put r df.name (storeValue df.opType v) with
      | (.error e, h) => (.error e, h)
      | (.ok (), h) => inputRef r dfs h

omit [Arith F] [Lib F] in
/-- tree.go:737-743 -/
def outStepRef (out : Ref) (st : Heap F × GoMap String) (score : ScoreDist F) : Heap F × GoMap String :=
  match st.2[score.value]? with
  | some key => (st.1.store out key (.f64 score.probability), st.2)
  | none =>
    (st.1.store out (probabilityKey score.value) (.f64 score.probability),
     st.2.insert score.value (probabilityKey score.value))

/-- tree.go:712-758 `Evaluate` -/
def TreeModel.evaluateRef (o : MapOrd) (m : TreeModel F) (r : Ref) (h : Heap F) : HEv F Ref (TreeModel F) :=
  if ¬ m.validated then ⟨fail .notValidated, h, m⟩
  else if ¬ m.compiled then ⟨fail .notCompiled, h, m⟩
  else
    match inputRef r m.model.localTransformations h with
    | (.error e, h) => ⟨.error e, h, m⟩
    | (.ok (), h) =>
      match evalNode m.ctx o (h.row r) m.root with
      | .error e => ⟨.error e, h, m⟩
      | .ok (scores, result) =>
        if result = .t then
          let out := h.make.1
          let h := h.make.2
          match m.model.functionName with
          | .classification =>
            let st := scores.foldl (outStepRef out)
              (h.store out m.targetField (.str (pickBest scores).value), m.outKeys)
            ⟨.ok out, st.1, { m with outKeys := st.2 }⟩
          | .regression =>
            match scores with
            | [] => ⟨panic .indexOutOfRange, h, m⟩
            | s :: _ =>
              match Lib.parseFloat s.value with
              | none => ⟨fail (.parse s.value), h, m⟩
              | some x => ⟨.ok out, h.store out "score" (.f64 x), m⟩
          | .other _ => ⟨.ok out, h, m⟩
        else ⟨.ok none, h, m⟩

variable [Trans F]

/-- regression.go:92-123 `EvaluateRegression` -/
def RegressionDoc.regressionRef (d : RegressionDoc F) (r : Ref) (h : Heap F) : Res Ref × Heap F :=
  let out := h.make.1
  let h := h.make.2
  match d.tables with
  | [rtbl] =>
    match d.outputs with
    | [outField] =>
      match linearLoop (h.row r) rtbl.intercept rtbl.predictors with
      | .error e => (.error e, h)
      | .ok y =>
        match normalize d.normalization y with
        | .error e => (.error e, h)
        | .ok pred => (.ok out, h.store out outField.name (.f64 pred))
    | os => (fail (.outputCount os.length), h)
  | ts => (fail (.tableCount ts.length), h)

/-- regression.go:130-156 -/
def binaryTablesRef (n : Normalization) (outputs : List OutputField) (r out : Ref) (finalPred : F) :
    List (RegressionTable F) → Heap F → Res Unit × Heap F
  | [], h => (.ok (), h)
  | rtbl :: ts, h =>
    match if rtbl.predictors ≠ [] then binaryLoop n (h.row r) rtbl.intercept rtbl.predictors
        else .ok finalPred with
    | .error e => (.error e, h)
    | .ok pred => binaryTablesRef n outputs r out (Arith.sub finalPred pred) ts
        (binaryOutRef outputs rtbl.targetCategory pred out h)

/-- regression.go:186-203 -/
def multiclassRef (n : Normalization) (y : List F) (out : Ref) :
    List (String × F) → Heap F → Res Unit × Heap F
  | [], h => (.ok (), h)
  | (target, yi) :: rest, h =>
    match n with
    | .softmax =>
      let s := y.foldl (fun s v => Arith.add s (Trans.exp v)) Arith.zero
      multiclassRef n y out rest (h.store out target (.f64 (Arith.div (Trans.exp yi) s)))
    | .simplemax =>
      let s := y.foldl (fun s v => Arith.add s v) Arith.zero
      multiclassRef n y out rest (h.store out target (.f64 (Arith.div yi s)))
    | _ => (fail .unsupportedNormalization, h)

/-- regression.go:81-90 `Evaluate`, 125-159 `EvaluateBinaryClassification` and 161-205
`EvaluateMulticlassClassification` -/
def RegressionDoc.evaluateRef (d : RegressionDoc F) (r : Ref) (h : Heap F) : Res Ref × Heap F :=
  match d.functionName with
  | .regression => d.regressionRef r h
  | .classification =>
    let out := h.make.1
    let h := h.make.2
    if d.outputs.length = 2 then
      match binaryTablesRef d.normalization d.outputs r out Arith.one d.tables h with
      | (.error e, h) => (.error e, h)
      | (.ok (), h) => (.ok out, h)
    else
      let outFields := outFieldMap d.outputs
      let targets := d.tables.map fun t => (outFields[t.targetCategory]?).getD ""
      match linearAll (h.row r) d.tables with
      | .error e => (.error e, h)
      | .ok y =>
        match multiclassRef d.normalization y out (targets.zip y) h with
        | (.error e, h) => (.error e, h)
        | (.ok (), h) => (.ok out, h)
  | .other _ => (fail .unrecognizedRegressionFunction, h)

omit [Lib F] [Trans F] in
/-- mining.go:192-197: `out` after the scores are added up. -/
def sumOutRef (o : MapOrd) (s : MiningState F) (scoreMap : GoMap F) (h : Heap F) : Ref × Heap F :=
  let out := h.make.1
  let h := h.make.2
  (out, (o.range (rescale s.targets scoreMap)).foldl (fun h kv => h.store out kv.1 (.f64 kv.2)) h)

mutual
/-- `Model.Evaluate`: tree.go:712-758, regression.go:81-90, mining.go:224-257. -/
def EModel.evaluateRef (o : MapOrd) : EModel F → Ref → Heap F → HEv F Ref (EModel F)
  | .tree m, r, h =>
    let e := m.evaluateRef o r h
    ⟨e.res, e.heap, .tree e.model⟩
  | .regression d, r, h =>
    let e := d.evaluateRef r h
    ⟨e.1, e.2, .regression d⟩
  | .mining s ms, r, h =>
    if ¬ s.validated then ⟨fail .notValidated, h, .mining s ms⟩
    else if ¬ s.compiled then ⟨fail .notCompiled, h, .mining s ms⟩
    else
      match imputeRef r ((o.at_ 0).range s.defaultValues) h with
      | (.error e, h) => ⟨.error e, h, .mining s ms⟩
      | (.ok (), h) =>
        match inputRef r s.head.localTransformations h with
        | (.error e, h) => ⟨.error e, h, .mining s ms⟩
        | (.ok (), h) =>
          match s.head.method with
          | .average =>
            let e := sumSegmentsRef (o.at_ 1) s.head.functionName 0 (initScores s) ms r h
            match e.res with
            | .error err => ⟨.error err, e.heap, .mining s e.model⟩
            | .ok sm =>
              let p := sumOutRef (o.at_ 2) s sm e.heap
              ⟨.ok p.1, averageRef s.segments.length p.1 (keysOf (o.at_ 3) (p.2.row p.1)) p.2, .mining s e.model⟩
          | .sum =>
            let e := sumSegmentsRef (o.at_ 1) s.head.functionName 0 (initScores s) ms r h
            match e.res with
            | .error err => ⟨.error err, e.heap, .mining s e.model⟩
            | .ok sm =>
              let p := sumOutRef (o.at_ 2) s sm e.heap
              ⟨.ok p.1, p.2, .mining s e.model⟩
          | .modelChain =>
            let e := chainSegmentsRef (o.at_ 1) 0 h.make.1 ms r h.make.2
            ⟨e.res, e.heap, .mining s e.model⟩
          | .selectFirst =>
            let e := selectFirstRef (o.at_ 1) ms r h
            ⟨e.res, e.heap, .mining s e.model⟩
          | _ => ⟨fail .unsupportedMultipleModelMethod, h, .mining s ms⟩
/-- mining.go:119-130 `evaluateMultipleModelSelectFirst` -/
def selectFirstRef (o : MapOrd) : List (EModel F) → Ref → Heap F → HEv F Ref (List (EModel F))
  | [], _, h => ⟨fail .noSegments, h, []⟩
  | m :: ms, r, h =>
    let e := EModel.evaluateRef o m r h
    ⟨e.res, e.heap, e.model :: ms⟩
/-- mining.go:132-149 `evaluateMultipleModelChain` -/
def chainSegmentsRef (o : MapOrd) (i : Nat) (lastOut : Ref) :
    List (EModel F) → Ref → Heap F → HEv F Ref (List (EModel F))
  | [], _, h => ⟨.ok lastOut, h, []⟩
  | m :: ms, r, h =>
    match copyRef lastOut r (keysOf (o.at_ (2 * i)) (h.row lastOut)) h with
    | (.error e, h) => ⟨.error e, h, m :: ms⟩
    | (.ok (), h) =>
      let e := EModel.evaluateRef (o.at_ (2 * i + 1)) m r h
      match e.res with
      | .error err => ⟨.error err, e.heap, e.model :: ms⟩
      | .ok segOut =>
        let q := chainSegmentsRef o (i + 1) segOut ms r e.heap
        ⟨q.res, q.heap, e.model :: q.model⟩
/-- mining.go:162-181: the loop of `evaluateMultipleModelSum`. -/
def sumSegmentsRef (o : MapOrd) (fn : MiningFunction) (i : Nat) (scoreMap : GoMap F) :
    List (EModel F) → Ref → Heap F → HEv F (GoMap F) (List (EModel F))
  | [], _, h => ⟨.ok scoreMap, h, []⟩
  | m :: ms, r, h =>
    let e := EModel.evaluateRef (o.at_ (2 * i)) m r h
    match e.res with
    | .error err => ⟨.error err, e.heap, e.model :: ms⟩
    | .ok segout =>
      let scoreMap := ((o.at_ (2 * i + 1)).range scoreMap).foldl (addScore fn (e.heap.row segout)) scoreMap
      let q := sumSegmentsRef o fn (i + 1) scoreMap ms r e.heap
      ⟨q.res, q.heap, e.model :: q.model⟩
end

omit [Arith F] [Lib F] [Trans F] in
/-- evaluation.go:53-59 -/
def verifyInputRef (inp : GoMap String) (entries : List (String × GoVal F)) (r : Ref) (h : Heap F) : Heap F :=
  entries.foldl (fun h kv => if kv.1 ∈ inp then h.store r kv.1 kv.2 else h) h

/-- evaluation.go:52-81: the loop over the verification rows. -/
def verifyRowsRef (o : MapOrd) (inp out : GoMap String) (i : Nat) :
    List (GoMap (GoVal F)) → EModel F → Heap F → HEv F Unit (EModel F)
  | [], m, h => ⟨.ok (), h, m⟩
  | vRow :: rows, m, h =>
    let input := h.make.1
    let h := verifyInputRef inp ((o.at_ (3 * i)).range vRow) input h.make.2
    let e := m.evaluateRef (o.at_ (3 * i + 1)) input h
    match e.res with
    | .error err => ⟨.error err, e.heap, e.model⟩
    | .ok output =>
      match verifyCompare out (e.heap.row output) ((o.at_ (3 * i + 2)).range vRow) with
      | .error err => ⟨.error err, e.heap, e.model⟩
      | .ok () => verifyRowsRef o inp out (i + 1) rows e.model e.heap

/-- evaluation.go:32-84 `verifyModel` -/
def verifyModelRef (o : MapOrd) (m : EModel F) (mv : Option (ModelVerification F)) (h : Heap F) :
    HEv F Unit (EModel F) :=
  match mv with
  | none => ⟨.ok (), h, m⟩
  | some mv =>
    match verifyMaps mv.fields ∅ ∅ with
    | .error e => ⟨.error e, h, m⟩
    | .ok (inp, out) => verifyRowsRef o inp out 0 mv.rows m h

/-- `Model.Verify` (tree.go:708-710, regression.go:61-63, mining.go:45-47). -/
def EModel.verifyRef (o : MapOrd) (m : EModel F) (h : Heap F) : HEv F Unit (EModel F) :=
  match m with
  | .tree t => verifyModelRef o m t.model.verification h
  | .regression d => verifyModelRef o m d.verification h
  | .mining s _ => verifyModelRef o m s.head.verification h

/-- What a program that holds an evaluator does between two calls it cares about. -/
inductive Act (F : Type) where
  /-- `model.Evaluate(r)` -/
  | call (o : MapOrd) (r : Ref)
  /-- `model.Verify()` -/
  | verify (o : MapOrd)
  /-- `make(DataRow)` -/
  | make
  /-- `r[k] = v` -/
  | write (r : Ref) (k : String) (v : GoVal F)
  /-- `delete(r, k)` -/
  | delete (r : Ref) (k : String)

/-- A program can only use addresses of maps that exist. -/
def Ref.Held (h : Heap F) (r : Ref) : Prop := ∀ i, r = some i → i < h.length

omit [Arith F] [Lib F] [Trans F] in
instance (h : Heap F) (r : Ref) : Decidable (Ref.Held h r) :=
  match r with
  | none => isTrue (by intro i hi; cases hi)
  | some i => decidable_of_iff (i < h.length) ⟨fun hi j hj => by cases hj; exact hi, fun hi => hi i rfl⟩

/-- One action; one with an address the program cannot have does nothing. -/
def Act.run (a : Act F) (m : EModel F) (h : Heap F) : EModel F × Heap F :=
  match a with
  | .call o r => if Ref.Held h r then ((m.evaluateRef o r h).model, (m.evaluateRef o r h).heap) else (m, h)
  | .verify o => ((m.verifyRef o h).model, (m.verifyRef o h).heap)
  | .make => (m, h.make.2)
  | .write r k v => (m, (h.put r k v).2)
  | .delete r k => (m, match r with
    | none => h
    | some i => h.modify i (·.erase k))

/-- A program. -/
def runActs : List (Act F) → EModel F → Heap F → EModel F × Heap F
  | [], m, h => (m, h)
  | a :: as, m, h => runActs as (a.run m h).1 (a.run m h).2

end Gopmml
