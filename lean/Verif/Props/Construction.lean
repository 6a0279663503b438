import Verif.Proofs.TreeEval
import Verif.Model.Replay

/-!
# Properties C08–C11: constructing, validating and recompiling trees
-/

namespace Gopmml.Props
open Gopmml Spec

variable {F : Type} [Arith F] [Lib F]

section
omit [Arith F]

theorem getRawValue_isOk {dt : DataType} {s : String} :
    (∃ v, getRawValue (F := F) dt s = .ok v) ↔ ConstOk (F := F) dt s := by
  unfold getRawValue ConstOk
  cases dt with
  | boolean => cases h : parseBool s <;> simp
  | double => cases h : Lib.parseFloat (F := F) s <;> simp
  | float => cases h : Lib.parseFloat (F := F) s <;> simp
  | integer => cases h : parseInt s <;> simp
  | string => simp
  | other s => simp

theorem getRawValue_no_panic {dt : DataType} {s : String} {p : Panic} :
    getRawValue (F := F) dt s ≠ panic p := by
  unfold getRawValue
  cases dt with
  | boolean => cases h : parseBool s <;> simp
  | double => cases h : Lib.parseFloat (F := F) s <;> simp
  | float => cases h : Lib.parseFloat (F := F) s <;> simp
  | integer => cases h : parseInt s <;> simp
  | string => simp
  | other s => simp

theorem bind_no_panic {α β : Type} {x : Res α} {f : α → Res β} {p : Panic}
    (hx : x ≠ panic p) (hf : ∀ a, f a ≠ panic p) : (x >>= f) ≠ panic p := by
  cases x with
  | error e => simpa using hx
  | ok a => simpa using hf a

mutual
theorem compilePredicate_ok_iff {types : FieldTypes} : (p : Pred F) →
    ((∃ p', compilePredicate types p = .ok p') ↔
      ∀ s ∈ simples p, ∃ dt, types[s.field]? = some dt ∧ ConstOk (F := F) dt s.value)
  | .true_ => by simp [compilePredicate, simples]
  | .false_ => by simp [compilePredicate, simples]
  | .set _ => by simp [compilePredicate, simples]
  | .simple s => by
    simp only [simples, List.mem_singleton, forall_eq]
    constructor
    · rintro ⟨p', h⟩
      obtain ⟨dt, raw, hd, hraw, -⟩ := compile_simple h
      exact ⟨dt, hd, getRawValue_isOk.mp ⟨raw, hraw⟩⟩
    · rintro ⟨dt, hd, hc⟩
      obtain ⟨raw, hraw⟩ := getRawValue_isOk.mpr hc
      exact ⟨.simple { s with raw := raw }, by simp [compilePredicate, hd, hraw]⟩
  | .compound op ps => by
    simp only [simples]
    rw [← compilePredicates_iff_simples ps]
    constructor
    · rintro ⟨p', h⟩
      simp only [compilePredicate, bind_eq_ok] at h
      obtain ⟨ps', h, -⟩ := h
      exact ⟨ps', h⟩
    · rintro ⟨ps', h⟩
      exact ⟨.compound op ps', by simp [compilePredicate, h]⟩
theorem compilePredicates_iff_simples {types : FieldTypes} : (ps : List (Pred F)) →
    ((∃ ps', compilePredicates types ps = .ok ps') ↔
      ∀ s ∈ simples.simpless ps, ∃ dt, types[s.field]? = some dt ∧ ConstOk (F := F) dt s.value)
  | [] => by simp [compilePredicates, simples.simpless]
  | p :: ps => by
    simp only [simples.simpless, List.mem_append, or_imp, forall_and]
    rw [← compilePredicate_ok_iff p, ← compilePredicates_iff_simples ps]
    constructor
    · rintro ⟨ps', h⟩
      simp only [compilePredicates, bind_eq_ok] at h
      obtain ⟨p', hp, qs, hqs, -⟩ := h
      exact ⟨⟨p', hp⟩, qs, hqs⟩
    · rintro ⟨⟨p', hp⟩, qs, hqs⟩
      exact ⟨p' :: qs, by simp [compilePredicates, hp, hqs]⟩
end

mutual
theorem compilePredicate_no_panic {types : FieldTypes} {q : Panic} : (p : Pred F) →
    compilePredicate types p ≠ panic q
  | .true_ => by simp [compilePredicate]
  | .false_ => by simp [compilePredicate]
  | .set _ => by simp [compilePredicate]
  | .simple s => by
    unfold compilePredicate
    split
    · simp
    · exact bind_no_panic getRawValue_no_panic (by simp)
  | .compound op ps => by
    simp only [compilePredicate]
    exact bind_no_panic (compilePredicates_no_panic ps) (by simp)
theorem compilePredicates_no_panic {types : FieldTypes} {q : Panic} : (ps : List (Pred F)) →
    compilePredicates types ps ≠ panic q
  | [] => by simp [compilePredicates]
  | p :: ps => by
    simp only [compilePredicates]
    exact bind_no_panic (compilePredicate_no_panic p)
      (fun _ => bind_no_panic (compilePredicates_no_panic ps) (by simp))
end
end

/-- Every predicate below `n` is well-formed. -/
def TreeOk (types : FieldTypes) (n : Node F) : Prop :=
  ∀ r, Sub r n → ∀ q, r.pred = some q → ∀ s ∈ simples q,
    ∃ dt, types[s.field]? = some dt ∧ ConstOk (F := F) dt s.value

omit [Arith F] in
theorem treeOk_mk {types : FieldTypes} {n : Node F} :
    TreeOk types n ↔ (∀ q, n.pred = some q → ∀ s ∈ simples q,
      ∃ dt, types[s.field]? = some dt ∧ ConstOk (F := F) dt s.value) ∧ ∀ c ∈ n.nodes, TreeOk types c := by
  constructor
  · intro h
    exact ⟨fun q hq => h n .refl q hq, fun c hc r hr => h r (.child hc hr)⟩
  · rintro ⟨h1, h2⟩ r hr
    cases hr with
    | refl => exact h1
    | child hc hr => exact h2 _ hc r hr

mutual
theorem newNode_ok_iff {types : FieldTypes} : (n : Node F) →
    ((∃ cn, newNode types n = .ok cn) ↔ TreeOk types n)
  | .mk id dc score rc dists nodes pred => by
    rw [treeOk_mk]
    simp only [Node.pred, Node.nodes]
    rw [← newNodes_ok_iff nodes]
    constructor
    · rintro ⟨cn, h⟩
      obtain ⟨cs, pred', hcs, hp, -⟩ := newNode_ok h
      refine ⟨?_, cs, hcs⟩
      rintro q rfl
      obtain ⟨p', hp', -⟩ := hp
      exact (compilePredicate_ok_iff q).mp ⟨p', hp'⟩
    · rintro ⟨hp, cs, hcs⟩
      cases pred with
      | none => exact ⟨_, by simp only [newNode, hcs, res_bind_ok]; rfl⟩
      | some q =>
        obtain ⟨p', hp'⟩ := (compilePredicate_ok_iff q).mpr (hp q rfl)
        exact ⟨_, by simp only [newNode, hcs, res_bind_ok, hp', res_pure]; rfl⟩
theorem newNodes_ok_iff {types : FieldTypes} : (ns : List (Node F)) →
    ((∃ cs, newNodes types ns = .ok cs) ↔ ∀ c ∈ ns, TreeOk types c)
  | [] => by simp [newNodes]
  | n :: ns => by
    simp only [List.forall_mem_cons]
    rw [← newNode_ok_iff n, ← newNodes_ok_iff ns]
    constructor
    · rintro ⟨ps', h⟩
      simp only [newNodes, bind_eq_ok] at h
      obtain ⟨p', hp, qs, hqs, -⟩ := h
      exact ⟨⟨p', hp⟩, qs, hqs⟩
    · rintro ⟨⟨p', hp⟩, qs, hqs⟩
      exact ⟨p' :: qs, by simp [newNodes, hp, hqs]⟩
end

mutual
theorem newNode_no_panic {types : FieldTypes} {q : Panic} : (n : Node F) → newNode types n ≠ panic q
  | .mk id dc score rc dists nodes pred => by
    simp only [newNode]
    refine bind_no_panic (newNodes_no_panic nodes) (fun cs => ?_)
    cases pred with
    | none => simp
    | some p => exact bind_no_panic (compilePredicate_no_panic p) (by simp)
theorem newNodes_no_panic {types : FieldTypes} {q : Panic} : (ns : List (Node F)) →
    newNodes types ns ≠ panic q
  | [] => by simp [newNodes]
  | n :: ns => by
    simp only [newNodes]
    exact bind_no_panic (newNode_no_panic n)
      (fun _ => bind_no_panic (newNodes_no_panic ns) (by simp))
end

/-- A document `NewTreeModel` is meant to accept: a supported mining function, and every
simple predicate anywhere in the tree names a declared field and has a constant that
parses at its type. -/
def AcceptableTree (dd : List DataField) (td : TD F) (d : TreeDoc F) : Prop :=
  (d.functionName = .classification ∨ d.functionName = .regression) ∧
  ∀ r, Sub r d.node → ∀ q, r.pred = some q → ∀ s ∈ simples q,
    ∃ dt, declaredType dd (td ++ d.localTransformations) s.field = some dt ∧
      ConstOk (F := F) dt s.value

/-- **C08**: construction succeeds exactly on acceptable documents, and otherwise returns
an error: it never panics. -/
theorem C08_construction (dd : List DataField) (td : TD F) (d : TreeDoc F) :
    ((∃ m td', newTreeModel dd td d = (.ok m, td')) ↔ AcceptableTree dd td d) ∧
    (¬ AcceptableTree dd td d → ∃ e td', newTreeModel dd td d = (fail e, td')) ∧
    (∀ p, (newTreeModel dd td d).1 ≠ panic p) := by
  have hiff : (∃ m td', newTreeModel dd td d = (.ok m, td')) ↔ AcceptableTree dd td d := by
    have hty : TreeOk (treeTypes dd td d) d.node ↔
        ∀ r, Sub r d.node → ∀ q, r.pred = some q → ∀ s ∈ simples q,
          ∃ dt, declaredType dd (td ++ d.localTransformations) s.field = some dt ∧
            ConstOk (F := F) dt s.value := by
      unfold TreeOk
      simp only [buildTypes_getElem?]
    unfold AcceptableTree
    rw [← hty, ← newNode_ok_iff d.node]
    constructor
    · rintro ⟨m, td', h⟩
      obtain ⟨hf, -, -, -, -, -, -, -, hn⟩ := newTreeModel_ok h
      exact ⟨hf, m.root, hn⟩
    · rintro ⟨hf, cn, hn⟩
      have hf' : ¬ (d.functionName ≠ .classification ∧ d.functionName ≠ .regression) := by
        rcases hf with h | h <;> simp [h]
      simp only [newTreeModel, TreeModel.init, TreeModel.validate, hf', if_false, TreeModel.compile, hn]
      exact ⟨_, _, rfl⟩
  have hnp : ∀ p, (newTreeModel dd td d).1 ≠ panic p := by
    intro p
    unfold newTreeModel TreeModel.init TreeModel.validate
    by_cases hf : d.functionName ≠ .classification ∧ d.functionName ≠ .regression
    · rw [if_pos hf]; simp
    · simp only [hf, if_false, TreeModel.compile]
      have := newNode_no_panic (types := buildTypes dd (td ++ d.localTransformations)) (q := p) d.node
      cases hn : newNode (buildTypes dd (td ++ d.localTransformations)) d.node with
      | error e => rw [hn] at this; simpa [hn] using this
      | ok r => simp
  refine ⟨hiff, ?_, hnp⟩
  intro hna
  rcases hr : newTreeModel dd td d with ⟨r, td'⟩
  cases r with
  | ok m => exact absurd (hiff.mp ⟨m, td', hr⟩) hna
  | error f =>
    cases f with
    | err e => exact ⟨e, td', rfl⟩
    | panic p => exact absurd (by rw [hr]) (hnp p)

-- C08: the golf tree is accepted; an unknown field deep inside a compound is rejected.
example : (newTreeModel Replay.dd [] (Replay.doc .none "1" Replay.golfNormal)).1.isOk ∧
    (newTreeModel Replay.dd [] (Replay.doc .none "1"
      (.mk "" "" "x" (Replay.num "0") [] [] (some (.compound .or [.compound .and
        [Replay.sp "humidty" .lessThan "80"]]))))).1 matches .error (.err (.unknownFieldType _)) := by
  decide +kernel

mutual
theorem evalWeighted_ok {dd : List DataField} {td : TD F} {d : TreeDoc F} (row : Row F) (o : MapOrd) :
    (n : Node F) → {cn : CNode F} → newNode (treeTypes dd td d) n = .ok cn → AllPreds n →
    ∃ a, evalWeighted (docCtx dd td d) row o cn = .ok a
  | .mk id dc score rc dists nodes pred, cn, h, hp => by
    have ht := nodeTest_eq h (hp _ .refl) row
    obtain ⟨cs, pred', hcs, -, rfl⟩ := newNode_ok h
    obtain ⟨rs, hch⟩ := evalWeightedChildren_ok row o 2 nodes hcs (fun c hc => allPreds_child hp hc)
    simp only [CNode.pred] at ht
    simp only [evalWeighted, ht, res_bind_ok, hch, res_pure]
    split_ifs <;> exact ⟨_, rfl⟩
theorem evalWeightedChildren_ok {dd : List DataField} {td : TD F} {d : TreeDoc F} (row : Row F)
    (o : MapOrd) (i : Nat) : (ns : List (Node F)) → {cs : List (CNode F)} →
    newNodes (treeTypes dd td d) ns = .ok cs → (∀ c ∈ ns, AllPreds c) →
    ∃ rs, evalWeightedChildren (docCtx dd td d) row o i cs = .ok rs
  | [], cs, h, _ => by
    simp [newNodes] at h; subst h
    exact ⟨[], by simp [evalWeightedChildren]⟩
  | n :: ns, cs, h, hp => by
    simp only [newNodes, bind_eq_ok] at h
    obtain ⟨cn, hn, cs', hcs, h⟩ := h
    simp at h; subst h
    obtain ⟨a, ha⟩ := evalWeighted_ok row (o.at_ i) n hn (hp n (by simp))
    obtain ⟨as, has⟩ := evalWeightedChildren_ok row o (i + 1) ns hcs (fun c hc => hp c (by simp [hc]))
    exact ⟨a :: as, by simp [evalWeightedChildren, ha, has]⟩
end

mutual
theorem evalAggregate_ok {dd : List DataField} {td : TD F} {d : TreeDoc F} (row : Row F) (o : MapOrd) :
    (n : Node F) → {cn : CNode F} → newNode (treeTypes dd td d) n = .ok cn → AllPreds n →
    ∃ a, evalAggregate (docCtx dd td d) row o cn = .ok a
  | .mk id dc score rc dists nodes pred, cn, h, hp => by
    have ht := nodeTest_eq h (hp _ .refl) row
    obtain ⟨cs, pred', hcs, -, rfl⟩ := newNode_ok h
    obtain ⟨rs, hch⟩ := evalAggregateChildren_ok row o 1 nodes hcs (fun c hc => allPreds_child hp hc)
    simp only [CNode.pred] at ht
    simp only [evalAggregate, ht, res_bind_ok, hch, res_pure]
    split_ifs <;> exact ⟨_, rfl⟩
theorem evalAggregateChildren_ok {dd : List DataField} {td : TD F} {d : TreeDoc F} (row : Row F)
    (o : MapOrd) (i : Nat) : (ns : List (Node F)) → {cs : List (CNode F)} →
    newNodes (treeTypes dd td d) ns = .ok cs → (∀ c ∈ ns, AllPreds c) →
    ∃ rs, evalAggregateChildren (docCtx dd td d) row o i cs = .ok rs
  | [], cs, h, _ => by
    simp [newNodes] at h; subst h
    exact ⟨[], by simp [evalAggregateChildren]⟩
  | n :: ns, cs, h, hp => by
    simp only [newNodes, bind_eq_ok] at h
    obtain ⟨cn, hn, cs', hcs, h⟩ := h
    simp at h; subst h
    obtain ⟨a, ha⟩ := evalAggregate_ok row (o.at_ i) n hn (hp n (by simp))
    obtain ⟨as, has⟩ := evalAggregateChildren_ok row o (i + 1) ns hcs (fun c hc => hp c (by simp [hc]))
    exact ⟨a :: as, by simp [evalAggregateChildren, ha, has]⟩
end

theorem evalNode_ok {dd : List DataField} {td : TD F} {d : TreeDoc F} (row : Row F) (o : MapOrd)
    {n : Node F} {cn : CNode F} (h : newNode (treeTypes dd td d) n = .ok cn) (hp : AllPreds n) :
    ∃ a, evalNode (docCtx dd td d) o row cn = .ok a := by
  have hnone : ∃ a, evalNone (docCtx dd td d) row cn = .ok a := by
    by_cases hT : nodeTest (treeTypes dd td d) row n = .t
    · obtain ⟨r, -, he⟩ := (evalNone_spec row n h hp).2 hT
      exact ⟨_, he⟩
    · exact ⟨_, (evalNone_spec row n h hp).1 hT⟩
  unfold evalNode
  split
  · by_cases hT : nodeTest (treeTypes dd td d) row n = .f
    · exact ⟨_, (evalNull_spec row n h hp).1 hT⟩
    · rcases (evalNull_spec row n h hp).2 hT with ⟨-, he⟩ | ⟨-, r, -, he⟩
      · exact ⟨_, he⟩
      · exact ⟨_, he⟩
  · exact evalAggregate_ok row o n h hp
  · exact evalWeighted_ok row o n h hp
  · exact ⟨_, evalDefault_spec row n h hp⟩
  · exact ⟨_, evalLast_spec row n h hp⟩
  · exact hnone
  · exact hnone

/-- **C09**: on a constructed tree whose nodes all carry predicates, the descent always
succeeds: under every strategy, row and map order, Evaluate never raises a type-assertion
or nil-function panic.  (Two other panics exist and are the subject of C22 and C41: an
empty answering distribution of a regression tree, and derived fields on a nil row.) -/
theorem C09_descent_never_panics {dd : List DataField} {td td' : TD F} {d : TreeDoc F}
    {m : TreeModel F} (h : newTreeModel dd td d = (.ok m, td')) (hp : AllPreds d.node)
    {row row' : Row F} (hi : handleInput d.localTransformations row = (.ok (), row')) (o : MapOrd) :
    (∃ a, (m.evaluate o row).res = report d.functionName (targetOf d.miningFields) a) ∧
    (m.evaluate o row).res ≠ panic .typeAssertion ∧
    (m.evaluate o row).res ≠ panic .nilFuncCall := by
  have hn := (newTreeModel_ok h).2.2.2.2.2.2.2.2
  obtain ⟨a, ha⟩ := evalNode_ok row' o hn hp
  have he := constructed_evaluate h hi o
  rw [ha] at he
  simp only at he
  refine ⟨⟨a, he⟩, ?_, ?_⟩ <;> rw [he] <;> unfold report <;> split_ifs <;> (try simp) <;>
    split <;> (try simp) <;> split <;> simp

/-- The premise of C09 is needed: a node without a predicate is accepted and panics. -/
theorem C09_nil_predicate_panics :
    ∃ (dd : List DataField) (d : TreeDoc F64) (m : TreeModel F64) (td' : TD F64) (row : Row F64),
      newTreeModel dd [] d = (.ok m, td') ∧ (m.evaluate .sorted row).res = panic .nilFuncCall := by
  have hacc : AcceptableTree Replay.dd [] (Replay.doc .none "1" (.mk "" "" "x" (Replay.num "0") [] [] none)) := by
    refine ⟨.inl rfl, ?_⟩
    intro r hr q hq
    cases hr with
    | refl => simp [Replay.doc, Node.pred] at hq
    | child hc _ => simp [Replay.doc, Node.nodes] at hc
  obtain ⟨m, td', h⟩ := (C08_construction _ _ _).1.mpr hacc
  refine ⟨_, _, m, td', some ∅, h, ?_⟩
  have hn := (newTreeModel_ok h).2.2.2.2.2.2.2.2
  have he := constructed_evaluate h (row := some ∅) (row' := some ∅) (by simp [Replay.doc, handleInput]) .sorted
  obtain ⟨cs, pred', hcs, hp, hroot⟩ := newNode_ok hn
  simp only at hp
  subst hp
  rw [he, hroot]
  simp [evalNode, docCtx, Replay.doc, evalNone, runTest]

-- C09: all nodes of the golf tree carry predicates and it predicts.
example : (Replay.run (Replay.doc .aggregateNodes "1" Replay.golfCounts) []).isOk := by decide +kernel

omit [Arith F] [Lib F] in
/-- **C10**: Validate is idempotent, and it changes no name, target role, replacement
value, number or order of the mining fields, nor anything else of the document. -/
theorem C10_validate (m : TreeModel F) :
    m.validate.2.validate = (m.validate.1, m.validate.2) ∧
    m.validate.2.model.miningFields.map (fun f => (f.name, decide (f.usageType = .target), f.missingValueReplacement))
      = m.model.miningFields.map (fun f => (f.name, decide (f.usageType = .target), f.missingValueReplacement)) ∧
    m.validate.2.model = { m.model with miningFields := m.validate.2.model.miningFields } ∧
    m.validate.2 = { m with model := m.validate.2.model, validated := m.validate.2.validated } ∧
    (m.validate.1 = .ok () → m.validate.2.validated = true) := by
  have hidem : ∀ f : MiningField, f.withDefaults.withDefaults = f.withDefaults := by
    intro f
    unfold MiningField.withDefaults
    by_cases h1 : f.usageType = .other "" <;> by_cases h2 : f.outliers = "" <;>
      by_cases h3 : f.invalidValueTreatment = "" <;> simp [h1, h2, h3]
  unfold TreeModel.validate
  by_cases hf : m.model.functionName ≠ .classification ∧ m.model.functionName ≠ .regression
  · simp [hf]
  · simp only [hf, if_false, List.map_map]
    refine ⟨?_, ?_, by simp⟩
    · congr 3
      apply List.map_congr_left
      intro f _
      exact hidem f
    · apply List.map_congr_left
      intro f _
      unfold MiningField.withDefaults
      by_cases h1 : f.usageType = .other "" <;> simp [h1]

example : (TreeModel.init Replay.dd (Replay.doc .none "1" Replay.golfNormal)).validate.1.isOk ∧
    (TreeModel.init Replay.dd (Replay.doc .none "1" Replay.golfNormal)).validate.2.model.miningFields ≠
    (Replay.doc .none "1" Replay.golfNormal).miningFields := by decide +kernel

/-- Compile called `n` more times with the shared dictionary. -/
def recompile (m : TreeModel F) (td : TD F) : Nat → Res Unit × TreeModel F × TD F
  | 0 => (.ok (), m, td)
  | n + 1 =>
    match recompile m td n with
    | (.ok (), m', td') => m'.compile td'
    | r => r

/-- **C11**: recompiling a constructed tree any number of times succeeds and gives back
the very same evaluator (hence the same predictions), while the shared dictionary grows
by another copy of the local transformations each time. -/
theorem C11_recompile {dd : List DataField} {td td' : TD F} {d : TreeDoc F} {m : TreeModel F}
    (h : newTreeModel dd td d = (.ok m, td')) (n : Nat) :
    recompile m td' n =
      (.ok (), m, td ++ (List.replicate (n + 1) d.localTransformations).flatten) := by
  obtain ⟨hf, rfl, hv, hc, hk, hm, ht, hx, hn⟩ := newTreeModel_ok h
  have hdd : m.dd = dd := congrArg TreeCtx.dd hx
  have hty : m.fieldTypes = treeTypes dd td d := congrArg TreeCtx.types hx
  induction n with
  | zero => simp [recompile]
  | succ n ih =>
    simp only [recompile, ih]
    have htypes : buildTypes dd (td ++ (List.replicate (n + 1) d.localTransformations).flatten ++
        d.localTransformations) = treeTypes dd td d := by
      apply Std.ExtTreeMap.ext_getElem?
      intro x
      rw [buildTypes_getElem?, buildTypes_getElem?]
      unfold declaredType
      rw [List.filter_append, List.filter_append, List.filter_append]
      have hrep : (List.replicate (n + 1) d.localTransformations).flatten.filter (fun f => decide (f.name = x))
          = (List.replicate (n + 1) (d.localTransformations.filter (fun f => decide (f.name = x)))).flatten := by
        simp [List.filter_flatten]
      rw [hrep]
      cases hl : d.localTransformations.filter (fun f => decide (f.name = x)) with
      | nil =>
        have : (List.replicate (n + 1) ([] : List (DerivedField F))).flatten = [] := by simp
        simp [this]
      | cons a l => simp [List.getLast?_append]
    have htgt : findTarget m.targetField m.model.miningFields = m.targetField := by
      rw [ht, hm, ← findTarget_eq]
      exact findTarget_twice _ _
    unfold TreeModel.compile
    have hnode : m.model.node = d.node := by rw [hm]
    have hlt : m.model.localTransformations = d.localTransformations := by rw [hm]
    simp only [hdd, hlt, htypes, htgt, hnode, hn]
    refine congrArg₂ Prod.mk rfl (congrArg₂ Prod.mk ?_ ?_)
    · rw [← hty]
      cases m
      simp_all
    · rw [List.append_assoc]
      congr 1
      rw [List.replicate_succ' (n := n + 1)]
      simp

/-- C11, in terms of predictions. -/
theorem C11_predictions {dd : List DataField} {td td' td'' : TD F} {d : TreeDoc F} {m m' : TreeModel F}
    (h : newTreeModel dd td d = (.ok m, td')) {n : Nat} {r : Res Unit}
    (hr : recompile m td' n = (r, m', td'')) (o : MapOrd) (row : Row F) :
    r = .ok () ∧ m'.evaluate o row = m.evaluate o row := by
  rw [C11_recompile h n] at hr
  simp only [Prod.mk.injEq] at hr
  obtain ⟨rfl, rfl, -⟩ := hr
  exact ⟨rfl, rfl⟩

-- C11: a constructed tree with a local transformation, recompiled twice.
example :
    let d : TreeDoc F64 := { Replay.doc .none "1" Replay.golfNormal with
      localTransformations := [⟨"t2", .double, .continuous, .apply "+" [.fieldRef "temperature", .fieldRef "humidity"]⟩] }
    (match newTreeModel Replay.dd [] d with
    | (.ok m, td') => (recompile m td' 2).1.isOk && (recompile m td' 2).2.2.length == 3
    | _ => false) = true := by decide +kernel

end Gopmml.Props
