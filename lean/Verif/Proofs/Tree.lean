import Verif.Proofs.Maps
import Verif.Proofs.Predicate
import Verif.Spec.Tree

/-!
# Trees: from documents to compiled nodes
-/

namespace Gopmml
open Spec

variable {F : Type}

theorem findTarget_eq (fs : List MiningField) :
    findTarget "" (fs.map MiningField.withDefaults) = targetOf fs := by
  have h : ∀ init, findTarget init (fs.map MiningField.withDefaults) = findTarget init fs := by
    unfold findTarget
    induction fs with
    | nil => intro _; rfl
    | cons f fs ih =>
      intro init
      simp only [List.map_cons, List.foldl_cons, ih]
      congr 1
      unfold MiningField.withDefaults
      by_cases hf : f.usageType = .other "" <;> simp [hf]
  rw [h]
  unfold findTarget targetOf
  have := foldl_last (fun f : MiningField => decide (f.usageType = .target)) (·.name) fs ""
  simp only [decide_eq_true_eq] at this
  rw [this]
  cases (fs.filter (fun f => decide (f.usageType = .target))).getLast? <;> rfl

theorem findTarget_twice (init : String) (fs : List MiningField) :
    findTarget (findTarget init fs) fs = findTarget init fs := by
  unfold findTarget
  have := fun init => foldl_last (fun f : MiningField => decide (f.usageType = .target)) (·.name) fs init
  simp only [decide_eq_true_eq] at this
  rw [this, this]
  cases (fs.filter (fun f => decide (f.usageType = .target))).getLast? <;> rfl

theorem buildTypes_getElem? (dd : List DataField) (td : TD F) (x : String) :
    (buildTypes dd td)[x]? = declaredType dd td x := by
  unfold buildTypes declaredType
  rw [foldl_insert_getElem? (fun f : DerivedField F => f.name), foldl_insert_getElem? (fun f : DataField => f.name)]
  cases (td.filter (fun f => decide (f.name = x))).getLast? with
  | some f => rfl
  | none =>
    cases (dd.filter (fun f => decide (f.name = x))).getLast? with
    | some f => rfl
    | none => simp

variable [Arith F]

theorem compileDists_eq (dists : List (ScoreDistribution F)) :
    compileDists dists = declaredDist dists := by
  unfold compileDists declaredDist
  simp only [List.foldl_map]
  congr 1

theorem declaredDist_ne_nil {dists : List (ScoreDistribution F)} :
    declaredDist dists ≠ [] ↔ dists ≠ [] := by
  simp [declaredDist]

/-- What a document says about the context of evaluation. -/
def docCtx (dd : List DataField) (td : TD F) (d : TreeDoc F) : TreeCtx F where
  strategy := d.missingValueStrategy
  noTrueChild := d.noTrueChildStrategy
  penalty := d.missingValuePenalty
  targetField := targetOf d.miningFields
  dd := dd
  types := treeTypes dd td d

theorem targetDist_eq (dd : List DataField) (td : TD F) (d : TreeDoc F) (score : String) (rc a b : F) :
    targetDist (docCtx dd td d) ⟨score, a, b, rc⟩ =
      oneHot (targetValues dd (targetOf d.miningFields)) score rc := by
  unfold targetDist oneHot targetValues docCtx
  simp only
  induction dd with
  | nil => rfl
  | cons f fs ih =>
    rw [List.flatMap_cons, ih]
    by_cases h : f.name = targetOf d.miningFields
    · simp only [h, if_true, decide_true, List.filter_cons_of_pos, List.flatMap_cons, List.map_append]
      congr 1
      congr 1
      funext v
      split_ifs <;> rfl
    · simp [h]

variable [Lib F]

theorem newNodes_forall {types : FieldTypes} {ns : List (Node F)} {cs : List (CNode F)}
    (h : newNodes types ns = .ok cs) :
    List.Forall₂ (fun n cn => newNode types n = .ok cn) ns cs := by
  induction ns generalizing cs with
  | nil => simp [newNodes] at h; subst h; exact .nil
  | cons n ns ih =>
    simp only [newNodes, bind_eq_ok] at h
    obtain ⟨cn, hn, cs', hcs, h⟩ := h
    simp at h; subst h
    exact .cons hn (ih hcs)

/-- What `newNode` returns on success. -/
theorem newNode_ok {types : FieldTypes} {id dc score : String} {rc : F}
    {dists : List (ScoreDistribution F)} {nodes : List (Node F)} {pred : Option (Pred F)} {cn : CNode F}
    (h : newNode types (.mk id dc score rc dists nodes pred) = .ok cn) :
    ∃ cs pred', newNodes types nodes = .ok cs ∧
      (match pred with
        | none => pred' = none
        | some p => ∃ p', compilePredicate types p = .ok p' ∧ pred' = some p') ∧
      cn = .mk id dc (declaredDist dists) ⟨score, Arith.zero, Arith.zero, rc⟩ pred' cs := by
  simp only [newNode, bind_eq_ok] at h
  obtain ⟨cs, hcs, h⟩ := h
  cases pred with
  | none =>
    simp only [res_pure, res_bind_ok, Except.ok.injEq, compileDists_eq] at h
    exact ⟨cs, none, hcs, rfl, h.symm⟩
  | some p =>
    simp only [bind_eq_ok] at h
    obtain ⟨p', hp', h⟩ := h
    simp only [res_pure, Except.ok.injEq, compileDists_eq, exists_eq_left'] at h
    exact ⟨cs, some p', hcs, ⟨p', hp', rfl⟩, h.symm⟩

/-- What `NewTreeModel` returns on success. -/
theorem newTreeModel_ok {dd : List DataField} {td td' : TD F} {d : TreeDoc F} {m : TreeModel F}
    (h : newTreeModel dd td d = (.ok m, td')) :
    (d.functionName = .classification ∨ d.functionName = .regression) ∧
    td' = td ++ d.localTransformations ∧
    m.validated = true ∧ m.compiled = true ∧ m.outKeys = ∅ ∧
    m.model = { d with miningFields := d.miningFields.map MiningField.withDefaults } ∧
    m.targetField = targetOf d.miningFields ∧
    m.ctx = docCtx dd td d ∧
    newNode (treeTypes dd td d) d.node = .ok m.root := by
  unfold newTreeModel TreeModel.init TreeModel.validate at h
  by_cases hf : d.functionName ≠ .classification ∧ d.functionName ≠ .regression
  · rw [if_pos hf] at h; simp at h
  · simp only [hf, if_false, TreeModel.compile] at h
    rw [findTarget_eq] at h
    cases hn : newNode (buildTypes dd (td ++ d.localTransformations)) d.node with
    | error e => rw [hn] at h; simp at h
    | ok root =>
      rw [hn] at h
      simp only [Prod.mk.injEq, Except.ok.injEq] at h
      obtain ⟨rfl, rfl⟩ := h
      refine ⟨?_, rfl, rfl, rfl, rfl, rfl, rfl, rfl, rfl⟩
      by_cases h1 : d.functionName = .classification
      · exact .inl h1
      · right; by_contra h2; exact hf ⟨h1, h2⟩

omit [Arith F] [Lib F] in
theorem allPreds_child {n c : Node F} (h : AllPreds n) (hc : c ∈ n.nodes) : AllPreds c :=
  fun r hr => h r (.child hc hr)

/-- A compiled node's own distribution. -/
theorem outputScoreDist_eq {dd : List DataField} {td : TD F} {d : TreeDoc F} {n : Node F} {cn : CNode F}
    (h : newNode (treeTypes dd td d) n = .ok cn) :
    outputScoreDist (docCtx dd td d) cn = ownDist dd d n := by
  obtain ⟨id, dc, score, rc, dists, nodes, pred⟩ := n
  obtain ⟨cs, pred', hcs, -, rfl⟩ := newNode_ok h
  have hl := (newNodes_forall hcs).length_eq
  have he : cs ≠ [] ↔ nodes ≠ [] := by
    cases cs <;> cases nodes <;> simp_all
  unfold outputScoreDist ownDist
  simp only [CNode.children, CNode.scoreDist, CNode.score, Node.nodes, Node.dists, Node.score,
    Node.recordCount, he, declaredDist_ne_nil, targetDist_eq]
  rfl

/-- A compiled node's test. -/
theorem nodeTest_eq {dd : List DataField} {td : TD F} {d : TreeDoc F} {n : Node F} {cn : CNode F}
    (h : newNode (treeTypes dd td d) n = .ok cn) (hp : ∃ p, n.pred = some p) (row : Row F) :
    runTest (docCtx dd td d).types cn.pred row = .ok (nodeTest (treeTypes dd td d) row n) := by
  obtain ⟨id, dc, score, rc, dists, nodes, pred⟩ := n
  obtain ⟨p, hp⟩ := hp
  simp only [Node.pred] at hp
  subst hp
  obtain ⟨cs, pred', hcs, ⟨p', hc, rfl⟩, rfl⟩ := newNode_ok h
  simp only [CNode.pred, nodeTest, Node.pred]
  exact runTest_spec row hc

end Gopmml
