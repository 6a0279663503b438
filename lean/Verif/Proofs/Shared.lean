import Verif.Proofs.Document
import Verif.Proofs.Predicate

/-!
# Constants shared through the document
-/

namespace Gopmml
open Spec

variable {F : Type}

section
variable [Lib F]

mutual
theorem storePred_ok {types : FieldTypes} : (p : Pred F) → ∀ {p'}, compilePredicate types p = .ok p' →
    storePred types p = p'
  | .simple p, p', h => by simp only [storePred, h]
  | .compound op ps, p', h => by
    simp only [compilePredicate, bind_eq_ok] at h
    obtain ⟨ps', hps, h⟩ := h
    simp at h; subst h
    simp only [storePred, storePreds_ok ps hps]
  | .true_, p', h => by simp [compilePredicate] at h; subst h; simp [storePred]
  | .false_, p', h => by simp [compilePredicate] at h; subst h; simp [storePred]
  | .set _, p', h => by simp [compilePredicate] at h; subst h; simp [storePred]
theorem storePreds_ok {types : FieldTypes} : (ps : List (Pred F)) → ∀ {ps'}, compilePredicates types ps = .ok ps' →
    storePreds types ps = ps'
  | [], ps', h => by simp [compilePredicates] at h; subst h; simp [storePreds]
  | p :: ps, ps', h => by
    simp only [compilePredicates, bind_eq_ok] at h
    obtain ⟨q, hq, qs, hqs, h⟩ := h
    simp at h; subst h
    simp only [storePreds, hq, storePred_ok p hq, storePreds_ok ps hqs]
end

/-- The second list of types knows at least what the first does. -/
def Extends (types types' : FieldTypes) : Prop := ∀ (x : String) (dt : DataType), types[x]? = some dt → types'[x]? = some dt

mutual
theorem compilePredicate_extends {types types' : FieldTypes} (hx : Extends types types') : (p : Pred F) →
    ∀ {p'}, compilePredicate types p = .ok p' → compilePredicate types' p = .ok p'
  | .simple p, p', h => by
    unfold compilePredicate at h ⊢
    cases hd : types[p.field]? with
    | none => rw [hd] at h; simp at h
    | some dt => rw [hd] at h; rw [hx _ _ hd]; exact h
  | .compound op ps, p', h => by
    simp only [compilePredicate, bind_eq_ok] at h ⊢
    obtain ⟨ps', hps, h⟩ := h
    exact ⟨ps', compilePredicates_extends hx ps hps, h⟩
  | .true_, p', h => by simpa [compilePredicate] using h
  | .false_, p', h => by simpa [compilePredicate] using h
  | .set _, p', h => by simpa [compilePredicate] using h
theorem compilePredicates_extends {types types' : FieldTypes} (hx : Extends types types') : (ps : List (Pred F)) →
    ∀ {ps'}, compilePredicates types ps = .ok ps' → compilePredicates types' ps = .ok ps'
  | [], ps', h => by simpa [compilePredicates] using h
  | p :: ps, ps', h => by
    simp only [compilePredicates, bind_eq_ok] at h ⊢
    obtain ⟨q, hq, qs, hqs, h⟩ := h
    exact ⟨q, compilePredicate_extends hx p hq, qs, compilePredicates_extends hx ps hqs, h⟩
end

variable [Arith F]

mutual
theorem evalOperand_extends {types types' : FieldTypes} (hx : Extends types types') (row : Row F) :
    (p : Pred F) → ∀ {p'}, compilePredicate types p = .ok p' →
    evalOperand types' row p' = evalOperand types row p'
  | .simple p, p', h => by
    obtain ⟨dt, raw, hd, hraw, rfl⟩ := compile_simple h
    simp only [evalOperand, evalSimple]
    rw [hd, hx _ _ hd]
  | .compound op ps, p', h => by
    simp only [compilePredicate, bind_eq_ok] at h
    obtain ⟨ps', hps, h⟩ := h
    simp at h; subst h
    simp only [evalOperand]
    exact compoundLoop_extends hx row ps hps _ _ _ _
  | .true_, p', h => by simp [compilePredicate] at h; subst h; simp [evalOperand]
  | .false_, p', h => by simp [compilePredicate] at h; subst h; simp [evalOperand]
  | .set _, p', h => by simp [compilePredicate] at h; subst h; simp [evalOperand]
theorem compoundLoop_extends {types types' : FieldTypes} (hx : Extends types types') (row : Row F) :
    (ps : List (Pred F)) → ∀ {ps'}, compilePredicates types ps = .ok ps' → ∀ op len t u,
    compoundLoop types' row op len t u ps' = compoundLoop types row op len t u ps'
  | [], ps', h, op, len, t, u => by simp [compilePredicates] at h; subst h; simp [compoundLoop]
  | p :: ps, ps', h, op, len, t, u => by
    simp only [compilePredicates, bind_eq_ok] at h
    obtain ⟨q, hq, qs, hqs, h⟩ := h
    simp at h; subst h
    simp only [compoundLoop, evalOperand_extends hx row p hq, compoundLoop_extends hx row ps hqs]
end

theorem runTest_extends {types types' : FieldTypes} (hx : Extends types types') (row : Row F) {p p' : Pred F}
    (h : compilePredicate types p = .ok p') :
    runTest types' (some p') row = runTest types (some p') row := by
  have := evalOperand_extends hx row p h
  cases p' <;> simp only [runTest] <;> first | rfl | exact this

/-- The constants of a document node after it was compiled are those of the compiled node. -/
theorem sync_store {types : FieldTypes} (n : Node F) : ∀ {c : CNode F}, newNode types n = .ok c →
    syncNode (storeNode types n) c = c := by
  induction n using Node.ind with
  | h n ih =>
    intro c h
    obtain ⟨id, dc, score, rc, dists, nodes, pred⟩ := n
    obtain ⟨cs, pred', hcs, hp, rfl⟩ := newNode_ok h
    simp only [storeNode, hcs, syncNode]
    congr 1
    · cases pred with
      | none => subst hp; rfl
      | some p =>
        obtain ⟨p', hc, rfl⟩ := hp
        simp [storePred_ok p hc]
    · have hf := newNodes_forall hcs
      simp only [Node.nodes] at ih
      clear * - hf ih
      induction hf with
      | nil => simp [storeNodes, syncNodes]
      | cons h _ ih' =>
        simp only [storeNodes, h, syncNodes]
        rw [ih _ (by simp) h, ih' (fun x hx => ih x (by simp [hx]))]

theorem newNode_extends {types types' : FieldTypes} (hx : Extends types types') (n : Node F) :
    ∀ {c : CNode F}, newNode types n = .ok c → newNode types' n = .ok c := by
  induction n using Node.ind with
  | h n ih =>
    intro c h
    obtain ⟨id, dc, score, rc, dists, nodes, pred⟩ := n
    simp only [newNode, bind_eq_ok] at h ⊢
    obtain ⟨cs, hcs, h⟩ := h
    refine ⟨cs, ?_, ?_⟩
    · clear h
      simp only [Node.nodes] at ih
      have hf := newNodes_forall hcs
      clear hcs
      induction hf with
      | nil => simp [newNodes]
      | cons h _ ih' =>
        simp only [newNodes, bind_eq_ok]
        exact ⟨_, ih _ (by simp) h, _, ih' (fun x hx => ih x (by simp [hx])), rfl⟩
    · cases pred with
      | none => exact h
      | some p =>
        simp only [bind_eq_ok] at h ⊢
        obtain ⟨p', hc, h⟩ := h
        exact ⟨p', compilePredicate_extends hx p hc, h⟩

end

theorem syncSegs_round (all : List (SegDoc F)) (ms : List (EModel F)) :
    syncSegs all [] ms = syncSegs all all ms := by
  cases ms with
  | nil => simp [syncSegs]
  | cons m ms =>
    match all with
    | [] => rfl
    | .mk _ _ [] :: _ => simp [syncSegs]
    | .mk _ _ [e] :: _ => simp [syncSegs]
    | .mk _ _ (_ :: _ :: _) :: _ => simp [syncSegs]

variable [Arith F] [Lib F]

mutual
/-- Building from a document leaves in it the constants the evaluator was built with. -/
theorem sync_self {dd : List DataField} : (e : ModelElem F) → ∀ {td td' : TD F} {m : EModel F},
    newModel dd e td = (.ok m, td') → EModel.sync (storeElem dd e td) m = m
  | .tree d, td, td', m, h => by
    rw [newModel] at h
    rcases hn : newTreeModel dd td d with ⟨_ | t, tdx⟩ <;> rw [hn] at h
    · simp at h
    · simp at h; obtain ⟨rfl, rfl⟩ := h
      obtain ⟨hf, -, -, -, -, -, -, -, hr⟩ := newTreeModel_ok hn
      have hv : ((TreeModel.init dd d).validate).1 = .ok () := by
        unfold TreeModel.init TreeModel.validate
        rw [if_neg (by rcases hf with h | h <;> simp [h])]
      rcases hval : (TreeModel.init dd d).validate with ⟨r, s⟩
      rw [hval] at hv
      simp only at hv
      subst hv
      simp only [storeElem, hval, EModel.sync, sync_store d.node hr]
  | .regression d, td, td', m, h => by
    simp [newModel] at h; obtain ⟨rfl, rfl⟩ := h; simp [EModel.sync]
  | .mining hh segs, td, td', m, h => by
    rw [newModel] at h
    rcases hval : (MiningState.init dd hh segs).validate with ⟨_ | ⟨⟨⟩⟩, s⟩ <;> rw [hval] at h
    · simp at h
    · have hhead : s.head.localTransformations = hh.localTransformations := by
        unfold MiningState.validate at hval
        simp only at hval
        split_ifs at hval <;> simp [MiningState.init] at hval <;> subst hval <;> rfl
      simp only [hhead] at h
      rcases hc : compileSegments dd segs (td ++ hh.localTransformations) with ⟨_ | ⟨⟨⟩⟩, ms, tdx⟩ <;>
        rw [hc] at h
      · simp at h
      · simp at h
        obtain ⟨rfl, rfl⟩ := h
        simp only [storeElem, hval, EModel.sync]
        have := syncSegs_self segs hc (storeSegs dd segs (td ++ hh.localTransformations)) []
        simp only [List.append_nil] at this
        rw [this]
        simp [syncSegs]
  | .other k, td, td', m, h => by simp [newModel] at h
theorem syncSegs_self {dd : List DataField} : (segs : List (SegDoc F)) → ∀ {td td' : TD F} {ms : List (EModel F)},
    compileSegments dd segs td = (.ok (), ms, td') →
    ∀ all rest, syncSegs all (storeSegs dd segs td) (ms ++ rest) = ms ++ syncSegs all [] rest
  | [], td, td', ms, h, all, rest => by
    simp [compileSegments] at h; obtain ⟨rfl, rfl⟩ := h; simp [storeSegs]
  | .mk id ps [] :: segs, td, td', ms, h, all, rest => by simp [compileSegments] at h
  | .mk id ps (e :: e' :: es) :: segs, td, td', ms, h, all, rest => by simp [compileSegments] at h
  | .mk id ps [e] :: segs, td, td', ms, h, all, rest => by
    rw [compileSegments] at h
    rcases hn : newModel dd e td with ⟨_ | m, td1⟩ <;> rw [hn] at h
    · simp at h
    · simp at h
      obtain ⟨h1, rfl, h3⟩ := h
      simp only [storeSegs, hn, List.cons_append, syncSegs, sync_self e hn,
        syncSegs_self segs (Prod.ext h1 rfl) all rest]
end

/-- Rounds of evaluators built from a document see the constants they were built with. -/
theorem syncSegs_rounds {dd : List DataField} {segs : List (SegDoc F)} {td td' : TD F} {ms : List (EModel F)}
    (h : compileSegments dd segs td = (.ok (), ms, td')) (n : Nat) :
    syncSegs (storeSegs dd segs td) (storeSegs dd segs td) (List.replicate n ms).flatten =
      (List.replicate n ms).flatten := by
  induction n with
  | zero => simp [syncSegs]
  | succ n ih =>
    rw [List.replicate_succ, List.flatten_cons, syncSegs_self segs h, syncSegs_round, ih]

end Gopmml
