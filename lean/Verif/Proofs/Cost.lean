import Verif.Spec.Cost
import Verif.Proofs.SharedWorld

/-!
# How many accesses a call makes
-/

namespace Gopmml
open Spec

variable {F α β : Type}

/-- With `n` accesses the program ends, whatever it finds in memory, and `Q` is true of what is left of `n` and
of what it returns. -/
def Lasts (Q : Nat → α → Prop) : DocProg F α → Nat → Prop
  | .done a, n => Q n a
  | .read k, n => ∃ m, n = m + 1 ∧ ∀ td, Lasts Q (k td) m
  | .write _ k, n => ∃ m, n = m + 1 ∧ Lasts Q k m
  | .store _ k, n => ∃ m, n = m + 1 ∧ Lasts Q k m
  | .const _ _ k, n => ∃ m, n = m + 1 ∧ Lasts Q k m
  | .look _ k, n => ∃ m, n = m + 1 ∧ ∀ v, Lasts Q (k v) m

theorem Lasts.bind {Q : Nat → α → Prop} {Q' : Nat → β → Prop} {p : DocProg F α} {f : α → DocProg F β} {n : Nat}
    (h : Lasts Q p n) (h' : ∀ r a, Q r a → Lasts Q' (f a) r) : Lasts Q' (p.bind f) n := by
  induction p generalizing n with
  | done a => exact h' n a h
  | read k ih => obtain ⟨m, e, h⟩ := h; exact ⟨m, e, fun td => ih td (h td)⟩
  | write td k ih => obtain ⟨m, e, h⟩ := h; exact ⟨m, e, ih h⟩
  | store c k ih => obtain ⟨m, e, h⟩ := h; exact ⟨m, e, ih h⟩
  | const l v k ih => obtain ⟨m, e, h⟩ := h; exact ⟨m, e, ih h⟩
  | look l k ih => obtain ⟨m, e, h⟩ := h; exact ⟨m, e, fun v => ih v (h v)⟩

theorem Lasts.andThen {Q : Nat → Res α → Prop} {Q' : Nat → Res β → Prop} {p : DocProg F (Res α)}
    {f : α → DocProg F (Res β)} {n : Nat} (h : Lasts Q p n) (he : ∀ r e, Q r (.error e) → Q' r (.error e))
    (h' : ∀ r a, Q r (.ok a) → Lasts Q' (f a) r) : Lasts Q' (p.andThen f) n :=
  h.bind fun r a hq => by cases a with
    | error e => exact he r e hq
    | ok a => exact h' r a hq

theorem Lasts.mono {Q Q' : Nat → α → Prop} {p : DocProg F α} {n : Nat} (h : Lasts Q p n)
    (h' : ∀ r a, Q r a → Q' r a) : Lasts Q' p n := by
  induction p generalizing n with
  | done a => exact h' n a h
  | read k ih => obtain ⟨m, e, h⟩ := h; exact ⟨m, e, fun td => ih td (h td)⟩
  | write td k ih => obtain ⟨m, e, h⟩ := h; exact ⟨m, e, ih h⟩
  | store c k ih => obtain ⟨m, e, h⟩ := h; exact ⟨m, e, ih h⟩
  | const l v k ih => obtain ⟨m, e, h⟩ := h; exact ⟨m, e, ih h⟩
  | look l k ih => obtain ⟨m, e, h⟩ := h; exact ⟨m, e, fun v => ih v (h v)⟩

/-- Every access uses one up. -/
theorem Lasts.access {Q : Nat → α → Prop} {p p' : DocProg F α} {n : Nat} {td td' : TD F} {σ σ' : Consts F}
    (h : Lasts Q p n) (ha : Access p td σ p' td' σ') : ∃ m, n = m + 1 ∧ Lasts Q p' m := by
  cases ha with
  | read => obtain ⟨m, e, h⟩ := h; exact ⟨m, e, h _⟩
  | write => exact h
  | store => exact h
  | const => exact h
  | look => obtain ⟨m, e, h⟩ := h; exact ⟨m, e, h _⟩

/-! ## The comparisons of an evaluator -/

mutual
def cTests : CNode F → Nat
  | .mk _ _ _ _ pred cs => testsOpt pred + csTests cs
def csTests : List (CNode F) → Nat
  | [] => 0
  | n :: ns => cTests n + csTests ns
end

def ownTests : CNode F → Nat
  | .mk _ _ _ _ pred _ => testsOpt pred

mutual
def cWay : CNode F → Nat
  | .mk _ _ _ _ _ cs => csOwn cs + csDeepest cs
def csOwn : List (CNode F) → Nat
  | [] => 0
  | .mk _ _ _ _ pred _ :: ns => testsOpt pred + csOwn ns
def csDeepest : List (CNode F) → Nat
  | [] => 0
  | n :: ns => max (cWay n) (csDeepest ns)
end

def rootTests (s : MissingValueStrategy) (n : CNode F) : Nat :=
  match s with
  | .none => ownTests n + cWay n
  | .other _ => ownTests n + cWay n
  | .nullPrediction => ownTests n + cWay n
  | _ => cTests n

mutual
def mTests : EModel F → Nat
  | .tree m => rootTests m.model.missingValueStrategy m.root
  | .regression _ => 0
  | .mining _ ms => msTests ms
def msTests : List (EModel F) → Nat
  | [] => 0
  | m :: ms => mTests m + msTests ms
end

/-! ### They are those of the document -/

section
variable [Lib F]

mutual
theorem compile_tests {types : FieldTypes} : (p : Pred F) → ∀ {p'}, compilePredicate types p = .ok p' →
    tests p' = tests p
  | .simple p, p', h => by
    obtain ⟨dt, raw, -, -, rfl⟩ := compile_simple h
    rw [tests, tests]
  | .compound op ps, p', h => by
    simp only [compilePredicate, bind_eq_ok] at h
    obtain ⟨ps', hps, h⟩ := h
    simp at h; subst h
    rw [tests, tests]
    exact compiles_tests ps hps
  | .true_, p', h => by simp [compilePredicate] at h; subst h; rfl
  | .false_, p', h => by simp [compilePredicate] at h; subst h; rfl
  | .set _, p', h => by simp [compilePredicate] at h; subst h; rfl
theorem compiles_tests {types : FieldTypes} : (ps : List (Pred F)) → ∀ {ps'}, compilePredicates types ps = .ok ps' →
    testsAll ps' = testsAll ps
  | [], ps', h => by simp [compilePredicates] at h; subst h; rfl
  | p :: ps, ps', h => by
    simp only [compilePredicates, bind_eq_ok] at h
    obtain ⟨q, hq, qs, hqs, h⟩ := h
    simp at h; subst h
    rw [testsAll, testsAll, compile_tests p hq, compiles_tests ps hqs]
end

variable [Arith F]

theorem newNode_own {types : FieldTypes} {id dc score rc dists nodes} {pred : Option (Pred F)} {n' : CNode F}
    (h : newNode types (.mk id dc score rc dists nodes pred) = .ok n') : ownTests n' = testsOpt pred := by
  obtain ⟨cs, pred', hcs, hp, rfl⟩ := newNode_ok h
  cases pred with
  | none => rw [hp]; rfl
  | some p =>
    obtain ⟨p', hp', e⟩ := hp
    rw [e]
    exact compile_tests p hp'

mutual
theorem newNode_tests {types : FieldTypes} : (n : Node F) → ∀ {n'}, newNode types n = .ok n' →
    cTests n' = treeTests n ∧ cWay n' = wayTests n
  | .mk id dc score rc dists nodes pred, n', h => by
    have ho := newNode_own h
    obtain ⟨cs, pred', hcs, hp, rfl⟩ := newNode_ok h
    obtain ⟨h1, h2, h3⟩ := newNodes_tests nodes hcs
    rw [cTests, treeTests, cWay, wayTests, h1, h2, h3]
    exact ⟨congrArg (· + _) ho, rfl⟩
theorem newNodes_tests {types : FieldTypes} : (ns : List (Node F)) → ∀ {ns'}, newNodes types ns = .ok ns' →
    csTests ns' = treesTests ns ∧ csOwn ns' = childTests ns ∧ csDeepest ns' = deepestTests ns
  | [], ns', h => by simp [newNodes] at h; subst h; exact ⟨rfl, rfl, rfl⟩
  | .mk id dc score rc dists nodes pred :: ns, ns', h => by
    simp only [newNodes, bind_eq_ok] at h
    obtain ⟨q, hq, qs, hqs, h⟩ := h
    simp at h; subst h
    obtain ⟨h1, h2⟩ := newNode_tests _ hq
    obtain ⟨h3, h4, h5⟩ := newNodes_tests ns hqs
    have ho := newNode_own hq
    obtain ⟨id', dc', sd, sc, pred', cs⟩ := q
    rw [csTests, treesTests, csOwn, childTests, csDeepest, deepestTests, h1, h2, h3, h4, h5]
    exact ⟨rfl, congrArg (· + _) ho, rfl⟩
end

theorem root_tests {types : FieldTypes} {d : TreeDoc F} {root : CNode F} (h : newNode types d.node = .ok root) :
    rootTests d.missingValueStrategy root = docTests d := by
  obtain ⟨h1, h2⟩ := newNode_tests d.node h
  obtain ⟨fn, pen, strat, ntc, lt, mf, ver, node⟩ := d
  obtain ⟨id, dc, score, rc, dists, nodes, pred⟩ := node
  have ho := newNode_own h
  cases strat <;> simp only [rootTests, docTests]
  · exact h1
  · exact h1
  · exact h1
  · rw [ho, h2]
  · rw [ho, h2]
  · exact h1
  · rw [ho, h2]

/-! ## Building -/

omit [Lib F] [Arith F] in
theorem appendDoc_lasts (l : List (DerivedField F)) (K n : Nat) (hn : 2 * l.length + K ≤ n) :
    Lasts (fun r _ => K ≤ r) (appendDoc l) n := by
  induction l generalizing n with
  | nil => simpa [appendDoc, Lasts] using hn
  | cons f l ih =>
    rw [List.length_cons] at hn
    exact ⟨n - 1, by omega, fun td => ⟨n - 2, by omega, ih _ (by omega)⟩⟩

omit [Lib F] [Arith F] in
theorem fieldsDoc_lasts (c : Cell) (fs : List MiningField) (K n : Nat) (hn : fs.length + K ≤ n) :
    Lasts (F := F) (fun r _ => K ≤ r) (fieldsDoc c fs) n := by
  induction fs generalizing n with
  | nil => simpa [fieldsDoc, Lasts] using hn
  | cons f fs ih =>
    rw [List.length_cons] at hn
    exact ⟨n - 1, by omega, (ih _ (by omega)).bind fun r a h => h⟩

omit [Arith F] in
mutual
theorem predDoc_lasts (types : FieldTypes) : (p : Pred F) → (l : Loc) → (K n : Nat) → tests p + K ≤ n →
    Lasts (fun r a => K ≤ r ∧ a = compilePredicate types p) (predDoc l types p) n
  | .simple p, l, K, n, hn => by
    rw [predDoc, compilePredicate]
    rw [tests] at hn
    cases types[p.field]? with
    | none => exact ⟨by omega, rfl⟩
    | some dt =>
      simp only
      cases getRawValue dt p.value (F := F) with
      | error e => exact ⟨by omega, rfl⟩
      | ok pv => exact ⟨n - 1, by omega, by omega, rfl⟩
  | .compound op ps, l, K, n, hn => by
    rw [predDoc, compilePredicate]
    rw [tests] at hn
    refine (predsDoc_lasts types ps l 0 K n hn).andThen (fun r e h => ⟨h.1, by rw [← h.2]; rfl⟩) ?_
    intro r a h
    exact ⟨h.1, by rw [← h.2]; rfl⟩
  | .true_, l, K, n, hn => by rw [predDoc, compilePredicate]; exact ⟨by omega, rfl⟩
  | .false_, l, K, n, hn => by rw [predDoc, compilePredicate]; exact ⟨by omega, rfl⟩
  | .set _, l, K, n, hn => by rw [predDoc, compilePredicate]; exact ⟨by omega, rfl⟩
theorem predsDoc_lasts (types : FieldTypes) : (ps : List (Pred F)) → (l : Loc) → (i : Nat) → (K n : Nat) →
    testsAll ps + K ≤ n →
    Lasts (fun r a => K ≤ r ∧ a = compilePredicates types ps) (predsDoc l types i ps) n
  | [], l, i, K, n, hn => by rw [predsDoc, compilePredicates]; exact ⟨by omega, rfl⟩
  | p :: ps, l, i, K, n, hn => by
    rw [predsDoc, compilePredicates]
    rw [testsAll] at hn
    refine (predDoc_lasts types p _ (testsAll ps + K) n (by omega)).andThen
      (fun r e h => ⟨by omega, by rw [← h.2]; rfl⟩) ?_
    intro r a h
    refine (predsDoc_lasts types ps l (i + 1) K r h.1).andThen (fun r e h' => ⟨h'.1, by rw [← h.2, ← h'.2]; rfl⟩) ?_
    intro r' b h'
    exact ⟨h'.1, by rw [← h.2, ← h'.2]; rfl⟩
end

mutual
theorem nodeDoc_lasts (types : FieldTypes) (c : Cell) : (x : Node F) → (np : List Nat) → (K n : Nat) →
    treeTests x + K ≤ n → Lasts (fun r a => K ≤ r ∧ a = newNode types x) (nodeDoc c np types x) n
  | .mk id dc score rc dists nodes pred, np, K, n, hn => by
    rw [nodeDoc, newNode]
    rw [treeTests] at hn
    refine (nodesDoc_lasts types c nodes np 0 (testsOpt pred + K) n (by omega)).andThen
      (fun r e h => ⟨by omega, by rw [← h.2]; rfl⟩) ?_
    intro r a h
    rw [← h.2]
    cases pred with
    | none => exact ⟨by omega, rfl⟩
    | some p =>
      refine (predDoc_lasts types p _ K r h.1).andThen (fun r e h => ⟨h.1, ?_⟩) fun r b h => ⟨h.1, ?_⟩
      · simp only [← h.2]; rfl
      · simp only [← h.2]; rfl
theorem nodesDoc_lasts (types : FieldTypes) (c : Cell) : (xs : List (Node F)) → (np : List Nat) → (i : Nat) →
    (K n : Nat) → treesTests xs + K ≤ n →
    Lasts (fun r a => K ≤ r ∧ a = newNodes types xs) (nodesDoc c np types i xs) n
  | [], np, i, K, n, hn => by rw [nodesDoc, newNodes]; exact ⟨by omega, rfl⟩
  | x :: xs, np, i, K, n, hn => by
    rw [nodesDoc, newNodes]
    rw [treesTests] at hn
    refine (nodeDoc_lasts types c x _ (treesTests xs + K) n (by omega)).andThen
      (fun r e h => ⟨by omega, by rw [← h.2]; rfl⟩) ?_
    intro r a h
    refine (nodesDoc_lasts types c xs np (i + 1) K r h.1).andThen (fun r e h' => ⟨h'.1, by rw [← h.2, ← h'.2]; rfl⟩) ?_
    intro r' b h'
    exact ⟨h'.1, by rw [← h.2, ← h'.2]; rfl⟩
end

mutual
/-- Building a model takes no more accesses than `elemWork`. -/
theorem docProg_lasts (dd : List DataField) : (e : ModelElem F) → (c : Cell) → (K n : Nat) → elemWork e + K ≤ n →
    Lasts (fun r a => K ≤ r ∧ ∀ m, a = .ok m → mTests m = elemTests e) (e.docProg c dd) n
  | .tree d, c, K, n, hn => by
    rw [elemWork] at hn
    rw [ModelElem.docProg, TreeDoc.docProg]
    split_ifs
    · exact ⟨by omega, by intro m h; cases h⟩
    · refine (fieldsDoc_lasts c _ (2 * d.localTransformations.length + 1 + treeTests d.node + K) n (by omega)).bind ?_
      intro r fs hr
      refine (appendDoc_lasts _ (1 + treeTests d.node + K) r (by omega)).bind fun r _ hr => ?_
      refine ⟨r - 1, by omega, fun td => ?_⟩
      refine (nodeDoc_lasts _ c d.node [] K (r - 1) (by omega)).andThen
        (fun r e h => ⟨h.1, by intro m h; cases h⟩) fun r root h => ⟨h.1, ?_⟩
      intro m hm
      cases hm
      rw [mTests, elemTests]
      exact root_tests h.2.symm
  | .regression d, c, K, n, hn => by
    rw [ModelElem.docProg]
    exact ⟨by omega, by intro m h; cases h; rw [mTests, elemTests]⟩
  | .other k, c, K, n, hn => by
    rw [ModelElem.docProg]
    exact ⟨by omega, by intro m h; cases h⟩
  | .mining h segs, c, K, n, hn => by
    rw [elemWork] at hn
    have key : ∀ n, 2 * h.localTransformations.length + 1 + segsWork segs + K ≤ n →
        Lasts (fun r a => K ≤ r ∧ ∀ m, a = .ok m → mTests m = elemTests (.mining h segs))
          (miningDoc dd h segs (segsDoc c dd 0 segs)) n := by
      intro n hn
      rw [miningDoc]
      rcases hv : (MiningState.init dd h segs).validate with ⟨_ | ⟨⟨⟩⟩, s⟩
      · exact ⟨by omega, by intro m h; cases h⟩
      · simp only
        rw [validate_locals hv]
        refine (appendDoc_lasts _ (1 + segsWork segs + K) n (by omega)).bind fun r _ hr => ?_
        refine ⟨r - 1, by omega, fun td => ?_⟩
        refine (segsDoc_lasts dd segs c 0 K (r - 1) (by omega)).andThen
          (fun r e h => ⟨h.1, by intro m h; cases h⟩) fun r ms h => ⟨h.1, ?_⟩
        intro m hm
        cases hm
        rw [mTests, elemTests]
        exact h.2 _ rfl
    rw [ModelElem.docProg]
    split_ifs
    · exact ⟨n - 1, by omega, key _ (by omega)⟩
    · exact key _ (by omega)
theorem segsDoc_lasts (dd : List DataField) : (segs : List (SegDoc F)) → (c : Cell) → (i : Nat) → (K n : Nat) →
    segsWork segs + K ≤ n →
    Lasts (fun r a => K ≤ r ∧ ∀ ms, a = .ok ms → msTests ms = segsTests segs) (segsDoc c dd i segs) n
  | [], c, i, K, n, hn => by
    rw [segsDoc]
    exact ⟨by omega, by intro m h; cases h; rw [msTests, segsTests]⟩
  | .mk _ _ [] :: segs, c, i, K, n, hn => by rw [segsDoc]; exact ⟨by omega, by intro m h; cases h⟩; simp
  | .mk _ _ (_ :: _ :: _) :: segs, c, i, K, n, hn => by
    rw [segsDoc]; exact ⟨by omega, by intro m h; cases h⟩; simp
  | .mk _ _ [e] :: segs, c, i, K, n, hn => by
    rw [segsDoc]
    rw [segsWork] at hn
    refine (docProg_lasts dd e (i :: c) (segsWork segs + K) n (by omega)).andThen
      (fun r e h => ⟨by omega, by intro m h; cases h⟩) fun r m h => ?_
    refine (segsDoc_lasts dd segs c (i + 1) K r h.1).andThen
      (fun r e h => ⟨h.1, by intro m h; cases h⟩) fun r ms h' => ⟨h'.1, ?_⟩
    intro ms' e
    cases e
    rw [msTests, segsTests, h.2 _ rfl, h'.2 _ rfl]
end

/-! ## Evaluating -/

theorem simpleLook_lasts (types : FieldTypes) (l : Loc) (p : SimplePred F) (row : Row F) (K n : Nat)
    (hn : 2 + K ≤ n) : Lasts (fun r _ => K ≤ r) (simpleLook types l p row) n := by
  unfold simpleLook
  cases types[p.field]? with
  | none => exact (by omega : K ≤ n)
  | some dt =>
    refine ⟨n - 1, by omega, fun v => ?_⟩
    cases v with
    | nil => exact (by omega : K ≤ n - 1)
    | _ =>
      simp only
      cases row.get p.field with
      | none => exact (by omega : K ≤ n - 1)
      | some x =>
        simp only
        cases p.op <;> first
          | exact (by omega : K ≤ n - 1)
          | exact ⟨n - 2, by omega, fun w => (by omega : K ≤ n - 2)⟩

mutual
theorem operandLook_lasts (types : FieldTypes) (row : Row F) : (p : Pred F) → (l : Loc) → (K n : Nat) →
    2 * tests p + K ≤ n → Lasts (fun r _ => K ≤ r) (operandLook types row l p) n
  | .simple p, l, K, n, hn => by
    rw [tests] at hn
    rw [operandLook]
    exact simpleLook_lasts types l p row K n (by omega)
  | .compound op ps, l, K, n, hn => by
    rw [tests] at hn
    rw [operandLook]
    exact loopLook_lasts types row ps l op _ 0 0 0 K n hn
  | .set _, l, K, n, hn => by rw [operandLook]; exact (by omega : K ≤ n)
  | .true_, l, K, n, hn => by rw [operandLook]; exact (by omega : K ≤ n)
  | .false_, l, K, n, hn => by rw [operandLook]; exact (by omega : K ≤ n)
theorem loopLook_lasts (types : FieldTypes) (row : Row F) : (ps : List (Pred F)) → (l : Loc) → (op : BoolOp) →
    (len i t u : Nat) → (K n : Nat) → 2 * testsAll ps + K ≤ n →
    Lasts (fun r _ => K ≤ r) (loopLook types row l op len i t u ps) n
  | [], l, op, len, i, t, u, K, n, hn => by rw [loopLook]; exact (by omega : K ≤ n)
  | p :: ps, l, op, len, i, t, u, K, n, hn => by
    rw [testsAll] at hn
    rw [loopLook]
    refine (operandLook_lasts types row p _ (2 * testsAll ps + K) n (by omega)).andThen
      (fun r e h => (by omega : K ≤ r)) fun r v h => ?_
    split_ifs
    all_goals first
      | exact (by omega : K ≤ r)
      | exact loopLook_lasts types row ps l op len (i + 1) _ _ K r h
end

theorem testLook_lasts (types : FieldTypes) (row : Row F) (l : Loc) (pred : Option (Pred F)) (K n : Nat)
    (hn : 2 * testsOpt pred + K ≤ n) : Lasts (fun r _ => K ≤ r) (testLook types l pred row) n := by
  cases pred with
  | none => exact (by omega : K ≤ n)
  | some p =>
    rw [testsOpt] at hn
    cases p with
    | true_ => exact (by omega : K ≤ n)
    | false_ => exact (by omega : K ≤ n)
    | set _ => exact (by omega : K ≤ n)
    | simple p => exact operandLook_lasts types row _ l K n hn
    | compound op ps => exact operandLook_lasts types row _ l K n hn

mutual
/-- Of a node that is not entered only the test is made. -/
theorem noneLook_lasts (x : TreeCtx F) (row : Row F) (c : Cell) : (m : CNode F) → (np : List Nat) → (K n : Nat) →
    2 * ownTests m + 2 * cWay m + K ≤ n →
    Lasts (fun r a => K ≤ r ∧ ∀ s : NodeRes F, a = .ok s → s.2 ≠ .t → 2 * cWay m + K ≤ r) (noneLook x row c np m) n
  | .mk id dc sd sc pred cs, np, K, n, hn => by
    rw [ownTests] at hn
    rw [noneLook]
    refine (testLook_lasts x.types row _ pred (2 * cWay (.mk id dc sd sc pred cs) + K) n (by omega)).andThen
      (fun r e h => ⟨by omega, by intro s h; cases h⟩) fun r v h => ?_
    split_ifs with hv
    · exact ⟨by omega, fun s _ _ => h⟩
    · rw [cWay] at h
      refine (noneLooks_lasts x row c cs np 0 K r (by omega)).andThen
        (fun r e h => ⟨h.1, by intro s h; cases h⟩) fun r q h => ?_
      cases q with
      | none =>
        refine ⟨h.1, ?_⟩
        intro s hs ht
        cases hs
        cases v <;> simp at hv ht
      | some q =>
        refine ⟨h.1, ?_⟩
        intro s hs ht
        cases hs
        exact absurd (h.2 q rfl) ht
theorem noneLooks_lasts (x : TreeCtx F) (row : Row F) (c : Cell) : (ms : List (CNode F)) → (np : List Nat) →
    (i : Nat) → (K n : Nat) → 2 * csOwn ms + 2 * csDeepest ms + K ≤ n →
    Lasts (fun r a => K ≤ r ∧ ∀ s : NodeRes F, a = .ok (some s) → s.2 = .t) (noneLooks x row c np i ms) n
  | [], np, i, K, n, hn => by rw [noneLooks]; exact ⟨by omega, by intro s h; cases h⟩
  | m :: ms, np, i, K, n, hn => by
    have ho : csOwn (m :: ms) = ownTests m + csOwn ms := by obtain ⟨id, dc, sd, sc, pred, cs⟩ := m; rw [csOwn, ownTests]
    rw [ho, csDeepest] at hn
    rw [noneLooks]
    have h1 := le_max_left (cWay m) (csDeepest ms)
    have h2 := le_max_right (cWay m) (csDeepest ms)
    refine (noneLook_lasts x row c m _ (2 * (max (cWay m) (csDeepest ms)) - 2 * cWay m + 2 * csOwn ms + K) n
      (by omega)).andThen (fun r e h => ⟨by omega, by intro s h; cases h⟩) fun r v h => ?_
    split_ifs with hv
    · refine ⟨by omega, ?_⟩
      intro s hs
      cases hs
      exact hv
    · have := h.2 v rfl hv
      exact noneLooks_lasts x row c ms np (i + 1) K r (by omega)
end

mutual
theorem nullLook_lasts (x : TreeCtx F) (row : Row F) (c : Cell) : (m : CNode F) → (np : List Nat) → (K n : Nat) →
    2 * ownTests m + 2 * cWay m + K ≤ n →
    Lasts (fun r a => K ≤ r ∧ ∀ s : NodeRes F, a = .ok s → s.2 = .f → 2 * cWay m + K ≤ r) (nullLook x row c np m) n
  | .mk id dc sd sc pred cs, np, K, n, hn => by
    rw [ownTests] at hn
    rw [nullLook]
    refine (testLook_lasts x.types row _ pred (2 * cWay (.mk id dc sd sc pred cs) + K) n (by omega)).andThen
      (fun r e h => ⟨by omega, by intro s h; cases h⟩) fun r v h => ?_
    split_ifs with hv hu
    · exact ⟨by omega, fun s _ _ => h⟩
    · exact ⟨by omega, fun s _ _ => h⟩
    · rw [cWay] at h
      refine (nullLooks_lasts x row c cs np 0 K r (by omega)).andThen
        (fun r e h => ⟨h.1, by intro s h; cases h⟩) fun r q h => ?_
      cases q with
      | none =>
        refine ⟨h.1, ?_⟩
        intro s hs ht
        cases hs
        exact absurd ht hv
      | some q =>
        refine ⟨h.1, ?_⟩
        intro s hs ht
        cases hs
        exact absurd ht (h.2 q rfl)
theorem nullLooks_lasts (x : TreeCtx F) (row : Row F) (c : Cell) : (ms : List (CNode F)) → (np : List Nat) →
    (i : Nat) → (K n : Nat) → 2 * csOwn ms + 2 * csDeepest ms + K ≤ n →
    Lasts (fun r a => K ≤ r ∧ ∀ s : NodeRes F, a = .ok (some s) → s.2 ≠ .f) (nullLooks x row c np i ms) n
  | [], np, i, K, n, hn => by rw [nullLooks]; exact ⟨by omega, by intro s h; cases h⟩
  | m :: ms, np, i, K, n, hn => by
    have ho : csOwn (m :: ms) = ownTests m + csOwn ms := by obtain ⟨id, dc, sd, sc, pred, cs⟩ := m; rw [csOwn, ownTests]
    rw [ho, csDeepest] at hn
    rw [nullLooks]
    have h1 := le_max_left (cWay m) (csDeepest ms)
    have h2 := le_max_right (cWay m) (csDeepest ms)
    refine (nullLook_lasts x row c m _ (2 * (max (cWay m) (csDeepest ms)) - 2 * cWay m + 2 * csOwn ms + K) n
      (by omega)).andThen (fun r e h => ⟨by omega, by intro s h; cases h⟩) fun r v h => ?_
    split_ifs with hv hu
    · refine ⟨by omega, ?_⟩
      intro s hs
      cases hs
      rw [hv]; exact fun h => by cases h
    · refine ⟨by omega, ?_⟩
      intro s hs
      cases hs
      rw [hu]; exact fun h => by cases h
    · have := h.2 v rfl (by cases hc : v.2 <;> simp_all)
      exact nullLooks_lasts x row c ms np (i + 1) K r (by omega)
end

mutual
theorem lastLook_lasts (x : TreeCtx F) (row : Row F) (c : Cell) : (m : CNode F) → (np : List Nat) → (K n : Nat) →
    2 * cTests m + K ≤ n → Lasts (fun r _ => K ≤ r) (lastLook x row c np m) n
  | .mk id dc sd sc pred cs, np, K, n, hn => by
    rw [cTests] at hn
    rw [lastLook]
    refine (testLook_lasts x.types row _ pred (2 * csTests cs + K) n (by omega)).andThen
      (fun r e h => (by omega : K ≤ r)) fun r v h => ?_
    split_ifs
    · exact (by omega : K ≤ r)
    · refine (lastLooks_lasts x row c cs np 0 K r h).andThen (fun r e h => h) fun r q h => ?_
      split_ifs <;> exact h
theorem lastLooks_lasts (x : TreeCtx F) (row : Row F) (c : Cell) : (ms : List (CNode F)) → (np : List Nat) →
    (i : Nat) → (K n : Nat) → 2 * csTests ms + K ≤ n → Lasts (fun r _ => K ≤ r) (lastLooks x row c np i ms) n
  | [], np, i, K, n, hn => by rw [lastLooks]; exact (by omega : K ≤ n)
  | m :: ms, np, i, K, n, hn => by
    rw [csTests] at hn
    rw [lastLooks]
    exact (lastLook_lasts x row c m _ (2 * csTests ms + K) n (by omega)).andThen
      (fun r e h => (by omega : K ≤ r)) fun r v h =>
      (lastLooks_lasts x row c ms np (i + 1) K r h).andThen (fun r e h => h) fun r rs h => h
end

mutual
theorem defaultLook_lasts (x : TreeCtx F) (row : Row F) (c : Cell) : (m : CNode F) → (np : List Nat) → (K n : Nat) →
    2 * cTests m + K ≤ n → Lasts (fun r _ => K ≤ r) (defaultLook x row c np m) n
  | .mk id dc sd sc pred cs, np, K, n, hn => by
    rw [cTests] at hn
    rw [defaultLook]
    refine (testLook_lasts x.types row _ pred (2 * csTests cs + K) n (by omega)).andThen
      (fun r e h => (by omega : K ≤ r)) fun r v h => ?_
    split_ifs
    · exact (by omega : K ≤ r)
    · refine (defaultLooks_lasts x row c cs np 0 K r h).andThen (fun r e h => h) fun r q h => ?_
      split_ifs
      · exact h
      · cases (childScores cs q)[dc]? <;> exact h
      · exact h
theorem defaultLooks_lasts (x : TreeCtx F) (row : Row F) (c : Cell) : (ms : List (CNode F)) → (np : List Nat) →
    (i : Nat) → (K n : Nat) → 2 * csTests ms + K ≤ n → Lasts (fun r _ => K ≤ r) (defaultLooks x row c np i ms) n
  | [], np, i, K, n, hn => by rw [defaultLooks]; exact (by omega : K ≤ n)
  | m :: ms, np, i, K, n, hn => by
    rw [csTests] at hn
    rw [defaultLooks]
    exact (defaultLook_lasts x row c m _ (2 * csTests ms + K) n (by omega)).andThen
      (fun r e h => (by omega : K ≤ r)) fun r v h =>
      (defaultLooks_lasts x row c ms np (i + 1) K r h).andThen (fun r e h => h) fun r rs h => h
end

mutual
theorem weightedLook_lasts (x : TreeCtx F) (row : Row F) (c : Cell) : (m : CNode F) → (np : List Nat) →
    (o : MapOrd) → (K n : Nat) → 2 * cTests m + K ≤ n → Lasts (fun r _ => K ≤ r) (weightedLook x row c np o m) n
  | .mk id dc sd sc pred cs, np, o, K, n, hn => by
    rw [cTests] at hn
    rw [weightedLook]
    refine (testLook_lasts x.types row _ pred (2 * csTests cs + K) n (by omega)).andThen
      (fun r e h => (by omega : K ≤ r)) fun r v h => ?_
    split_ifs
    · exact (by omega : K ≤ r)
    · refine (weightedLooks_lasts x row c cs np o 0 K r h).andThen (fun r e h => h) fun r q h => ?_
      split_ifs <;> exact h
theorem weightedLooks_lasts (x : TreeCtx F) (row : Row F) (c : Cell) : (ms : List (CNode F)) → (np : List Nat) →
    (o : MapOrd) → (i : Nat) → (K n : Nat) → 2 * csTests ms + K ≤ n →
    Lasts (fun r _ => K ≤ r) (weightedLooks x row c np o i ms) n
  | [], np, o, i, K, n, hn => by rw [weightedLooks]; exact (by omega : K ≤ n)
  | m :: ms, np, o, i, K, n, hn => by
    rw [csTests] at hn
    rw [weightedLooks]
    exact (weightedLook_lasts x row c m _ _ (2 * csTests ms + K) n (by omega)).andThen
      (fun r e h => (by omega : K ≤ r)) fun r v h =>
      (weightedLooks_lasts x row c ms np o (i + 1) K r h).andThen (fun r e h => h) fun r rs h => h
end

mutual
theorem aggregateLook_lasts (x : TreeCtx F) (row : Row F) (c : Cell) : (m : CNode F) → (np : List Nat) →
    (o : MapOrd) → (K n : Nat) → 2 * cTests m + K ≤ n → Lasts (fun r _ => K ≤ r) (aggregateLook x row c np o m) n
  | .mk id dc sd sc pred cs, np, o, K, n, hn => by
    rw [cTests] at hn
    rw [aggregateLook]
    refine (testLook_lasts x.types row _ pred (2 * csTests cs + K) n (by omega)).andThen
      (fun r e h => (by omega : K ≤ r)) fun r v h => ?_
    split_ifs
    · exact (by omega : K ≤ r)
    · refine (aggregateLooks_lasts x row c cs np o 0 K r h).andThen (fun r e h => h) fun r q h => ?_
      split_ifs <;> exact h
theorem aggregateLooks_lasts (x : TreeCtx F) (row : Row F) (c : Cell) : (ms : List (CNode F)) → (np : List Nat) →
    (o : MapOrd) → (i : Nat) → (K n : Nat) → 2 * csTests ms + K ≤ n →
    Lasts (fun r _ => K ≤ r) (aggregateLooks x row c np o i ms) n
  | [], np, o, i, K, n, hn => by rw [aggregateLooks]; exact (by omega : K ≤ n)
  | m :: ms, np, o, i, K, n, hn => by
    rw [csTests] at hn
    rw [aggregateLooks]
    exact (aggregateLook_lasts x row c m _ _ (2 * csTests ms + K) n (by omega)).andThen
      (fun r e h => (by omega : K ≤ r)) fun r v h =>
      (aggregateLooks_lasts x row c ms np o (i + 1) K r h).andThen (fun r e h => h) fun r rs h => h
end

theorem nodeLook_lasts (x : TreeCtx F) (o : MapOrd) (row : Row F) (c : Cell) (m : CNode F) (K n : Nat)
    (hn : 2 * rootTests x.strategy m + K ≤ n) : Lasts (fun r _ => K ≤ r) (nodeLook x o row c m) n := by
  unfold nodeLook
  cases hs : x.strategy <;> simp only [hs, rootTests] at hn ⊢
  · exact aggregateLook_lasts x row c m [] o K n hn
  · exact defaultLook_lasts x row c m [] K n hn
  · exact lastLook_lasts x row c m [] K n hn
  · exact (noneLook_lasts x row c m [] K n (by omega)).mono fun r a h => h.1
  · exact (nullLook_lasts x row c m [] K n (by omega)).mono fun r a h => h.1
  · exact weightedLook_lasts x row c m [] o K n hn
  · exact (noneLook_lasts x row c m [] K n (by omega)).mono fun r a h => h.1

theorem treeLook_lasts (m : TreeModel F) (c : Cell) (o : MapOrd) (row : Row F) (K n : Nat)
    (hn : 2 * rootTests m.model.missingValueStrategy m.root + K ≤ n) :
    Lasts (fun r _ => K ≤ r) (m.lookProg c o row) n := by
  have hK : K ≤ n := by omega
  unfold TreeModel.lookProg
  by_cases hv : m.validated = true
  swap
  · rw [if_pos hv]; exact hK
  by_cases hc : m.compiled = true
  swap
  · rw [if_neg (not_not.mpr hv), if_pos hc]; exact hK
  · rw [if_neg (not_not.mpr hv), if_neg (not_not.mpr hc)]
    rcases handleInput m.model.localTransformations row with ⟨_ | ⟨⟨⟩⟩, row'⟩
    · exact hK
    · simp only
      refine (nodeLook_lasts m.ctx o row' c m.root K n hn).bind fun r a h => ?_
      cases a <;> exact h

variable [Trans F]

theorem sumLook_lasts (ms : List (EModel F))
    (ih : ∀ m ∈ ms, ∀ c o row K n, 2 * mTests m + K ≤ n → Lasts (fun r _ => K ≤ r) (EModel.lookProg c o m row) n) :
    ∀ c o fn i sm row K n, 2 * msTests ms + K ≤ n → Lasts (fun r _ => K ≤ r) (sumLook c o fn i sm ms row) n := by
  induction ms with
  | nil => intro c o fn i sm row K n h; rw [sumLook]; exact (by omega : K ≤ n)
  | cons m ms ihs =>
    intro c o fn i sm row K n h
    rw [msTests] at h
    rw [sumLook]
    refine (ih m (by simp) (i :: c) (o.at_ (2 * i)) row (2 * msTests ms + K) n (by omega)).bind fun r a h => ?_
    obtain ⟨_ | out, row'⟩ := a
    · exact (by omega : K ≤ r)
    · exact ihs (fun m hm => ih m (by simp [hm])) c o fn (i + 1) _ _ K r h

theorem chainLook_lasts (ms : List (EModel F))
    (ih : ∀ m ∈ ms, ∀ c o row K n, 2 * mTests m + K ≤ n → Lasts (fun r _ => K ≤ r) (EModel.lookProg c o m row) n) :
    ∀ c o i out row K n, 2 * msTests ms + K ≤ n → Lasts (fun r _ => K ≤ r) (chainLook c o i out ms row) n := by
  induction ms with
  | nil => intro c o i out row K n h; rw [chainLook]; exact (by omega : K ≤ n)
  | cons m ms ihs =>
    intro c o i out row K n h
    rw [msTests] at h
    rw [chainLook]
    rcases writeAll ((o.at_ (2 * i)).range (out.getD ∅)) row with ⟨e | ⟨⟨⟩⟩, row1⟩
    · exact (by omega : K ≤ n)
    simp only
    refine (ih m (by simp) (i :: c) (o.at_ (2 * i + 1)) row1 (2 * msTests ms + K) n (by omega)).bind fun r a h => ?_
    obtain ⟨_ | out, row'⟩ := a
    · exact (by omega : K ≤ r)
    · exact ihs (fun m hm => ih m (by simp [hm])) c o (i + 1) _ _ K r h

/-- A prediction takes at most two accesses for every comparison. -/
theorem lookProg_lasts (m : EModel F) : ∀ c o row K n, 2 * mTests m + K ≤ n →
    Lasts (fun r _ => K ≤ r) (EModel.lookProg c o m row) n := by
  induction m using EModel.ind with
  | ht m =>
    intro c o row K n h
    rw [mTests] at h
    rw [EModel.lookProg]
    exact treeLook_lasts m c o row K n h
  | hr d => intro c o row K n h; rw [EModel.lookProg]; exact (by omega : K ≤ n)
  | hm s ms ih =>
    intro c o row K n h
    rw [mTests] at h
    rw [EModel.lookProg]
    have hK : K ≤ n := by omega
    by_cases hv : s.validated = true
    swap
    · rw [if_pos hv]; exact hK
    by_cases hc : s.compiled = true
    swap
    · rw [if_neg (not_not.mpr hv), if_pos hc]; exact hK
    · rw [if_neg (not_not.mpr hv), if_neg (not_not.mpr hc)]
      rcases imputeLoop ((o.at_ 0).range s.defaultValues) row with ⟨e | ⟨⟨⟩⟩, row1⟩
      · exact hK
      simp only
      rcases handleInput s.head.localTransformations row1 with ⟨e | ⟨⟨⟩⟩, row2⟩
      · exact hK
      simp only
      cases s.head.method with
      | average => exact (sumLook_lasts ms ih c _ _ 0 _ row2 K n h).bind fun r a h => h
      | sum => exact (sumLook_lasts ms ih c _ _ 0 _ row2 K n h).bind fun r a h => h
      | modelChain => exact chainLook_lasts ms ih c _ 0 _ row2 K n h
      | selectFirst =>
        cases ms with
        | nil => simp only; rw [firstLook]; exact hK
        | cons m ms =>
          simp only
          rw [firstLook]
          rw [msTests] at h
          exact ih m (by simp) (0 :: c) _ row2 K n (by omega)
      | empty => exact hK
      | other s => exact hK

end

end Gopmml
