import Verif.Proofs.SharedBuild

/-!
# Programs that build and evaluate
-/

namespace Gopmml
open Spec

variable {F α β : Type}

/-! ## Without the values stored, building is `ModelElem.buildProg` -/

/-- The same program, but without the values of the constants. -/
inductive Erases : DocProg F α → BuildProg F α → Prop
  | done {a} : Erases (.done a) (.done a)
  | read {k k'} : (∀ td, Erases (k td) (k' td)) → Erases (.read k) (.read k')
  | write {td k k'} : Erases k k' → Erases (.write td k) (.write td k')
  | store {c k k'} : Erases k k' → Erases (.store c k) (.store c k')
  | const {l v k k'} : Erases k k' → Erases (.const l v k) (.store l.cell k')

theorem Erases.bind {p : DocProg F α} {q : BuildProg F α} {f : α → DocProg F β} {g : α → BuildProg F β}
    (h : Erases p q) (h' : ∀ a, Erases (f a) (g a)) : Erases (p.bind f) (q.bind g) := by
  induction h with
  | done => exact h' _
  | read _ ih => exact .read ih
  | write _ ih => exact .write ih
  | store _ ih => exact .store ih
  | const _ ih => exact .const ih

theorem Erases.andThen {p : DocProg F (Res α)} {q : BuildProg F (Res α)} {f : α → DocProg F (Res β)}
    {g : α → BuildProg F (Res β)} (h : Erases p q) (h' : ∀ a, Erases (f a) (g a)) :
    Erases (p.andThen f) (q.andThen g) :=
  h.bind fun a => by cases a with
    | error e => exact .done
    | ok a => exact h' a

theorem Erases.run {p : DocProg F α} {q : BuildProg F α} (h : Erases p q) (td : TD F) (σ : Consts F) :
    (p.run td σ).1 = (q.run td).1 ∧ (p.run td σ).2.1 = (q.run td).2 := by
  induction h generalizing td σ with
  | done => exact ⟨rfl, rfl⟩
  | read _ ih => exact ih td td σ
  | write _ ih => exact ih _ σ
  | store _ ih => exact ih td σ
  | const _ ih => exact ih td _

theorem appendDoc_erase (l : List (DerivedField F)) : Erases (appendDoc l) (appendProg l) := by
  induction l with
  | nil => exact .done
  | cons f l ih => exact .read fun td => .write ih

theorem fieldsDoc_erase (c : Cell) (fs : List MiningField) : Erases (F := F) (fieldsDoc c fs) (fieldsProg c fs) := by
  induction fs with
  | nil => exact .done
  | cons f fs ih => exact .store (ih.bind fun _ => .done)

section
variable [Lib F]

mutual
theorem predDoc_erase (types : FieldTypes) : (p : Pred F) → (l : Loc) →
    Erases (predDoc l types p) (predProg l.cell types p)
  | .simple p, l => by
    rw [predDoc, predProg]
    cases types[p.field]? with
    | none => exact .done
    | some dt =>
      simp only
      cases getRawValue dt p.value (F := F) with
      | error e => exact .done
      | ok pv => exact .const .done
  | .compound op ps, l => by
    rw [predDoc, predProg]
    exact (predsDoc_erase types ps l 0).andThen fun _ => .done
  | .true_, l => by rw [predDoc, predProg]; exact .done
  | .false_, l => by rw [predDoc, predProg]; exact .done
  | .set _, l => by rw [predDoc, predProg]; exact .done
theorem predsDoc_erase (types : FieldTypes) : (ps : List (Pred F)) → (l : Loc) → (i : Nat) →
    Erases (predsDoc l types i ps) (predsProg l.cell types ps)
  | [], l, i => by rw [predsDoc, predsProg]; exact .done
  | p :: ps, l, i => by
    rw [predsDoc, predsProg]
    exact (predDoc_erase types p _).andThen fun _ => (predsDoc_erase types ps l (i + 1)).andThen fun _ => .done
end

variable [Arith F]

mutual
theorem nodeDoc_erase (types : FieldTypes) (c : Cell) : (n : Node F) → (np : List Nat) →
    Erases (nodeDoc c np types n) (nodeProg c types n)
  | .mk id dc score rc dists nodes pred, np => by
    rw [nodeDoc, nodeProg]
    refine (nodesDoc_erase types c nodes np 0).andThen fun cs => ?_
    cases pred with
    | none => exact .done
    | some p => exact (predDoc_erase types p ⟨c, np, []⟩).andThen fun _ => .done
theorem nodesDoc_erase (types : FieldTypes) (c : Cell) : (ns : List (Node F)) → (np : List Nat) → (i : Nat) →
    Erases (nodesDoc c np types i ns) (nodesProg c types ns)
  | [], np, i => by rw [nodesDoc, nodesProg]; exact .done
  | n :: ns, np, i => by
    rw [nodesDoc, nodesProg]
    exact (nodeDoc_erase types c n _).andThen fun _ => (nodesDoc_erase types c ns np (i + 1)).andThen fun _ => .done
end

mutual
/-- `docProg` is `buildProg` with the values that are stored. -/
theorem docProg_erase (dd : List DataField) : (e : ModelElem F) → (c : Cell) →
    Erases (e.docProg c dd) (e.buildProg c dd)
  | .tree d, c => by
    rw [ModelElem.docProg, ModelElem.buildProg, TreeDoc.docProg, TreeDoc.buildProg]
    split_ifs
    · exact .done
    · exact (fieldsDoc_erase c _).bind fun fs => (appendDoc_erase _).bind fun _ => .read fun td =>
        (nodeDoc_erase _ c d.node []).andThen fun _ => .done
  | .regression d, c => by rw [ModelElem.docProg, ModelElem.buildProg]; exact .done
  | .other k, c => by rw [ModelElem.docProg, ModelElem.buildProg]; exact .done
  | .mining h segs, c => by
    have key : Erases (miningDoc dd h segs (segsDoc c dd 0 segs)) (miningProg c dd h segs) := by
      rw [miningDoc, miningProg]
      rcases (MiningState.init dd h segs).validate with ⟨_ | ⟨⟨⟩⟩, s⟩
      · exact .done
      · exact (appendDoc_erase _).bind fun _ => .read fun _ => (segsDoc_erase dd segs c 0).andThen fun _ => .done
    rw [ModelElem.docProg, ModelElem.buildProg]
    split_ifs
    · exact .store key
    · exact key
theorem segsDoc_erase (dd : List DataField) : (segs : List (SegDoc F)) → (c : Cell) → (i : Nat) →
    Erases (segsDoc c dd i segs) (segsProg c dd i segs)
  | [], c, i => by rw [segsDoc, segsProg]; exact .done
  | .mk _ _ [] :: segs, c, i => by rw [segsDoc, segsProg]; exact .done; simp; simp
  | .mk _ _ (_ :: _ :: _) :: segs, c, i => by rw [segsDoc, segsProg]; exact .done; simp; simp
  | .mk _ _ [e] :: segs, c, i => by
    rw [segsDoc, segsProg]
    exact (docProg_erase dd e (i :: c)).andThen fun _ => (segsDoc_erase dd segs c (i + 1)).andThen fun _ => .done
end

/-- Run alone, it is `newModel`. -/
theorem docProg_run (dd : List DataField) (e : ModelElem F) (c : Cell) (td : TD F) (σ : Consts F) :
    ((e.docProg c dd).run td σ).1 = (newModel dd e td).1 ∧
      ((e.docProg c dd).run td σ).2.1 = (newModel dd e td).2 := by
  rw [← buildProg_run dd e c td]
  exact (docProg_erase dd e c).run td σ

/-! ## The constants of an evaluator -/

variable {ty : String → DataType} {es : Nat → ModelElem F}

/-- The predicates of the second list are those of the first, with their constants filled in. -/
def Filled (ty : String → DataType) (sites sites' : List (Loc × SimplePred F)) : Prop :=
  ∀ x ∈ sites', ∃ p, (x.1, p) ∈ sites ∧ getRawValue (ty p.field) p.value = .ok x.2.raw

omit [Arith F] in
theorem filled_append {a b a' b' : List (Loc × SimplePred F)} (h : Filled ty a a') (h' : Filled ty b b') :
    Filled ty (a ++ b) (a' ++ b') := by
  intro x hx
  rcases List.mem_append.mp hx with hx | hx
  · obtain ⟨p, h1, h2⟩ := h x hx
    exact ⟨p, List.mem_append_left _ h1, h2⟩
  · obtain ⟨p, h1, h2⟩ := h' x hx
    exact ⟨p, List.mem_append_right _ h1, h2⟩

omit [Arith F] in
mutual
theorem compile_filled {types : FieldTypes} (ht : ∀ x dt, types[x]? = some dt → dt = ty x) : (p : Pred F) →
    (l : Loc) → ∀ {p'}, compilePredicate types p = .ok p' → Filled ty (sitesPred l p) (sitesPred l p')
  | .simple p, l, p', h => by
    obtain ⟨dt, raw, hd, hr, rfl⟩ := compile_simple h
    rw [sitesPred, sitesPred]
    intro x hx
    rw [List.mem_singleton] at hx
    rw [hx]
    exact ⟨p, by simp, by rw [← ht _ _ hd]; exact hr⟩
  | .compound op ps, l, p', h => by
    simp only [compilePredicate, bind_eq_ok] at h
    obtain ⟨ps', hps, h⟩ := h
    simp at h; subst h
    rw [sitesPred, sitesPred]
    exact compiles_filled ht ps l 0 hps
  | .true_, l, p', h => by
    simp [compilePredicate] at h; subst h; rw [sitesPred]; intro x hx; cases hx
  | .false_, l, p', h => by
    simp [compilePredicate] at h; subst h; rw [sitesPred]; intro x hx; cases hx
  | .set _, l, p', h => by
    simp [compilePredicate] at h; subst h; rw [sitesPred]; intro x hx; cases hx
theorem compiles_filled {types : FieldTypes} (ht : ∀ x dt, types[x]? = some dt → dt = ty x) : (ps : List (Pred F)) →
    (l : Loc) → (i : Nat) → ∀ {ps'}, compilePredicates types ps = .ok ps' →
    Filled ty (sitesPreds l i ps) (sitesPreds l i ps')
  | [], l, i, ps', h => by
    simp [compilePredicates] at h; subst h; rw [sitesPreds]; intro x hx; cases hx
  | p :: ps, l, i, ps', h => by
    simp only [compilePredicates, bind_eq_ok] at h
    obtain ⟨q, hq, qs, hqs, h⟩ := h
    simp at h; subst h
    rw [sitesPreds, sitesPreds]
    exact filled_append (compile_filled ht p _ hq) (compiles_filled ht ps l (i + 1) hqs)
end

mutual
theorem node_filled {types : FieldTypes} (ht : ∀ x dt, types[x]? = some dt → dt = ty x) (c : Cell) : (n : Node F) →
    (np : List Nat) → ∀ {n'}, newNode types n = .ok n' → Filled ty (sitesNode c np n) (sitesCNode c np n')
  | .mk id dc score rc dists nodes pred, np, n', h => by
    obtain ⟨cs, pred', hcs, hp, rfl⟩ := newNode_ok h
    rw [sitesNode, sitesCNode]
    refine filled_append ?_ (nodes_filled ht c nodes np 0 hcs)
    cases pred with
    | none => rw [hp]; intro x hx; cases hx
    | some p =>
      obtain ⟨p', hp', e⟩ := hp
      rw [e]
      exact compile_filled ht p _ hp'
theorem nodes_filled {types : FieldTypes} (ht : ∀ x dt, types[x]? = some dt → dt = ty x) (c : Cell) :
    (ns : List (Node F)) → (np : List Nat) → (i : Nat) → ∀ {ns'}, newNodes types ns = .ok ns' →
    Filled ty (sitesNodes c np i ns) (sitesCNodes c np i ns')
  | [], np, i, ns', h => by
    simp [newNodes] at h; subst h; rw [sitesCNodes]; intro x hx; cases hx
  | n :: ns, np, i, ns', h => by
    simp only [newNodes, bind_eq_ok] at h
    obtain ⟨q, hq, qs, hqs, h⟩ := h
    simp at h; subst h
    rw [sitesNodes, sitesCNodes]
    exact filled_append (node_filled ht c n _ hq) (nodes_filled ht c ns np (i + 1) hqs)
end

mutual
theorem built_filled {dd : List DataField} (hd : ∀ f ∈ dd, f.dataType = ty f.name) : {e : ModelElem F} →
    {m : EModel F} → (c : Cell) → BuiltFrom ty dd e m → Filled ty (sitesElem c e) (sitesModel c m)
  | _, _, c, .tree ht hn => by
    rw [sitesElem, sitesModel]
    exact node_filled (buildTypes_ty hd ht) c _ [] hn
  | _, _, c, .regression => by rw [sitesModel]; intro x hx; cases hx
  | _, _, c, .mining _ hs => by
    rw [sitesElem, sitesModel]
    exact builts_filled hd c 0 hs
theorem builts_filled {dd : List DataField} (hd : ∀ f ∈ dd, f.dataType = ty f.name) : {segs : List (SegDoc F)} →
    {ms : List (EModel F)} → (c : Cell) → (i : Nat) → BuiltFroms ty dd segs ms →
    Filled ty (sitesSegs c i segs) (sitesModels c i ms)
  | _, _, c, i, .nil => by rw [sitesModels]; intro x hx; cases hx
  | _, _, c, i, .cons he hs => by
    rw [sitesSegs, sitesModels]
    exact filled_append (built_filled hd _ he) (builts_filled hd c (i + 1) hs)
end

omit [Lib F] [Arith F] in
/-- No two predicates of the document are at the same place. -/
theorem sites_unique {n k : Nat} {l : Loc} {p q : SimplePred F} (h : (l, p) ∈ sitesElem [n] (es n))
    (h' : (l, q) ∈ sitesElem [k] (es k)) : p = q := by
  have e : n = k := suffix_cons_inj (sitesElem_at _ _ (l, p) h) (sitesElem_at _ _ (l, q) h')
  rw [← e] at h'
  exact congrArg Prod.snd (sitesElem_inj _ _ _ h _ h' rfl)

/-- When the places of the element are in place, the constants of the evaluator are. -/
theorem built_known {dd : List DataField} (hd : ∀ f ∈ dd, f.dataType = ty f.name) {n : Nat} {m : EModel F}
    (h : BuiltFrom ty dd (es n) m) {S : Set Loc} (hS : ∀ x ∈ sitesElem [n] (es n), x.1 ∈ S) :
    Known S (Belongs ty es) (sitesModel [n] m) := by
  intro x hx
  obtain ⟨p, h1, h2⟩ := built_filled hd [n] h x hx
  refine ⟨hS (x.1, p) h1, fun v hv => ?_⟩
  obtain ⟨k, q, h3, h4⟩ := hv
  rw [sites_unique h3 h1, h2] at h4
  exact (Except.ok.inj h4).symm

/-! ## Two evaluators built from the same element -/

variable [Trans F]

theorem tree_alike {d : TreeDoc F} {T T' : FieldTypes} {root : CNode F} (hx : Extends T T')
    (hn : newNode T d.node = .ok root) {t : TreeModel F} (ht : t.root = root) (hT : t.fieldTypes = T) :
    SameAnswers (.tree t) (.tree { t with fieldTypes := T' }) := by
  intro o row
  have hev : ∀ row', evalNode t.ctx o row' t.root = evalNode { t with fieldTypes := T' }.ctx o row' t.root := by
    intro row'
    refine evalNode_congr (ty := T') o (c := t.ctx) ?_
    intro r hr
    rw [ht] at hr
    obtain ⟨k, -, hkr⟩ := csub_origin d.node hn r hr
    obtain ⟨id, dc, score, rc, dists, nodes, pred⟩ := k
    obtain ⟨cs, pred', -, hp, rfl⟩ := newNode_ok hkr
    cases pred with
    | none => subst hp; rfl
    | some p =>
      obtain ⟨p', hc, rfl⟩ := hp
      have := (runTest_extends hx row' hc).symm
      rw [← hT] at this
      exact this
  simp only [EModel.evaluate, TreeModel.evaluate]
  by_cases hv : t.validated = true
  swap
  · rw [if_pos hv, if_pos hv]; exact ⟨rfl, rfl⟩
  by_cases hc : t.compiled = true
  swap
  · rw [if_neg (not_not.mpr hv), if_pos hc, if_neg (not_not.mpr hv), if_pos hc]; exact ⟨rfl, rfl⟩
  rw [if_neg (not_not.mpr hv), if_neg (not_not.mpr hc), if_neg (not_not.mpr hv), if_neg (not_not.mpr hc)]
  rcases handleInput t.model.localTransformations row with ⟨_ | ⟨⟨⟩⟩, row'⟩
  · exact ⟨rfl, rfl⟩
  · simp only
    rw [← hev row']
    cases evalNode t.ctx o row' t.root with
    | error e => exact ⟨rfl, rfl⟩
    | ok a => exact ⟨rfl, rfl⟩

theorem same_trans {a b c : EModel F} (h : SameAnswers a b) (h' : SameAnswers b c) : SameAnswers a c :=
  fun o row => ⟨(h o row).1.trans (h' o row).1, (h o row).2.trans (h' o row).2⟩

theorem same_symm {a b : EModel F} (h : SameAnswers a b) : SameAnswers b a :=
  fun o row => ⟨(h o row).1.symm, (h o row).2.symm⟩

mutual
/-- Two evaluators built from the same element answer alike. -/
theorem built_alike {dd : List DataField} (hd : ∀ f ∈ dd, f.dataType = ty f.name) : {e : ModelElem F} →
    {m m' : EModel F} → BuiltFrom ty dd e m → BuiltFrom ty dd e m' → SameAnswers m m'
  | _, _, _, .tree (td := td) h1 h2, .tree (td := td') h3 h4 => by
    have hu : Typed ty (td ++ td') := by
      intro f hf
      rcases List.mem_append.mp hf with h | h
      · exact h1 f h
      · exact h3 f h
    have e1 := buildTypes_extends hd h1 hu (List.subset_append_left td td')
    have e2 := buildTypes_extends hd h3 hu (List.subset_append_right td td')
    have n1 := newNode_extends e1 _ h2
    have n2 := newNode_extends e2 _ h4
    rw [n1] at n2
    have hr := Except.ok.inj n2
    refine same_trans (tree_alike e1 h2 rfl rfl) (same_symm ?_)
    rw [hr]
    exact tree_alike e2 h4 rfl rfl
  | _, _, _, .regression, .regression => fun o row => ⟨rfl, rfl⟩
  | _, _, _, .mining hv hs, .mining hv' hs' => by
    rw [hv] at hv'
    have := (Prod.mk.inj hv').2
    rw [← this]
    exact mining_same _ (builts_alike hd hs hs')
theorem builts_alike {dd : List DataField} (hd : ∀ f ∈ dd, f.dataType = ty f.name) : {segs : List (SegDoc F)} →
    {ms ms' : List (EModel F)} → BuiltFroms ty dd segs ms → BuiltFroms ty dd segs ms' →
    List.Forall₂ SameAnswers ms ms'
  | _, _, _, .nil, .nil => .nil
  | _, _, _, .cons h hs, .cons h' hs' => .cons (built_alike hd h h') (builts_alike hd hs hs')
end

omit [Trans F] in
/-- What `newModel` returns was built from the element. -/
theorem newModel_builtFrom {dd : List DataField} (hd : ∀ f ∈ dd, f.dataType = ty f.name) {e : ModelElem F}
    (he : ∀ f, DerivedIn f e → f.dataType = ty f.name) {td td' : TD F} (ht : Typed ty td) {m : EModel F}
    (h : newModel dd e td = (.ok m, td')) : BuiltFrom ty dd e m := by
  have hs := docProg_safe (es := fun _ => e) hd e [0] ∅ he (fun x hx => ⟨0, hx⟩)
  obtain ⟨-, S, -, hq⟩ := hs.run (σ := fun _ => .nil) ht (fun l hl => hl.elim)
  refine (hq m ?_).1
  rw [(docProg_run dd e [0] td _).1, h]

/-! ## Any program -/

variable {ι : Type} [DecidableEq ι]

/-- What is true of a goroutine at every moment. -/
def WorkerOk (ty : String → DataType) (dd : List DataField) (es : Nat → ModelElem F) (σ : Consts F) :
    Worker F → Prop
  | .idle => True
  | .building n p => ∃ S, InPlace (Belongs ty es) S σ ∧ Safe (Typed ty) (Belongs ty es)
      (fun r S' => ∀ m, r = .ok m → BuiltFrom ty dd (es n) m ∧ ∀ x ∈ sitesElem [n] (es n), x.1 ∈ S') S p
  | .evaluating n o row p => ∃ m, BuiltFrom ty dd (es n) m ∧ ∃ S, InPlace (Belongs ty es) S σ ∧
      Safe (Typed ty) (Belongs ty es)
        (fun a _ => a = ((EModel.evaluate o m row).res, (EModel.evaluate o m row).row)) S p

theorem WorkerOk.keep {dd : List DataField} {σ σ' : Consts F}
    (hk : ∀ S, InPlace (Belongs ty es) S σ → InPlace (Belongs ty es) S σ') {w : Worker F}
    (h : WorkerOk ty dd es σ w) : WorkerOk ty dd es σ' w := by
  cases w with
  | idle => trivial
  | building n p => obtain ⟨S, h1, h2⟩ := h; exact ⟨S, hk S h1, h2⟩
  | evaluating n o row p => obtain ⟨m, hm, S, h1, h2⟩ := h; exact ⟨m, hm, S, hk S h1, h2⟩

/-- What is true at every moment. -/
structure WorldOk (ty : String → DataType) (dd : List DataField) (es : Nat → ModelElem F) (w : World F ι) : Prop where
  dict : Typed ty w.dict
  workers : ∀ i, WorkerOk ty dd es w.consts (w.workers i)
  built : ∀ x ∈ w.built, BuiltFrom ty dd (es x.1) x.2 ∧
    InPlace (Belongs ty es) {l | ∃ y ∈ sitesElem [x.1] (es x.1), y.1 = l} w.consts
  answered : ∀ a ∈ w.answered, ∃ m, BuiltFrom ty dd (es a.model) m ∧
    a.res = (EModel.evaluate a.ord m a.row).res ∧ a.after = (EModel.evaluate a.ord m a.row).row

theorem workers_update {dd : List DataField} {σ : Consts F} {ws : ι → Worker F} {i : ι} {g : Worker F}
    (h : ∀ j, WorkerOk ty dd es σ (ws j)) (hg : WorkerOk ty dd es σ g) :
    ∀ j, WorkerOk ty dd es σ (Function.update ws i g j) := by
  intro j
  by_cases e : j = i
  · rw [e, Function.update_self]; exact hg
  · rw [Function.update_of_ne e]; exact h j

theorem world_step {dd : List DataField} (hd : ∀ f ∈ dd, f.dataType = ty f.name)
    (he : ∀ n f, DerivedIn f (es n) → f.dataType = ty f.name) {w w' : World F ι} (h : WorldOk ty dd es w)
    (hs : WorldStep dd es w w') : WorldOk ty dd es w' := by
  cases hs with
  | build n hi =>
    refine ⟨h.dict, workers_update h.workers ?_, h.built, h.answered⟩
    exact ⟨∅, fun l hl => hl.elim, docProg_safe hd (es n) [n] ∅ (he n) fun x hx => ⟨n, hx⟩⟩
  | @evaluate i n m o row hi hm =>
    obtain ⟨h1, h2⟩ := h.built _ hm
    refine ⟨h.dict, workers_update h.workers ?_, h.built, h.answered⟩
    have hk : Known {l | ∃ y ∈ sitesElem [n] (es n), y.1 = l} (Belongs ty es) (sitesModel [n] m) :=
      built_known hd h1 fun x hx => ⟨x, hx, rfl⟩
    exact ⟨m, h1, _, h2, (lookProg_settles m [n] o row hk).safe⟩
  | @buildAccess i n p p' td σ hi ha =>
    have hw := h.workers i
    rw [hi] at hw
    obtain ⟨S, h1, h2⟩ := hw
    obtain ⟨g1, g2, S', g3, g4⟩ := h2.access h.dict h1 ha
    exact ⟨g1, workers_update (fun j => (h.workers j).keep g2) ⟨S', g3, g4⟩,
      fun x hx => ⟨(h.built x hx).1, g2 _ (h.built x hx).2⟩, h.answered⟩
  | @evaluateAccess i n o row p p' td σ hi ha =>
    have hw := h.workers i
    rw [hi] at hw
    obtain ⟨m, hm, S, h1, h2⟩ := hw
    obtain ⟨g1, g2, S', g3, g4⟩ := h2.access h.dict h1 ha
    exact ⟨g1, workers_update (fun j => (h.workers j).keep g2) ⟨m, hm, S', g3, g4⟩,
      fun x hx => ⟨(h.built x hx).1, g2 _ (h.built x hx).2⟩, h.answered⟩
  | @built i n m hi =>
    have hw := h.workers i
    rw [hi] at hw
    obtain ⟨S, h1, h2⟩ := hw
    obtain ⟨g1, g2⟩ := h2 m rfl
    refine ⟨h.dict, workers_update h.workers trivial, fun x hx => ?_, h.answered⟩
    rcases List.mem_cons.mp hx with rfl | hx
    · refine ⟨g1, ?_⟩
      rintro l ⟨y, hy, rfl⟩
      exact h1 _ (g2 y hy)
    · exact h.built x hx
  | failed hi => exact ⟨h.dict, workers_update h.workers trivial, h.built, h.answered⟩
  | @answered i n o row a row' hi =>
    have hw := h.workers i
    rw [hi] at hw
    obtain ⟨m, hm, S, -, h2⟩ := hw
    refine ⟨h.dict, workers_update h.workers trivial, h.built, fun x hx => ?_⟩
    rcases List.mem_cons.mp hx with rfl | hx
    · exact ⟨m, hm, congrArg Prod.fst h2, congrArg Prod.snd h2⟩
    · exact h.answered x hx

/-- It is true at every moment of every program. -/
theorem world_reach {dd : List DataField} (hd : ∀ f ∈ dd, f.dataType = ty f.name)
    (he : ∀ n f, DerivedIn f (es n) → f.dataType = ty f.name) {td : TD F} (ht : Typed ty td) {σ : Consts F}
    {w : World F ι} (hw : WorldReach dd es (.init td σ) w) : WorldOk ty dd es w := by
  induction hw with
  | refl => exact ⟨ht, fun _ => trivial, by simp [World.init], by simp [World.init]⟩
  | step _ hs ih => exact world_step hd he ih hs

/-! ## Calls one after the other -/

omit [DecidableEq ι] [Arith F] [Lib F] [Trans F] in
/-- Settled programs run alone. -/
theorem Settles.run {C : Loc → GoVal F → Prop} {S : Set Loc} {p : DocProg F α} {a : α} (h : Settles S C p a)
    {σ : Consts F} (hS : InPlace C S σ) (td : TD F) : p.run td σ = (a, td, σ) := by
  induction h with
  | done => rfl
  | @look l k a hl _ ih => exact ih _ (hS l hl)

omit [DecidableEq ι] in
/-- Run alone when the constants are where they belong, `lookProg` is `evaluate`. -/
theorem lookProg_run (m : EModel F) (c : Cell) (o : MapOrd) (row : Row F) (td : TD F) {σ : Consts F}
    (h : ∀ x ∈ sitesModel c m, σ x.1 = x.2.raw) :
    (EModel.lookProg c o m row).run td σ =
      (((EModel.evaluate o m row).res, (EModel.evaluate o m row).row), td, σ) := by
  refine (lookProg_settles (S := {l | ∃ x ∈ sitesModel c m, x.1 = l}) (C := fun l v => v = σ l) m c o row ?_).run ?_ td
  · intro x hx
    exact ⟨⟨x, hx, rfl⟩, fun v hv => hv.trans (h x hx)⟩
  · intro l _
    rfl

theorem world_trans {dd : List DataField} {u v w : World F ι} (h : WorldReach dd es u v) (h' : WorldReach dd es v w) :
    WorldReach dd es u w := by
  induction h' with
  | refl => exact h
  | step _ hs ih => exact .step ih hs

theorem reach_build_run {dd : List DataField} {i : ι} {n : Nat} (p : DocProg F (Res (EModel F))) :
    ∀ {w : World F ι}, w.workers i = .building n p →
      WorldReach dd es w { w with
        dict := (p.run w.dict w.consts).2.1
        consts := (p.run w.dict w.consts).2.2
        workers := Function.update w.workers i (.building n (.done (p.run w.dict w.consts).1)) } := by
  have go : ∀ {p p' : DocProg F (Res (EModel F))} {td : TD F} {σ : Consts F} {w : World F ι},
      w.workers i = .building n p → Access p w.dict w.consts p' td σ →
      p.run w.dict w.consts = p'.run td σ →
      (∀ {w : World F ι}, w.workers i = .building n p' →
        WorldReach dd es w { w with
          dict := (p'.run w.dict w.consts).2.1
          consts := (p'.run w.dict w.consts).2.2
          workers := Function.update w.workers i (.building n (.done (p'.run w.dict w.consts).1)) }) →
      WorldReach dd es w { w with
        dict := (p.run w.dict w.consts).2.1
        consts := (p.run w.dict w.consts).2.2
        workers := Function.update w.workers i (.building n (.done (p.run w.dict w.consts).1)) } := by
    intro p p' td σ w hw ha hr ih
    have h1 := WorldReach.step (dd := dd) (es := es) .refl (WorldStep.buildAccess hw ha)
    have h2 := ih (w := { w with
      dict := td, consts := σ, workers := Function.update w.workers i (.building n p') })
      (Function.update_self ..)
    refine world_trans h1 ?_
    simp only [Function.update_idem] at h2
    rw [hr]
    exact h2
  induction p with
  | done a =>
    intro w hw
    have : Function.update w.workers i (.building n (.done a)) = w.workers := by
      rw [← hw]; exact Function.update_eq_self i w.workers
    simp only [DocProg.run, this]
    exact .refl
  | read k ih => intro w hw; exact go hw .read rfl (ih _)
  | write td k ih => intro w hw; exact go hw .write rfl ih
  | store c k ih => intro w hw; exact go hw .store rfl ih
  | const l v k ih => intro w hw; exact go hw .const rfl ih
  | look l k ih => intro w hw; exact go hw .look rfl (ih _)

theorem reach_evaluate_run {dd : List DataField} {i : ι} {n : Nat} {o : MapOrd} {row : Row F}
    (p : DocProg F (Res (Out F) × Row F)) :
    ∀ {w : World F ι}, w.workers i = .evaluating n o row p →
      WorldReach dd es w { w with
        dict := (p.run w.dict w.consts).2.1
        consts := (p.run w.dict w.consts).2.2
        workers := Function.update w.workers i (.evaluating n o row (.done (p.run w.dict w.consts).1)) } := by
  have go : ∀ {p p' : DocProg F (Res (Out F) × Row F)} {td : TD F} {σ : Consts F} {w : World F ι},
      w.workers i = .evaluating n o row p → Access p w.dict w.consts p' td σ →
      p.run w.dict w.consts = p'.run td σ →
      (∀ {w : World F ι}, w.workers i = .evaluating n o row p' →
        WorldReach dd es w { w with
          dict := (p'.run w.dict w.consts).2.1
          consts := (p'.run w.dict w.consts).2.2
          workers := Function.update w.workers i (.evaluating n o row (.done (p'.run w.dict w.consts).1)) }) →
      WorldReach dd es w { w with
        dict := (p.run w.dict w.consts).2.1
        consts := (p.run w.dict w.consts).2.2
        workers := Function.update w.workers i (.evaluating n o row (.done (p.run w.dict w.consts).1)) } := by
    intro p p' td σ w hw ha hr ih
    have h1 := WorldReach.step (dd := dd) (es := es) .refl (WorldStep.evaluateAccess hw ha)
    have h2 := ih (w := { w with
      dict := td, consts := σ, workers := Function.update w.workers i (.evaluating n o row p') })
      (Function.update_self ..)
    refine world_trans h1 ?_
    simp only [Function.update_idem] at h2
    rw [hr]
    exact h2
  induction p with
  | done a =>
    intro w hw
    have : Function.update w.workers i (.evaluating n o row (.done a)) = w.workers := by
      rw [← hw]; exact Function.update_eq_self i w.workers
    simp only [DocProg.run, this]
    exact .refl
  | read k ih => intro w hw; exact go hw .read rfl (ih _)
  | write td k ih => intro w hw; exact go hw .write rfl ih
  | store c k ih => intro w hw; exact go hw .store rfl ih
  | const l v k ih => intro w hw; exact go hw .const rfl ih
  | look l k ih => intro w hw; exact go hw .look rfl (ih _)

/-- A call of `NewModel` while nobody else does anything. -/
theorem reach_build {dd : List DataField} {w : World F ι} {i : ι} (hi : w.workers i = .idle) {n : Nat} {m : EModel F}
    {td : TD F} {σ : Consts F} (hr : ((es n).docProg [n] dd).run w.dict w.consts = (.ok m, td, σ)) :
    WorldReach dd es w { w with dict := td, consts := σ, built := (n, m) :: w.built } := by
  have h1 := WorldReach.step (dd := dd) (es := es) .refl (WorldStep.build n hi)
  have h2 := reach_build_run (dd := dd) (es := es) (i := i) (n := n) ((es n).docProg [n] dd)
    (w := { w with workers := Function.update w.workers i (.building n ((es n).docProg [n] dd)) })
    (Function.update_self ..)
  simp only [Function.update_idem, hr] at h2
  have h3 := WorldStep.built (dd := dd) (es := es)
    (w := { w with dict := td, consts := σ, workers := Function.update w.workers i (.building n (.done (.ok m))) })
    (i := i) (n := n) (m := m) (Function.update_self ..)
  have h4 := world_trans h1 (.step h2 h3)
  have hu : Function.update w.workers i .idle = w.workers := by
    rw [← hi]; exact Function.update_eq_self i w.workers
  simp only [Function.update_idem, hu] at h4
  exact h4

/-- A call of `Evaluate` while nobody else does anything. -/
theorem reach_evaluate {dd : List DataField} {w : World F ι} {i : ι} (hi : w.workers i = .idle) {n : Nat}
    {m : EModel F} (hm : (n, m) ∈ w.built) {o : MapOrd} {row row' : Row F} {a : Res (Out F)} {td : TD F}
    {σ : Consts F} (hr : (EModel.lookProg [n] o m row).run w.dict w.consts = ((a, row'), td, σ)) :
    WorldReach dd es w { w with
      dict := td, consts := σ, answered := ⟨n, o, row, a, row'⟩ :: w.answered } := by
  have h1 := WorldReach.step (dd := dd) (es := es) .refl (WorldStep.evaluate o row hi hm)
  have h2 := reach_evaluate_run (dd := dd) (es := es) (i := i) (n := n) (o := o) (row := row)
    (EModel.lookProg [n] o m row)
    (w := { w with workers := Function.update w.workers i (.evaluating n o row (EModel.lookProg [n] o m row)) })
    (Function.update_self ..)
  simp only [Function.update_idem, hr] at h2
  have h3 := WorldStep.answered (dd := dd) (es := es)
    (w := { w with
      dict := td, consts := σ, workers := Function.update w.workers i (.evaluating n o row (.done (a, row'))) })
    (i := i) (n := n) (o := o) (row := row) (a := a) (row' := row') (Function.update_self ..)
  have h4 := world_trans h1 (.step h2 h3)
  have hu : Function.update w.workers i .idle = w.workers := by
    rw [← hi]; exact Function.update_eq_self i w.workers
  simp only [Function.update_idem, hu] at h4
  exact h4

end

end Gopmml
