import Verif.Proofs.Inline
import Verif.Props.Counts

/-!
# Documents with exchanged derived fields

If every list of derived fields is replaced by one that computes the same outside `D`, and no
predicate or predictor reads a field of `D`, then the document is accepted or rejected alike, and its
model gives the same answers.
-/

namespace Gopmml
open Spec

variable {F : Type}

section
variable (D : String → Prop) (T : List (DerivedField F) → List (DerivedField F) → Prop)

mutual
inductive Reworked : ModelElem F → ModelElem F → Prop
  | tree {d : TreeDoc F} {l} : T d.localTransformations l → (∀ f ∈ nodeFields d.node, ¬ D f) →
      Reworked (.tree d) (.tree { d with localTransformations := l })
  | regression {d : RegressionDoc F} : (∀ f ∈ tableFields d, ¬ D f) → Reworked (.regression d) (.regression d)
  | mining {h : MiningHead F} {l segs segs'} : T h.localTransformations l → ReworkedSegs segs segs' →
      Reworked (.mining h segs) (.mining { h with localTransformations := l } segs')
  | other {k} : Reworked (.other k) (.other k)
inductive ReworkedSegs : List (SegDoc F) → List (SegDoc F) → Prop
  | nil : ReworkedSegs [] []
  | cons {id ps es es' segs segs'} : ReworkedDocs es es' → ReworkedSegs segs segs' →
      ReworkedSegs (.mk id ps es :: segs) (.mk id ps es' :: segs')
inductive ReworkedDocs : List (ModelElem F) → List (ModelElem F) → Prop
  | nil : ReworkedDocs [] []
  | cons {e e' es es'} : Reworked e e' → ReworkedDocs es es' → ReworkedDocs (e :: es) (e' :: es')
end
end

variable {D : String → Prop}

/-- Dictionaries that declare the same types outside `D`. -/
def TypesOff (D : String → Prop) (td td' : TD F) : Prop :=
  ∀ f, ¬ D f → (td.filter (fun d => d.name = f)).map (·.dataType) =
    (td'.filter (fun d => d.name = f)).map (·.dataType)

theorem TypesOff.append {td td' l l' : TD F} (h : TypesOff D td td') (h' : TypesOff D l l') :
    TypesOff D (td ++ l) (td' ++ l') := by
  intro f hf
  simp only [List.filter_append, List.map_append, h f hf, h' f hf]

theorem TypesOff.declared {td td' : TD F} (h : TypesOff D td td') (dd : List DataField) {f : String}
    (hf : ¬ D f) : (buildTypes dd td)[f]? = (buildTypes dd td')[f]? := by
  have := congrArg List.getLast? (h f hf)
  rw [List.getLast?_map, List.getLast?_map] at this
  rw [buildTypes_getElem?, buildTypes_getElem?]
  unfold declaredType
  cases h1 : (td.filter (fun d => d.name = f)).getLast? with
  | none =>
    rw [h1] at this
    cases h2 : (td'.filter (fun d => d.name = f)).getLast? with
    | none => rfl
    | some b => rw [h2] at this; simp at this
  | some a =>
    rw [h1] at this
    cases h2 : (td'.filter (fun d => d.name = f)).getLast? with
    | none => rw [h2] at this; simp at this
    | some b => rw [h2] at this; simpa using this

variable [Arith F] [Lib F]

section
variable {types types' : FieldTypes}

omit [Arith F] in
mutual
theorem compilePredicate_off : (p : Pred F) → (∀ f ∈ predFields p, types[f]? = types'[f]?) →
    compilePredicate types p = compilePredicate types' p
  | .simple p, h => by simp only [compilePredicate, h p.field (by simp [predFields])]
  | .compound op ps, h => by
    have := compilePredicates_off ps (by rw [predFields] at h; exact h)
    simp only [compilePredicate, this]
  | .true_, _ => by simp only [compilePredicate]
  | .false_, _ => by simp only [compilePredicate]
  | .set _, _ => by simp only [compilePredicate]
theorem compilePredicates_off : (ps : List (Pred F)) → (∀ f ∈ predFields.predsFields ps, types[f]? = types'[f]?) →
    compilePredicates types ps = compilePredicates types' ps
  | [], _ => by simp only [compilePredicates]
  | p :: ps, h => by
    rw [predFields.predsFields] at h
    have h1 := compilePredicate_off p fun f hf => h f (by simp [hf])
    have h2 := compilePredicates_off ps fun f hf => h f (by simp [hf])
    simp only [compilePredicates, h1, h2]
end

omit [Arith F] in
mutual
theorem compile_fields : (p : Pred F) → ∀ {p'}, compilePredicate types p = .ok p' → predFields p' = predFields p
  | .simple p, p', h => by
    rw [compilePredicate] at h
    split at h
    · simp at h
    · obtain ⟨pv, -, h⟩ := bind_eq_ok.mp h
      obtain rfl := Except.ok.inj h
      rfl
  | .compound op ps, p', h => by
    rw [compilePredicate] at h
    obtain ⟨ps', hps, h⟩ := bind_eq_ok.mp h
    obtain rfl := Except.ok.inj h
    simp only [predFields]
    exact compiles_fields ps hps
  | .true_, p', h => by rw [compilePredicate] at h; obtain rfl := Except.ok.inj h; rfl
  | .false_, p', h => by rw [compilePredicate] at h; obtain rfl := Except.ok.inj h; rfl
  | .set _, p', h => by rw [compilePredicate] at h; obtain rfl := Except.ok.inj h; rfl
theorem compiles_fields : (ps : List (Pred F)) → ∀ {ps'}, compilePredicates types ps = .ok ps' →
    predFields.predsFields ps' = predFields.predsFields ps
  | [], ps', h => by rw [compilePredicates] at h; obtain rfl := Except.ok.inj h; rfl
  | p :: ps, ps', h => by
    rw [compilePredicates] at h
    obtain ⟨p1, hp, h⟩ := bind_eq_ok.mp h
    obtain ⟨ps1, hps, h⟩ := bind_eq_ok.mp h
    obtain rfl := Except.ok.inj h
    simp only [predFields.predsFields, compile_fields p hp, compiles_fields ps hps]
end

variable {row row' : Row F}

mutual
theorem evalOperand_off : (p : Pred F) → (∀ f ∈ predFields p, types[f]? = types'[f]? ∧ row.get f = row'.get f) →
    evalOperand types row p = evalOperand types' row' p
  | .simple p, h => by
    obtain ⟨h1, h2⟩ := h p.field (by simp [predFields])
    simp only [evalOperand, evalSimple, h1, h2]
  | .compound op ps, h => by
    simp only [evalOperand]
    exact compoundLoop_off ps (by rw [predFields] at h; exact h) _ _ _ _
  | .true_, _ => by simp only [evalOperand]
  | .false_, _ => by simp only [evalOperand]
  | .set _, _ => by simp only [evalOperand]
theorem compoundLoop_off : (ps : List (Pred F)) →
    (∀ f ∈ predFields.predsFields ps, types[f]? = types'[f]? ∧ row.get f = row'.get f) →
    ∀ op len a b, compoundLoop types row op len a b ps = compoundLoop types' row' op len a b ps
  | [], _ => by intros; simp only [compoundLoop]
  | p :: ps, h => by
    intro op len a b
    rw [predFields.predsFields] at h
    have h1 := evalOperand_off p fun f hf => h f (by simp [hf])
    have h2 := compoundLoop_off ps fun f hf => h f (by simp [hf])
    simp only [compoundLoop, h1, h2]
end

theorem runTest_off {p : Pred F} (h : ∀ f ∈ predFields p, types[f]? = types'[f]? ∧ row.get f = row'.get f) :
    runTest types (some p) row = runTest types' (some p) row' := by
  have := evalOperand_off p h
  cases p with
  | true_ => rfl
  | false_ => rfl
  | set s => rfl
  | simple p => exact this
  | compound op ps => exact this

mutual
theorem newNode_off : (n : Node F) → (∀ f ∈ nodeFields n, types[f]? = types'[f]?) →
    newNode types n = newNode types' n
  | .mk id dc score rc dists nodes pred, h => by
    rw [nodeFields.eq_def] at h
    have h1 := newNodes_off nodes fun f hf => h f (by simp [hf])
    cases pred with
    | none => simp only [newNode, h1]
    | some p =>
      have h2 := compilePredicate_off (types := types) (types' := types') p fun f hf => h f (by simp [hf])
      simp only [newNode, h1, h2]
theorem newNodes_off : (ns : List (Node F)) → (∀ f ∈ nodesFields ns, types[f]? = types'[f]?) →
    newNodes types ns = newNodes types' ns
  | [], _ => by simp only [newNodes]
  | n :: ns, h => by
    rw [nodesFields] at h
    have h1 := newNode_off n fun f hf => h f (by simp [hf])
    have h2 := newNodes_off ns fun f hf => h f (by simp [hf])
    simp only [newNodes, h1, h2]
end

omit [Arith F] [Lib F] in
theorem nodesFields_mem {ns : List (Node F)} {n : Node F} (h : n ∈ ns) {f : String} (hf : f ∈ nodeFields n) :
    f ∈ nodesFields ns := by
  induction ns with
  | nil => cases h
  | cons k ns ih =>
    rw [nodesFields]
    rcases List.mem_cons.mp h with rfl | h
    · simp [hf]
    · simp [ih h]

omit [Arith F] [Lib F] in
theorem nodeFields_sub {k n : Node F} (h : Sub k n) {p : Pred F} (hp : k.pred = some p) {f : String}
    (hf : f ∈ predFields p) : f ∈ nodeFields n := by
  induction h with
  | refl =>
    obtain ⟨id, dc, score, rc, dists, nodes, pred⟩ := k
    simp only [Node.pred] at hp
    subst hp
    rw [nodeFields]
    simp [hf]
  | child hc _ ih =>
    rename_i n c _
    obtain ⟨id, dc, score, rc, dists, nodes, pred⟩ := n
    rw [nodeFields.eq_def]
    exact List.mem_append_right _ (nodesFields_mem hc ih)
end

/-- The same outcome, or related results. -/
def Both {α β : Type} (R : α → β → Prop) : Res α → Res β → Prop
  | .ok a, .ok b => R a b
  | .error x, .error y => x = y
  | _, _ => False

variable [Trans F]

/-- The models answer alike on rows that agree outside `D`, and leave rows that do. -/
def AlikeOff (D : String → Prop) (m m' : EModel F) : Prop :=
  ∀ o r r', Agree (fun f => ¬ D f) r r' →
    (EModel.evaluate o m (some r)).res = (EModel.evaluate o m' (some r')).res ∧
    ∃ q q', (EModel.evaluate o m (some r)).row = some q ∧ (EModel.evaluate o m' (some r')).row = some q' ∧
      Agree (fun f => ¬ D f) q q'

theorem sumSegments_off {ms ms' : List (EModel F)} (h : List.Forall₂ (AlikeOff D) ms ms') :
    ∀ o fn i sm r r', Agree (fun f => ¬ D f) r r' →
      (sumSegments o fn i sm ms (some r)).res = (sumSegments o fn i sm ms' (some r')).res ∧
      ∃ q q', (sumSegments o fn i sm ms (some r)).row = some q ∧
        (sumSegments o fn i sm ms' (some r')).row = some q' ∧ Agree (fun f => ¬ D f) q q' := by
  induction h with
  | nil => intro o fn i sm r r' h; simp only [sumSegments]; exact ⟨trivial, r, r', rfl, rfl, h⟩
  | cons hm _ ihs =>
    rename_i m m' ms ms' _
    intro o fn i sm r r' h
    obtain ⟨h1, q, q', h2, h3, h4⟩ := hm (o.at_ (2 * i)) r r' h
    simp only [sumSegments, h1, h2, h3]
    cases (EModel.evaluate (o.at_ (2 * i)) m' (some r')).res with
    | error e => exact ⟨rfl, q, q', rfl, rfl, h4⟩
    | ok out => exact ihs _ _ _ _ _ _ h4

theorem chainSegments_off {ms ms' : List (EModel F)} (h : List.Forall₂ (AlikeOff D) ms ms') :
    ∀ o i last r r', Agree (fun f => ¬ D f) r r' →
      (chainSegments o i last ms (some r)).res = (chainSegments o i last ms' (some r')).res ∧
      ∃ q q', (chainSegments o i last ms (some r)).row = some q ∧
        (chainSegments o i last ms' (some r')).row = some q' ∧ Agree (fun f => ¬ D f) q q' := by
  induction h with
  | nil => intro o i last r r' h; simp only [chainSegments]; exact ⟨trivial, r, r', rfl, rfl, h⟩
  | cons hm _ ihs =>
    rename_i m m' ms ms' _
    intro o i last r r' h
    rcases writeAll_extended (o.at_ (2 * i)) (last.getD ∅) (some r) with ⟨hn, -⟩ | ⟨row1, hw, hx⟩
    · simp at hn
    rcases writeAll_extended (o.at_ (2 * i)) (last.getD ∅) (some r') with ⟨hn, -⟩ | ⟨row1', hw', hx'⟩
    · simp at hn
    obtain ⟨p, p', rfl, rfl, hp⟩ := extended_agree h hx hx'
    obtain ⟨h1, q, q', h2, h3, h4⟩ := hm (o.at_ (2 * i + 1)) p p' hp
    simp only [chainSegments, hw, hw', h1, h2, h3]
    cases (EModel.evaluate (o.at_ (2 * i + 1)) m' (some p')).res with
    | error e => exact ⟨rfl, q, q', rfl, rfl, h4⟩
    | ok out => exact ihs _ _ _ _ _ h4

theorem runMethod_off {ms ms' : List (EModel F)} (h : List.Forall₂ (AlikeOff D) ms ms')
    (o : MapOrd) {s s' : MiningState F} (h1 : s.head.method = s'.head.method)
    (h2 : s.head.functionName = s'.head.functionName) (h3 : s.outputFields = s'.outputFields)
    (h4 : s.targets = s'.targets) (h5 : s.segments.length = s'.segments.length)
    {r r' : GoMap (GoVal F)} (ha : Agree (fun f => ¬ D f) r r') :
    (runMethod o s ms (some r)).res = (runMethod o s' ms' (some r')).res ∧
      ∃ q q', (runMethod o s ms (some r)).row = some q ∧ (runMethod o s' ms' (some r')).row = some q' ∧
        Agree (fun f => ¬ D f) q q' := by
  have hi : initScores s = initScores s' := by unfold initScores; rw [h3, h4]
  have hf : ∀ o sm, sumFinish o s sm = sumFinish o s' sm := by intro o sm; unfold sumFinish; rw [h4]
  unfold runMethod
  rw [h1, h2, hi, h5]
  simp only [hf]
  cases s'.head.method with
  | average =>
    obtain ⟨g1, g2⟩ := sumSegments_off h (o.at_ 1) s'.head.functionName 0 (initScores s') r r' ha
    exact ⟨by simp only [g1], g2⟩
  | sum =>
    obtain ⟨g1, g2⟩ := sumSegments_off h (o.at_ 1) s'.head.functionName 0 (initScores s') r r' ha
    exact ⟨by simp only [g1], g2⟩
  | modelChain => exact chainSegments_off h (o.at_ 1) 0 (some ∅) r r' ha
  | selectFirst =>
    cases h with
    | nil => simp only [selectFirst]; exact ⟨trivial, r, r', rfl, rfl, ha⟩
    | cons hm _ => exact hm (o.at_ 1) r r' ha
  | empty => exact ⟨rfl, r, r', rfl, rfl, ha⟩
  | other t => exact ⟨rfl, r, r', rfl, rfl, ha⟩

omit [Trans F] in
theorem prepared_off {h : MiningHead F} {l : List (DerivedField F)} (hl : Reworks D h.localTransformations l)
    {r r' : GoMap (GoVal F)} (ha : Agree (fun f => ¬ D f) r r') {e e' : Res Unit} {row row' : Row F}
    (h1 : Prepared h (some r) e row)
    (h2 : Prepared { h with localTransformations := l } (some r') e' row') :
    e = e' ∧ ∃ q q', row = some q ∧ row' = some q' ∧ Agree (fun f => ¬ D f) q q' := by
  cases h1 with
  | row i1 g1 =>
    cases h2 with
    | row i2 g2 =>
      have := hl.runs _ _ (imputed_agree ha i1 i2)
      simp only at g2
      rw [g1, g2] at this
      exact this

theorem tree_off {dd : List DataField} {d : TreeDoc F} {l : List (DerivedField F)}
    (hl : Reworks D d.localTransformations l) (hf : ∀ f ∈ nodeFields d.node, ¬ D f) {td td2 : TD F}
    (ht : TypesOff D td td2) :
    Both (AlikeOff D) (newModel dd (.tree d) td).1
      (newModel dd (.tree { d with localTransformations := l }) td2).1 ∧
    TypesOff D (newModel dd (.tree d) td).2 (newModel dd (.tree { d with localTransformations := l }) td2).2 := by
  have ht' := ht.append (l := d.localTransformations) (l' := l) hl.types
  have hty : ∀ f ∈ nodeFields d.node, (treeTypes dd td d)[f]? =
      (treeTypes dd td2 { d with localTransformations := l })[f]? := fun f h => ht'.declared dd (hf f h)
  have hnn := newNode_off d.node hty
  simp only [newModel]
  by_cases hfn : d.functionName ≠ .classification ∧ d.functionName ≠ .regression
  · rw [newTreeModel_bad hfn, newTreeModel_bad (d := { d with localTransformations := l }) hfn]
    exact ⟨rfl, ht⟩
  have g1 := newTreeModel_good (dd := dd) (td := td) hfn
  have g2 := newTreeModel_good (dd := dd) (td := td2) (d := { d with localTransformations := l }) hfn
  simp only at g2
  rw [← hnn] at g2
  cases hn : newNode (treeTypes dd td d) d.node with
  | error e =>
    rw [hn] at g1 g2
    simp only at g1 g2
    rw [g1, g2]
    exact ⟨rfl, ht'⟩
  | ok root =>
    rw [hn] at g1 g2
    obtain ⟨t, g1⟩ := g1
    obtain ⟨t', g2⟩ := g2
    rw [g1, g2]
    refine ⟨?_, ht'⟩
    simp only [Both]
    obtain ⟨-, -, hv, hc, hk, hm, htf, hx, hr⟩ := newTreeModel_ok g1
    obtain ⟨-, -, hv', hc', hk', hm', htf', hx', hr'⟩ := newTreeModel_ok g2
    simp only at hr' htf' hm'
    rw [← hnn, hn] at hr'
    rw [hn] at hr
    obtain hr := Except.ok.inj hr
    obtain hr' := Except.ok.inj hr'
    have ho : KeysOk t.outKeys := by rw [hk]; exact keysOk_empty
    have ho' : KeysOk t'.outKeys := by rw [hk']; exact keysOk_empty
    intro o r r' ha
    obtain ⟨e1, e2, -⟩ := evaluate_eq hv hc ho o (some r)
    obtain ⟨e1', e2', -⟩ := evaluate_eq hv' hc' ho' o (some r')
    have hlt : t.model.localTransformations = d.localTransformations := by rw [hm]
    have hlt' : t'.model.localTransformations = l := by rw [hm']
    have hfn1 : t.model.functionName = d.functionName := by rw [hm]
    have hfn2 : t'.model.functionName = d.functionName := by rw [hm']
    rw [hlt] at e1 e2
    rw [hlt'] at e1' e2'
    obtain ⟨k1, q, q', k2, k3, k4⟩ := hl.runs r r' ha
    simp only [EModel.evaluate]
    refine ⟨?_, q, q', by rw [e1, k2], by rw [e1', k3], k4⟩
    rw [e2, e2']
    rcases p1 : handleInput d.localTransformations (some r) with ⟨x, row⟩
    rcases p2 : handleInput l (some r') with ⟨x', row'⟩
    rw [p1, p2] at k1
    rw [p1] at k2
    rw [p2] at k3
    simp only at k1 k2 k3
    subst k1 k2 k3
    cases x with
    | error e => rfl
    | ok u =>
      have hs : SameTests (docCtx dd td d) (treeTypes dd td2 { d with localTransformations := l }) (some q)
          (some q') root := by
        intro c hsub
        obtain ⟨k, hk, hkr⟩ := csub_origin d.node hn c hsub
        obtain ⟨id, dc, score, rc, dists, nodes, pred⟩ := k
        obtain ⟨cs, pred', -, hp, rfl⟩ := newNode_ok hkr
        cases pred with
        | none => subst hp; rfl
        | some p =>
          obtain ⟨p', hcp, rfl⟩ := hp
          refine runTest_off fun f hff => ?_
          rw [compile_fields p hcp] at hff
          have hmem := nodeFields_sub hk rfl hff
          exact ⟨hty f hmem, k4 f (hf f hmem)⟩
      have := evalNode_congr o hs
      simp only [hx, hx', hr.symm, hr'.symm, hfn1, hfn2, htf, htf', this]
      rfl

section
variable {T : List (DerivedField F) → List (DerivedField F) → Prop} (hT : ∀ {L L'}, T L L' → Reworks D L L')
  {dd : List DataField}
include hT

omit [Arith F] [Lib F] [Trans F] hT in
theorem ReworkedSegs.length_eq {segs segs' : List (SegDoc F)} (h : ReworkedSegs D T segs segs') :
    segs.length = segs'.length := by
  induction segs generalizing segs' with
  | nil => cases h; rfl
  | cons s segs ih => cases h with
    | cons _ h => simp [ih h]

set_option linter.unusedSectionVars false in
mutual
theorem reworked_newModel : (e : ModelElem F) → ∀ {e'} td td2, Reworked D T e e' → TypesOff D td td2 →
    Both (AlikeOff D) (newModel dd e td).1 (newModel dd e' td2).1 ∧
    TypesOff D (newModel dd e td).2 (newModel dd e' td2).2
  | .tree d, _, td, td2, h, ht => by
    cases h with
    | tree h1 h2 => exact tree_off (hT h1) h2 ht
  | .regression d, _, td, td2, h, ht => by
    cases h with
    | regression h =>
      simp only [newModel]
      refine ⟨?_, ht⟩
      simp only [Both]
      intro o r r' ha
      simp only [EModel.evaluate]
      refine ⟨regression_agree d fun t ht np hnp => ha _ (h _ ?_), r, r', rfl, rfl, ha⟩
      simp only [tableFields, List.mem_flatMap, List.mem_map]
      exact ⟨t, ht, np, hnp, rfl⟩
  | .other k, _, td, td2, h, ht => by
    cases h
    exact ⟨by simp only [newModel, Both], ht⟩
  | .mining hd segs, _, td, td2, h, ht => by
    cases h with
    | @mining _ l _ segs' h1 h2 =>
    have hl := hT h1
    have ht' := ht.append (l := hd.localTransformations) (l' := l) hl.types
    have ih := reworked_segments segs (td ++ hd.localTransformations) (td2 ++ l) h2 ht'
    have hvf : ((MiningState.init dd { hd with localTransformations := l } segs').validate).1 =
        ((MiningState.init dd hd segs).validate).1 := by
      unfold MiningState.validate MiningState.init
      simp only
      split_ifs <;> rfl
    have hlt : ((MiningState.init dd hd segs).validate).2.head.localTransformations = hd.localTransformations := by
      unfold MiningState.validate MiningState.init
      simp only
      split_ifs <;> rfl
    have hlt' : ((MiningState.init dd { hd with localTransformations := l } segs').validate).2.head.localTransformations
        = l := by
      unfold MiningState.validate MiningState.init
      simp only
      split_ifs <;> rfl
    rcases hn1 : newModel dd (.mining hd segs) td with ⟨x1, tdx⟩
    rcases hn2 : newModel dd (.mining { hd with localTransformations := l } segs') td2 with ⟨x2, tdy⟩
    have hn1' := hn1
    have hn2' := hn2
    rw [newModel] at hn1 hn2
    rcases hv : (MiningState.init dd hd segs).validate with ⟨_ | ⟨⟨⟩⟩, s⟩ <;>
      rcases hv' : (MiningState.init dd { hd with localTransformations := l } segs').validate with ⟨_ | ⟨⟨⟩⟩, s'⟩ <;>
      rw [hv, hv'] at hvf
    · rw [hv] at hn1
      rw [hv'] at hn2
      simp only [Prod.mk.injEq] at hn1 hn2 hvf
      obtain ⟨rfl, rfl⟩ := hn1
      obtain ⟨rfl, rfl⟩ := hn2
      simp only [Except.error.injEq] at hvf
      exact ⟨hvf.symm, ht⟩
    · simp at hvf
    · simp at hvf
    · rw [hv] at hn1 hlt
      rw [hv'] at hn2 hlt'
      simp only at hn1 hn2 hlt hlt'
      rw [hlt] at hn1
      rw [hlt'] at hn2
      rcases hc : compileSegments dd segs (td ++ hd.localTransformations) with ⟨_ | ⟨⟨⟩⟩, ms, td1⟩ <;>
        rcases hc' : compileSegments dd segs' (td2 ++ l) with ⟨_ | ⟨⟨⟩⟩, ms', td1'⟩ <;>
        rw [hc, hc'] at ih <;> rw [hc] at hn1 <;> rw [hc'] at hn2 <;>
        simp only [Prod.mk.injEq] at hn1 hn2 <;> obtain ⟨rfl, rfl⟩ := hn1 <;> obtain ⟨rfl, rfl⟩ := hn2
      · exact ⟨ih.1, ih.2.2⟩
      · exact ih.1.elim
      · exact ih.1.elim
      · refine ⟨?_, ih.2.2⟩
        obtain ⟨-, ih, -⟩ := ih
        specialize ih rfl
        simp only [Both]
        obtain ⟨s1, ms1, heq, -, a1, a2, a3, a4, hev⟩ := constructed_mining hn1'
        simp only [EModel.mining.injEq] at heq
        obtain ⟨rfl, rfl⟩ := heq
        obtain ⟨s2, ms2, heq, -, b1, b2, b3, b4, hev'⟩ := constructed_mining hn2'
        simp only [EModel.mining.injEq] at heq
        obtain ⟨rfl, rfl⟩ := heq
        intro o r r' ha
        rcases hev o (some r) with ⟨e1, row1, hp1, he1⟩ | ⟨row1, hp1, he1⟩ <;>
          rcases hev' o (some r') with ⟨e2, row2, hp2, he2⟩ | ⟨row2, hp2, he2⟩ <;>
          obtain ⟨hee, q, q', rfl, rfl, hq⟩ := prepared_off hl ha hp1 hp2
        · rw [he1, he2]
          simp only [Except.error.injEq] at hee
          subst hee
          exact ⟨rfl, q, q', rfl, rfl, hq⟩
        · simp at hee
        · simp at hee
        · rw [he1, he2]
          exact runMethod_off ih o (by rw [a1, b1]) (by rw [a1, b1]) (by rw [a2, b2]) (by rw [a3, b3])
            (by rw [a4, b4]; exact h2.length_eq) hq
theorem reworked_segments : (segs : List (SegDoc F)) → ∀ {segs'} td td2, ReworkedSegs D T segs segs' →
    TypesOff D td td2 →
    Both (fun _ _ => True) (compileSegments dd segs td).1 (compileSegments dd segs' td2).1 ∧
    ((compileSegments dd segs td).1 = .ok () → List.Forall₂ (AlikeOff D) (compileSegments dd segs td).2.1
      (compileSegments dd segs' td2).2.1) ∧
    TypesOff D (compileSegments dd segs td).2.2 (compileSegments dd segs' td2).2.2
  | [], _, td, td2, h, ht => by
    cases h
    simp only [compileSegments]
    exact ⟨trivial, fun _ => .nil, ht⟩
  | .mk id ps [] :: segs, _, td, td2, h, ht => by
    cases h with
    | cons h1 h2 =>
      cases h1
      simp only [compileSegments]
      exact ⟨rfl, by simp, ht⟩
  | .mk id ps (e :: e2 :: es) :: segs, _, td, td2, h, ht => by
    cases h with
    | cons h1 h2 =>
      cases h1 with
      | cons h1 h3 =>
        cases h3 with
        | @cons _ _ _ es' h3 h4 =>
          have : es.length = es'.length := by
            clear * - h4
            induction es generalizing es' with
            | nil => cases h4; rfl
            | cons a es ih => cases h4 with
              | cons _ h => simp [ih h]
          simp only [compileSegments, List.length_cons, this]
          exact ⟨rfl, by simp, ht⟩
  | .mk id ps [e] :: segs, _, td, td2, h, ht => by
    cases h with
    | cons h1 h2 =>
      cases h1 with
      | @cons _ e' _ _ h1 hn =>
        cases hn
        obtain ⟨g1, g2⟩ := reworked_newModel e td td2 h1 ht
        rw [compileSegments, compileSegments]
        rcases hc : newModel dd e td with ⟨_ | m, td1⟩ <;>
          rcases hc' : newModel dd e' td2 with ⟨_ | m', td1'⟩ <;> rw [hc, hc'] at g1 g2
        · exact ⟨g1, by simp, g2⟩
        · exact g1.elim
        · exact g1.elim
        · obtain ⟨k1, k2, k3⟩ := reworked_segments segs td1 td1' h2 g2
          exact ⟨k1, fun h => .cons g1 (k2 h), k3⟩
end
end

end Gopmml
