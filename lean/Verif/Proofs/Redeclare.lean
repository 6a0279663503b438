import Verif.Spec.Redeclare
import Verif.Proofs.Reworked

/-!
# Declarations written down differently
-/

namespace Gopmml
open Spec

variable {F : Type}

/-! ## Nodes look at the data dictionary for their own distribution only -/

section
variable [Arith F] [Lib F] {c : TreeCtx F} {dd : List DataField}
  (hd : ∀ n : CNode F, outputScoreDist c n = outputScoreDist { c with dd := dd } n)
include hd

set_option linter.unusedSectionVars false in
mutual
theorem evalNone_dd {row : Row F} : (n : CNode F) → evalNone c row n = evalNone { c with dd := dd } row n
  | .mk id dc sd sc pred cs => by
    have h1 := evalNoneChildren_dd (row := row) cs
    simp only [evalNone, h1, hd]
theorem evalNoneChildren_dd {row : Row F} : (ns : List (CNode F)) →
    evalNoneChildren c row ns = evalNoneChildren { c with dd := dd } row ns
  | [] => by simp only [evalNoneChildren]
  | n :: ns => by
    have h0 := evalNone_dd (row := row) n
    have h1 := evalNoneChildren_dd (row := row) ns
    simp only [evalNoneChildren, h0, h1]
end

set_option linter.unusedSectionVars false in
mutual
theorem evalNull_dd {row : Row F} : (n : CNode F) → evalNull c row n = evalNull { c with dd := dd } row n
  | .mk id dc sd sc pred cs => by
    have h1 := evalNullChildren_dd (row := row) cs
    simp only [evalNull, h1, hd]
theorem evalNullChildren_dd {row : Row F} : (ns : List (CNode F)) →
    evalNullChildren c row ns = evalNullChildren { c with dd := dd } row ns
  | [] => by simp only [evalNullChildren]
  | n :: ns => by
    have h0 := evalNull_dd (row := row) n
    have h1 := evalNullChildren_dd (row := row) ns
    simp only [evalNullChildren, h0, h1]
end

set_option linter.unusedSectionVars false in
mutual
theorem evalLast_dd {row : Row F} : (n : CNode F) → evalLast c row n = evalLast { c with dd := dd } row n
  | .mk id dc sd sc pred cs => by
    have h1 := evalLastChildren_dd (row := row) cs
    simp only [evalLast, h1, hd]
theorem evalLastChildren_dd {row : Row F} : (ns : List (CNode F)) →
    evalLastChildren c row ns = evalLastChildren { c with dd := dd } row ns
  | [] => by simp only [evalLastChildren]
  | n :: ns => by
    have h0 := evalLast_dd (row := row) n
    have h1 := evalLastChildren_dd (row := row) ns
    simp only [evalLastChildren, h0, h1]
end

set_option linter.unusedSectionVars false in
mutual
theorem evalDefault_dd {row : Row F} : (n : CNode F) → evalDefault c row n = evalDefault { c with dd := dd } row n
  | .mk id dc sd sc pred cs => by
    have h1 := evalDefaultChildren_dd (row := row) cs
    simp only [evalDefault, h1, hd]
theorem evalDefaultChildren_dd {row : Row F} : (ns : List (CNode F)) →
    evalDefaultChildren c row ns = evalDefaultChildren { c with dd := dd } row ns
  | [] => by simp only [evalDefaultChildren]
  | n :: ns => by
    have h0 := evalDefault_dd (row := row) n
    have h1 := evalDefaultChildren_dd (row := row) ns
    simp only [evalDefaultChildren, h0, h1]
end

set_option linter.unusedSectionVars false in
mutual
theorem evalWeighted_dd {row : Row F} (o : MapOrd) : (n : CNode F) →
    evalWeighted c row o n = evalWeighted { c with dd := dd } row o n
  | .mk id dc sd sc pred cs => by
    have h1 := evalWeightedChildren_dd (row := row) o 2 cs
    simp only [evalWeighted, h1, hd]
theorem evalWeightedChildren_dd {row : Row F} (o : MapOrd) (i : Nat) : (ns : List (CNode F)) →
    evalWeightedChildren c row o i ns = evalWeightedChildren { c with dd := dd } row o i ns
  | [] => by simp only [evalWeightedChildren]
  | n :: ns => by
    have h0 := evalWeighted_dd (row := row) (o.at_ i) n
    have h1 := evalWeightedChildren_dd (row := row) o (i + 1) ns
    simp only [evalWeightedChildren, h0, h1]
end

set_option linter.unusedSectionVars false in
mutual
theorem evalAggregate_dd {row : Row F} (o : MapOrd) : (n : CNode F) →
    evalAggregate c row o n = evalAggregate { c with dd := dd } row o n
  | .mk id dc sd sc pred cs => by
    have h1 := evalAggregateChildren_dd (row := row) o 1 cs
    simp only [evalAggregate, h1, hd]
theorem evalAggregateChildren_dd {row : Row F} (o : MapOrd) (i : Nat) : (ns : List (CNode F)) →
    evalAggregateChildren c row o i ns = evalAggregateChildren { c with dd := dd } row o i ns
  | [] => by simp only [evalAggregateChildren]
  | n :: ns => by
    have h0 := evalAggregate_dd (row := row) (o.at_ i) n
    have h1 := evalAggregateChildren_dd (row := row) o (i + 1) ns
    simp only [evalAggregateChildren, h0, h1]
end

theorem evalNode_dd (o : MapOrd) (row : Row F) (n : CNode F) :
    evalNode c o row n = evalNode { c with dd := dd } o row n := by
  unfold evalNode
  rw [evalAggregate_dd hd o n, evalDefault_dd hd n, evalLast_dd hd n, evalNone_dd hd n,
    evalNull_dd hd n, evalWeighted_dd hd o n]
end

theorem targetDist_dd [Arith F] {c : TreeCtx F} {dd : List DataField}
    (h : targetValues c.dd c.targetField = targetValues dd c.targetField) (s : ScoreDist F) :
    targetDist c s = targetDist { c with dd := dd } s := by
  have key : ∀ l : List DataField, (l.flatMap fun field =>
      if field.name = c.targetField then
        field.values.map fun v => if v = s.value then (⟨v, Arith.one, Arith.one, s.recordCount⟩ : ScoreDist F)
          else ⟨v, Arith.zero, Arith.zero, Arith.zero⟩
      else []) = (targetValues l c.targetField).map fun v =>
        if v = s.value then ⟨v, Arith.one, Arith.one, s.recordCount⟩ else ⟨v, Arith.zero, Arith.zero, Arith.zero⟩ := by
    intro l
    unfold targetValues
    induction l with
    | nil => rfl
    | cons f l ih =>
      rw [List.flatMap_cons, ih]
      by_cases hf : f.name = c.targetField <;> simp [hf]
  unfold targetDist
  simp only [key, h]

theorem outputScoreDist_dd [Arith F] {c : TreeCtx F} {dd : List DataField}
    (h : c.targetField ≠ "" → targetValues c.dd c.targetField = targetValues dd c.targetField) (n : CNode F) :
    outputScoreDist c n = outputScoreDist { c with dd := dd } n := by
  unfold outputScoreDist
  by_cases ht : c.targetField = ""
  · simp [ht]
  · rw [targetDist_dd (h ht)]

theorem declaredType_dd {dd dd' : List DataField} {f : String} (h : dataTypeOf dd f = dataTypeOf dd' f) (td : TD F) :
    declaredType dd td f = declaredType dd' td f := by
  unfold dataTypeOf at h
  unfold declaredType
  rw [h]

/-! ## Trees -/

variable [Arith F] [Lib F] [Trans F]

theorem tree_redeclared {dd dd' : List DataField} {d : TreeDoc F} {fs : List MiningField}
    {v : Option (ModelVerification F)} (ht : ∀ f ∈ nodeFields d.node, dataTypeOf dd f = dataTypeOf dd' f)
    (h1 : targetOf d.miningFields = targetOf fs)
    (h2 : targetOf fs ≠ "" → targetValues dd (targetOf fs) = targetValues dd' (targetOf fs)) (td : TD F) :
    ResRel (SameFor fun _ => True) (newModel dd (.tree d) td).1
      (newModel dd' (.tree { d with miningFields := fs, verification := v }) td).1 ∧
    (newModel dd (.tree d) td).2 = (newModel dd' (.tree { d with miningFields := fs, verification := v }) td).2 := by
  have hty : ∀ f ∈ nodeFields d.node, (treeTypes dd td d)[f]? =
      (treeTypes dd' td { d with miningFields := fs, verification := v })[f]? := by
    intro f hf
    unfold treeTypes
    rw [buildTypes_getElem?, buildTypes_getElem?]
    exact declaredType_dd (ht f hf) _
  have hnn := newNode_off d.node hty
  simp only [newModel]
  by_cases hfn : d.functionName ≠ .classification ∧ d.functionName ≠ .regression
  · rw [newTreeModel_bad hfn, newTreeModel_bad (d := { d with miningFields := fs, verification := v }) hfn]
    exact ⟨.error _, rfl⟩
  have g1 := newTreeModel_good (dd := dd) (td := td) hfn
  have g2 := newTreeModel_good (dd := dd') (td := td) (d := { d with miningFields := fs, verification := v }) hfn
  simp only at g2
  rw [← hnn] at g2
  cases hn : newNode (treeTypes dd td d) d.node with
  | error e =>
    rw [hn] at g1 g2
    simp only at g1 g2
    rw [g1, g2]
    exact ⟨.error _, rfl⟩
  | ok root =>
    rw [hn] at g1 g2
    obtain ⟨t, g1⟩ := g1
    obtain ⟨t2, g2⟩ := g2
    obtain ⟨-, -, hv, hcm, hk, hmod, htt, hctx, hroot⟩ := newTreeModel_ok g1
    obtain ⟨-, -, hv2, hcm2, hk2, hmod2, htt2, hctx2, hroot2⟩ := newTreeModel_ok g2
    rw [g1, g2]
    refine ⟨.ok fun o _ row => ?_, rfl⟩
    simp only [EModel.evaluate]
    obtain ⟨a1, a2, -⟩ := evaluate_eq hv hcm (by rw [hk]; exact keysOk_empty) o row
    obtain ⟨b1, b2, -⟩ := evaluate_eq hv2 hcm2 (by rw [hk2]; exact keysOk_empty) o row
    rw [a1, a2, b1, b2, hctx, hctx2, hmod, hmod2, htt, htt2]
    refine ⟨?_, rfl⟩
    change newNode (treeTypes dd' td { d with miningFields := fs, verification := v }) d.node = _ at hroot2
    rw [← hnn, hn, Except.ok.injEq] at hroot2
    rw [hn, Except.ok.injEq] at hroot
    subst hroot
    rw [← hroot2]
    dsimp only
    rcases handleInput d.localTransformations row with ⟨_ | _, row1⟩
    · rfl
    · have e1 : evalNode (docCtx dd td d) o row1 t.root =
          evalNode (docCtx dd' td { d with miningFields := fs, verification := v }) o row1 t.root := by
        rw [evalNode_dd (dd := dd') (outputScoreDist_dd (c := docCtx dd td d) (dd := dd') (by
          intro hne
          have hx : (docCtx dd td d).targetField = targetOf fs := h1
          rw [hx] at hne ⊢
          exact h2 hne)) o row1 t.root]
        rw [evalNode_congr (c := { docCtx dd td d with dd := dd' })
          (ty := treeTypes dd' td { d with miningFields := fs, verification := v }) (row' := row1) o ?_]
        · unfold docCtx
          simp only [h1]
        · intro c hsub
          obtain ⟨k, hk, hkr⟩ := csub_origin d.node hn c hsub
          obtain ⟨id, dc, score, rc, dists, nodes, pred⟩ := k
          obtain ⟨cs, pred', -, hp, rfl⟩ := newNode_ok hkr
          cases pred with
          | none => subst hp; rfl
          | some p =>
            obtain ⟨p', hcp, rfl⟩ := hp
            refine runTest_off fun f hff => ?_
            rw [compile_fields p hcp] at hff
            exact ⟨hty f (nodeFields_sub hk rfl hff), rfl⟩
      simp only [e1, h1]

/-! ## Ensembles -/

/-- One factor or constant. -/
def scaleStep (x : Option F) : F ⊕ F → Option F
  | .inl k => some (Arith.mul (x.getD Arith.zero) k)
  | .inr k => some (Arith.add (x.getD Arith.zero) k)

omit [Lib F] [Trans F] in
theorem rescale_scaling (ts : List (Target F)) (k : String) : ∀ m : GoMap F,
    (rescale ts m)[k]? = (scaling ts k).foldl scaleStep m[k]? := by
  unfold rescale scaling
  induction ts with
  | nil => intro m; rfl
  | cons t ts ih =>
    intro m
    rw [List.foldl_cons, ih]
    by_cases hk : t.field = k
    · subst hk
      rw [List.filter_cons_of_pos (by simp), List.flatMap_cons, List.foldl_append]
      congr 1
      cases hf : t.rescaleFactor <;> cases hc : t.rescaleConstant <;> simp [scaleStep]
    · rw [List.filter_cons_of_neg (by simpa using hk)]
      congr 1
      cases hf : t.rescaleFactor <;> cases hc : t.rescaleConstant <;>
        simp [GoMap.getElem?_insert, hk]

omit [Lib F] [Trans F] in
theorem rescale_redeclared {ts ts' : List (Target F)} (h : ∀ k, scaling ts k = scaling ts' k) (m : GoMap F) :
    rescale ts m = rescale ts' m := by
  apply Std.ExtTreeMap.ext_getElem?
  intro k
  rw [rescale_scaling, rescale_scaling, h]

omit [Arith F] [Lib F] [Trans F] in
theorem buildDefaults_redeclared {fs fs' : List MiningField} (h : ∀ f, replacement fs f = replacement fs' f) :
    buildDefaults (F := F) fs = buildDefaults fs' := by
  apply Std.ExtTreeMap.ext_getElem?
  intro k
  rw [buildDefaults_getElem?, buildDefaults_getElem?, h]

omit [Lib F] [Trans F] in
theorem initScores_redeclared {s s' : MiningState F}
    (h : ∀ k, k ∈ s.outputFields.map (·.name) ++ s.targets.map (·.field) ↔
      k ∈ s'.outputFields.map (·.name) ++ s'.targets.map (·.field)) : initScores s = initScores s' := by
  apply Std.ExtTreeMap.ext_getElem?
  intro k
  rw [initScores_getElem?, initScores_getElem?]
  simp only [h]

/-- What an ensemble's answers depend on. -/
theorem mining_states {s s' : MiningState F} {ms ms2 : List (EModel F)} (h1 : s.validated = s'.validated)
    (h2 : s.compiled = s'.compiled) (h3 : s.defaultValues = s'.defaultValues)
    (h4 : s.head.localTransformations = s'.head.localTransformations)
    (h5 : s.head.functionName = s'.head.functionName) (h6 : s.head.method = s'.head.method)
    (h7 : initScores s = initScores s') (h8 : ∀ m, rescale s.targets m = rescale s'.targets m)
    (h9 : s'.segments.length = s.segments.length) (h : List.Forall₂ (SameFor fun _ => True) ms ms2) :
    SameFor (fun _ => True) (.mining s ms) (.mining s' ms2) := by
  intro o ho row
  obtain ⟨k1, k2⟩ := mining_for (P := fun _ => True) (fun _ _ _ => trivial) s h9 h o ho row
  rw [k1, k2]
  have hi : initScores { s with segments := s'.segments } = initScores s' := h7
  simp only [EModel.evaluate, sumFinish, h8]
  rw [hi]
  simp only [h1, h2, h3, h4, h5, h6]
  by_cases hv : s'.validated = true
  swap
  · rw [if_pos hv, if_pos hv]; exact ⟨rfl, rfl⟩
  by_cases hc : s'.compiled = true
  swap
  · simp only [hv, not_true_eq_false, if_false]
    rw [if_pos hc, if_pos hc]; exact ⟨rfl, rfl⟩
  simp only [hv, hc, not_true_eq_false, if_false]
  rcases imputeLoop ((o.at_ 0).range s'.defaultValues) row with ⟨_ | ⟨⟨⟩⟩, row1⟩
  · exact ⟨rfl, rfl⟩
  dsimp only
  rcases handleInput s'.head.localTransformations row1 with ⟨_ | ⟨⟨⟩⟩, row2⟩
  · exact ⟨rfl, rfl⟩
  dsimp only
  cases s'.head.method <;> exact ⟨rfl, rfl⟩

omit [Arith F] [Lib F] [Trans F] in
theorem RedeclaredSegs.length_eq {dd dd' : List DataField} {segs segs' : List (SegDoc F)}
    (h : RedeclaredSegs dd dd' segs segs') : segs.length = segs'.length := by
  induction segs generalizing segs' with
  | nil => cases h; rfl
  | cons s segs ih => cases h with
    | cons _ h => simp [ih h]

omit [Arith F] [Lib F] [Trans F] in
theorem RedeclaredDocs.length_eq {dd dd' : List DataField} {es es' : List (ModelElem F)}
    (h : RedeclaredDocs dd dd' es es') : es.length = es'.length := by
  induction es generalizing es' with
  | nil => cases h; rfl
  | cons s es ih => cases h with
    | cons _ h => simp [ih h]

mutual
theorem redeclared_newModel {dd dd' : List DataField} : (e : ModelElem F) → ∀ {e'} (td : TD F),
    Redeclared dd dd' e e' →
    ResRel (SameFor fun _ => True) (newModel dd e td).1 (newModel dd' e' td).1 ∧
    (newModel dd e td).2 = (newModel dd' e' td).2
  | .tree d, _, td, h => by
    cases h with
    | tree h1 h2 h3 => exact tree_redeclared h1 h2 h3 td
  | .regression d, _, td, h => by
    cases h
    simp only [newModel]
    refine ⟨.ok fun o _ row => ?_, trivial⟩
    simp only [EModel.evaluate]
    exact ⟨rfl, trivial⟩
  | .other k, _, td, h => by
    cases h
    simp only [newModel]
    exact ⟨.error _, trivial⟩
  | .mining hd segs, _, td, h => by
    cases h with
    | @mining _ fs outs ts v _ segs' h1 h2 h3 h4 h =>
    have hall : hd.outputs.all (fun f => decide (f.feature = .empty ∨ f.feature = .probability)) =
        outs.all (fun f => decide (f.feature = .empty ∨ f.feature = .probability)) := by
      rw [Bool.eq_iff_iff]
      simpa [Served] using h2
    rw [newModel, newModel]
    unfold MiningState.validate MiningState.init
    dsimp only
    rw [hall]
    generalize hmeth : (if hd.method = .empty then .sum else hd.method : MultipleModelMethod) = meth
    by_cases hm : meth = .average ∨ meth = .modelChain ∨ meth = .sum ∨ meth = .selectFirst
    swap
    · rw [if_neg hm, if_neg hm]
      exact ⟨.error _, rfl⟩
    rw [if_pos hm, if_pos hm]
    by_cases ho : outs.all (fun f => decide (f.feature = .empty ∨ f.feature = .probability)) = true
    swap
    · rw [if_neg ho, if_neg ho]
      exact ⟨.error _, rfl⟩
    rw [if_pos ho, if_pos ho]
    dsimp only
    obtain ⟨g1, g2, g3⟩ := redeclared_segments segs (td ++ hd.localTransformations) h
    rcases hc : compileSegments dd segs (td ++ hd.localTransformations) with ⟨r, ms, td1⟩
    rcases hc' : compileSegments dd' segs' (td ++ hd.localTransformations) with ⟨r', ms', td1'⟩
    rw [hc, hc'] at g1 g2 g3
    simp only at g1 g2 g3
    subst g1 g3
    cases r with
    | error e => exact ⟨.error _, rfl⟩
    | ok u =>
      refine ⟨.ok ?_, rfl⟩
      exact mining_states rfl rfl (buildDefaults_redeclared h1) rfl rfl rfl (initScores_redeclared h3)
        (rescale_redeclared h4) (RedeclaredSegs.length_eq h).symm g2
theorem redeclared_segments {dd dd' : List DataField} : (segs : List (SegDoc F)) → ∀ {segs'} (td : TD F),
    RedeclaredSegs dd dd' segs segs' →
    (compileSegments dd segs td).1 = (compileSegments dd' segs' td).1 ∧
    List.Forall₂ (SameFor fun _ => True) (compileSegments dd segs td).2.1 (compileSegments dd' segs' td).2.1 ∧
    (compileSegments dd segs td).2.2 = (compileSegments dd' segs' td).2.2
  | [], _, td, h => by
    cases h
    simp only [compileSegments]
    exact ⟨trivial, .nil, trivial⟩
  | .mk id ps [] :: segs, _, td, h => by
    cases h with
    | cons h1 h2 =>
      cases h1
      simp only [compileSegments]
      exact ⟨trivial, .nil, trivial⟩
  | .mk id ps (e :: e2 :: es) :: segs, _, td, h => by
    cases h with
    | cons h1 h2 =>
      cases h1 with
      | cons a h1 =>
        cases h1 with
        | cons b h1 =>
          simp only [compileSegments, List.length_cons, RedeclaredDocs.length_eq h1]
          exact ⟨trivial, .nil, trivial⟩
  | .mk id ps [e] :: segs, _, td, h => by
    cases h with
    | cons h1 h2 =>
      cases h1 with
      | @cons _ e' _ _ a h1 =>
        cases h1
        obtain ⟨g1, g2⟩ := redeclared_newModel e td a
        rw [compileSegments, compileSegments]
        rcases hc : newModel dd e td with ⟨r, td1⟩
        rcases hc' : newModel dd' e' td with ⟨r', td1'⟩
        rw [hc, hc'] at g1 g2
        simp only at g1 g2
        subst g2
        cases g1 with
        | error e => exact ⟨rfl, .nil, rfl⟩
        | ok hs =>
          obtain ⟨k1, k2, k3⟩ := redeclared_segments segs td1 h2
          exact ⟨k1, .cons hs k2, k3⟩
end

/-! ## Other orders -/

theorem perm_short {α : Type} {l l' : List α} (h : l.Perm l') (hl : l.length ≤ 1) : l = l' := by
  rcases l with _ | ⟨a, _ | ⟨b, l⟩⟩
  · exact h.nil_eq
  · exact List.singleton_perm.mp h
  · simp at hl

theorem short_filter {α : Type} {f : α → String} {l : List α} (hn : (l.map f).Nodup) (k : String) :
    (l.filter (fun a => f a = k)).length ≤ 1 := by
  induction l with
  | nil => simp
  | cons a l ih =>
    rw [List.map_cons, List.nodup_cons] at hn
    by_cases ha : f a = k
    · have : l.filter (fun a => decide (f a = k)) = [] := by
        rw [List.filter_eq_nil_iff]
        intro b hb
        simp only [decide_eq_true_eq]
        intro hk
        exact hn.1 (by rw [ha, ← hk]; exact List.mem_map_of_mem hb)
      simp [ha, this]
    · simpa [ha] using ih hn.2

theorem filter_shuffled {α : Type} {f : α → String} {l l' : List α} (h : l.Perm l') (hn : (l.map f).Nodup)
    (k : String) : l.filter (fun a => f a = k) = l'.filter (fun a => f a = k) :=
  perm_short (h.filter _) (short_filter hn k)

theorem dataTypeOf_filter {dd dd' : List DataField} {f : String}
    (h : dd.filter (fun g => g.name = f) = dd'.filter (fun g => g.name = f)) : dataTypeOf dd f = dataTypeOf dd' f := by
  unfold dataTypeOf; rw [h]

theorem targetValues_filter {dd dd' : List DataField} {f : String}
    (h : dd.filter (fun g => g.name = f) = dd'.filter (fun g => g.name = f)) :
    targetValues dd f = targetValues dd' f := by
  unfold targetValues; rw [h]

theorem replacement_shuffled {fs fs' : List MiningField} (h : fs.Perm fs') (hn : (fs.map (·.name)).Nodup)
    (k : String) : replacement fs k = replacement fs' k := by
  have key : ∀ l : List MiningField, l.filter (fun f => decide (f.name = k ∧ f.missingValueReplacement.isSome)) =
      (l.filter (fun f => f.name = k)).filter (fun f => f.missingValueReplacement.isSome) := by
    intro l
    rw [List.filter_filter]
    congr 1
    funext f
    rw [Bool.and_comm]
    simp
  unfold replacement
  rw [key, key, filter_shuffled h hn]

theorem targetOf_shuffled {fs fs' : List MiningField} (h : fs.Perm fs') (hd : Unambiguous fs) :
    targetOf fs = targetOf fs' := by
  unfold targetOf
  rw [perm_short (h.filter _) hd.target]

section
variable {dd dd' : List DataField}

omit [Arith F] [Lib F] [Trans F] in
mutual
theorem shuffled_redeclared : (e : ModelElem F) → ∀ {e'}, Shuffled e e' →
    (∀ f ∈ asked e, dd.filter (fun g => g.name = f) = dd'.filter (fun g => g.name = f)) → Redeclared dd dd' e e'
  | .tree d, _, h, ha => by
    rw [asked] at ha
    cases h with
    | @tree _ fs hd hp =>
      have ht := targetOf_shuffled hp hd
      exact .tree (v := d.verification) (fun f hf => dataTypeOf_filter (ha f (by simp [hf]))) ht
        fun _ => targetValues_filter (ha _ (by simp [ht]))
  | .regression d, _, h, _ => by
    cases h
    exact .regression (v := d.verification)
  | .other k, _, h, _ => by
    cases h
    exact .other
  | .mining hd segs, _, h, ha => by
    rw [asked] at ha
    cases h with
    | @mining _ fs outs ts _ segs' h1 h2 h3 h4 h5 h =>
      refine .mining (v := hd.verification) (replacement_shuffled h2 h1) ?_ ?_ ?_ (shuffled_redeclareds segs h ha)
      · exact ⟨fun hs o ho => hs o (h3.mem_iff.mpr ho), fun hs o ho => hs o (h3.mem_iff.mp ho)⟩
      · intro k
        simp only [List.mem_append, (h3.map _).mem_iff, (h5.map _).mem_iff]
      · intro k
        unfold scaling
        rw [filter_shuffled h5 h4]
theorem shuffled_redeclareds : (segs : List (SegDoc F)) → ∀ {segs'}, ShuffledSegs segs segs' →
    (∀ f ∈ askedSegs segs, dd.filter (fun g => g.name = f) = dd'.filter (fun g => g.name = f)) →
    RedeclaredSegs dd dd' segs segs'
  | [], _, h, _ => by cases h; exact .nil
  | .mk id ps es :: segs, _, h, ha => by
    rw [askedSegs] at ha
    cases h with
    | cons h1 h2 =>
      exact .cons (shuffled_redeclaredDocs es h1 fun f hf => ha f (by simp [hf]))
        (shuffled_redeclareds segs h2 fun f hf => ha f (by simp [hf]))
theorem shuffled_redeclaredDocs : (es : List (ModelElem F)) → ∀ {es'}, ShuffledDocs es es' →
    (∀ f ∈ askedDocs es, dd.filter (fun g => g.name = f) = dd'.filter (fun g => g.name = f)) →
    RedeclaredDocs dd dd' es es'
  | [], _, h, _ => by cases h; exact .nil
  | e :: es, _, h, ha => by
    rw [askedDocs] at ha
    cases h with
    | cons h1 h2 =>
      exact .cons (shuffled_redeclared e h1 fun f hf => ha f (by simp [hf]))
        (shuffled_redeclaredDocs es h2 fun f hf => ha f (by simp [hf]))
end

omit [Arith F] [Lib F] [Trans F] in
mutual
theorem asked_redeclared : (e : ModelElem F) →
    (∀ f ∈ asked e, dd.filter (fun g => g.name = f) = dd'.filter (fun g => g.name = f)) → Redeclared dd dd' e e
  | .tree d, ha => by
    rw [asked] at ha
    exact .tree (fs := d.miningFields) (v := d.verification) (fun f hf => dataTypeOf_filter (ha f (by simp [hf]))) rfl
      fun _ => targetValues_filter (ha _ (by simp))
  | .regression d, _ => .regression (v := d.verification)
  | .other k, _ => .other
  | .mining hd segs, ha => by
    rw [asked] at ha
    exact .mining (fs := hd.miningFields) (outs := hd.outputs) (ts := hd.targets) (v := hd.verification)
      (fun _ => rfl) Iff.rfl (fun _ => Iff.rfl) (fun _ => rfl) (asked_redeclareds segs ha)
theorem asked_redeclareds : (segs : List (SegDoc F)) →
    (∀ f ∈ askedSegs segs, dd.filter (fun g => g.name = f) = dd'.filter (fun g => g.name = f)) →
    RedeclaredSegs dd dd' segs segs
  | [], _ => .nil
  | .mk id ps es :: segs, ha => by
    rw [askedSegs] at ha
    exact .cons (asked_redeclaredDocs es fun f hf => ha f (by simp [hf]))
      (asked_redeclareds segs fun f hf => ha f (by simp [hf]))
theorem asked_redeclaredDocs : (es : List (ModelElem F)) →
    (∀ f ∈ askedDocs es, dd.filter (fun g => g.name = f) = dd'.filter (fun g => g.name = f)) →
    RedeclaredDocs dd dd' es es
  | [], _ => .nil
  | e :: es, ha => by
    rw [askedDocs] at ha
    exact .cons (asked_redeclared e fun f hf => ha f (by simp [hf]))
      (asked_redeclaredDocs es fun f hf => ha f (by simp [hf]))
end
end

end Gopmml
