import Verif.Spec.Filled
import Verif.Proofs.Safe
import Verif.Proofs.Reached
import Verif.Props.ModelFrame
import Verif.Proofs.Compose

/-!
# Filling in missing fields
-/

namespace Gopmml
open Spec

variable {F : Type}

/-! ## Predicates -/

/-- `x` is unknown or the same as `y`. -/
def Below (x y : PredRes) : Prop := x = .u ∨ x = y

theorem below_mem {x : PredRes} (hx : x ≠ .u) {l l' : List PredRes} (h : List.Forall₂ Below l l') (hm : x ∈ l) :
    x ∈ l' := by
  induction h with
  | nil => exact hm
  | cons hb _ ih =>
    rcases List.mem_cons.mp hm with rfl | hm
    · rcases hb with hb | hb
      · exact absurd hb hx
      · rw [hb]; exact List.mem_cons_self
    · exact List.mem_cons_of_mem _ (ih hm)

theorem below_eq {l l' : List PredRes} (h : List.Forall₂ Below l l') (hm : PredRes.u ∉ l) : l = l' := by
  induction h with
  | nil => rfl
  | cons hb _ ih =>
    simp only [List.mem_cons, not_or] at hm
    rcases hb with hb | hb
    · exact absurd hb.symm hm.1
    · rw [hb, ih hm.2]

theorem all3_below {l l' : List PredRes} (h : List.Forall₂ Below l l') : Below (all3 l) (all3 l') := by
  unfold all3
  by_cases hf : PredRes.f ∈ l
  · simp [hf, below_mem (by simp) h hf, Below]
  · by_cases hu : PredRes.u ∈ l
    · simp [hf, hu, Below]
    · rw [← below_eq h hu]; exact .inr rfl

theorem any3_below {l l' : List PredRes} (h : List.Forall₂ Below l l') : Below (any3 l) (any3 l') := by
  unfold any3
  by_cases hf : PredRes.t ∈ l
  · simp [hf, below_mem (by simp) h hf, Below]
  · by_cases hu : PredRes.u ∈ l
    · simp [hf, hu, Below]
    · rw [← below_eq h hu]; exact .inr rfl

theorem odd3_below {l l' : List PredRes} (h : List.Forall₂ Below l l') : Below (odd3 l) (odd3 l') := by
  unfold odd3
  by_cases hu : PredRes.u ∈ l
  · simp [hu, Below]
  · rw [← below_eq h hu]; exact .inr rfl

theorem combine_below {op : BoolOp} (hop : op ≠ .surrogate) {l l' : List PredRes}
    (h : List.Forall₂ Below l l') : Below (combine op l) (combine op l') := by
  cases op with
  | and => exact all3_below h
  | or => exact any3_below h
  | xor => exact odd3_below h
  | surrogate => exact absurd rfl hop
  | other s => exact .inr rfl

mutual
theorem operandValue_below {leaf leaf' : SimplePred F → PredRes}
    (h : ∀ p, p.op ≠ .isMissing → Below (leaf p) (leaf' p)) :
    (p : Pred F) → steady p = true → Below (operandValue leaf p) (operandValue leaf' p)
  | .true_, _ => .inl rfl
  | .false_, _ => .inl rfl
  | .set _, _ => .inr rfl
  | .simple p, hs => h p (by simpa [steady] using hs)
  | .compound op ps, hs => by
    simp only [steady, Bool.and_eq_true] at hs
    exact combine_below (by simpa using hs.1) (operandValues_below h ps hs.2)
theorem operandValues_below {leaf leaf' : SimplePred F → PredRes}
    (h : ∀ p, p.op ≠ .isMissing → Below (leaf p) (leaf' p)) :
    (ps : List (Pred F)) → steadies ps = true →
      List.Forall₂ Below (operandValue.operandValues leaf ps) (operandValue.operandValues leaf' ps)
  | [], _ => .nil
  | p :: ps, hs => by
    simp only [steadies, Bool.and_eq_true] at hs
    exact .cons (operandValue_below h p hs.1) (operandValues_below h ps hs.2)
end

theorem testValue_below {leaf leaf' : SimplePred F → PredRes}
    (h : ∀ p, p.op ≠ .isMissing → Below (leaf p) (leaf' p)) (p : Pred F) (hs : steady p = true) :
    Below (testValue leaf p) (testValue leaf' p) := by
  cases p with
  | true_ => exact .inr rfl
  | false_ => exact .inr rfl
  | set s => exact operandValue_below h _ hs
  | simple p => exact operandValue_below h _ hs
  | compound op ps => exact operandValue_below h _ hs

section
variable [Arith F] [Lib F] {types : FieldTypes}

theorem simpleVal_below {r r' : GoMap (GoVal F)} (h : FilledIn r r') (p : SimplePred F) (hp : p.op ≠ .isMissing) :
    Below (simpleVal types (some r) p) (simpleVal types (some r') p) := by
  unfold simpleVal
  simp only [Row.get, Option.bind_some]
  cases hv : r[p.field]? with
  | none => simp [hp, Below]
  | some v => rw [h _ _ hv]; exact .inr rfl

theorem nodeTest_below {r r' : GoMap (GoVal F)} (h : FilledIn r r') (n : Node F) (hs : steadyNode n = true) :
    Below (nodeTest types (some r) n) (nodeTest types (some r') n) := by
  unfold steadyNode at hs
  unfold nodeTest
  cases hp : n.pred with
  | none => exact .inl rfl
  | some p =>
    rw [hp] at hs
    exact testValue_below (fun p hp => simpleVal_below h p hp) p hs

/-! ## Trees -/

variable {row row' : Row F}

/-- Rows with the same outcomes of the tests made. -/
theorem calike_of_tests (s : MissingValueStrategy) : (n : Node F) → ∀ {cn}, newNode types n = .ok cn →
    (∀ r ∈ reached s (nodeTest types row) n, nodeTest types row r = nodeTest types row' r) →
    CAlike s types row row' cn cn
  | .mk id dc score rc dists nodes pred, cn, h, hr => by
    obtain ⟨cs, pred', hcs, hp, rfl⟩ := newNode_ok h
    rw [reached] at hr
    have hsub : goesOn s (nodeTest types row (.mk id dc score rc dists nodes pred)) = true →
        CAlikes s types row row' cs cs := fun hg =>
      calikes_of_tests s nodes (newNodes_forall hcs) fun r hm => hr r (by simp [hg, hm])
    cases pred with
    | none =>
      subst hp
      exact .mk rfl Iff.rfl fun r hr _ => by cases hr
    | some p =>
      obtain ⟨p', hc, rfl⟩ := hp
      refine .mk ?_ Iff.rfl fun r hr hg => ?_
      · rw [nodeTest_run (id := id) (dc := dc) (score := score) (rc := rc) (dists := dists) (nodes := nodes) hc row,
          nodeTest_run (id := id) (dc := dc) (score := score) (rc := rc) (dists := dists) (nodes := nodes) hc row',
          hr _ List.mem_cons_self]
      rw [nodeTest_run (id := id) (dc := dc) (score := score) (rc := rc) (dists := dists) (nodes := nodes) hc row] at hr
      cases hr
      exact hsub hg
where
  calikes_of_tests (s : MissingValueStrategy) : (ns : List (Node F)) → ∀ {cs},
      List.Forall₂ (fun n cn => newNode types n = .ok cn) ns cs →
      (∀ r ∈ reached.reacheds s (nodeTest types row) ns, nodeTest types row r = nodeTest types row' r) →
      CAlikes s types row row' cs cs
    | [], _, h, _ => by cases h; exact .nil
    | n :: ns, _, h, hr => by
      cases h with
      | cons h1 h2 =>
        rw [reached.reacheds] at hr
        have ha := calike_of_tests s n h1 fun r hm => hr r (by simp [hm])
        by_cases hst : settles s (nodeTest types row n) = true
        · obtain ⟨id, dc, score, rc, dists, nodes, pred⟩ := n
          obtain ⟨cs, pred', hcs, hp, rfl⟩ := newNode_ok h1
          cases pred with
          | none =>
            subst hp
            exact .stop (not_thorough_of_settles hst) ha fun r hr => by cases hr
          | some p =>
            obtain ⟨p', hc, rfl⟩ := hp
            refine .stop (not_thorough_of_settles hst) ha fun r hr => ?_
            rw [show CNode.pred _ = some p' from rfl, nodeTest_run (id := id) (dc := dc) (score := score) (rc := rc)
              (dists := dists) (nodes := nodes) hc row] at hr
            cases hr
            exact hst
        · exact .cons ha (calikes_of_tests s ns h2 fun r hm => hr r (by simp [hst, hm]))

omit [Arith F] [Lib F] in
/-- With nullPrediction: if no unknown test is met on the way down, all tests made are known. -/
theorem reached_known {T : Node F → PredRes} : (n : Node F) → (∀ r, Visits T r n → T r ≠ .u) →
    ∀ r ∈ reached .nullPrediction T n, T r ≠ .u
  | .mk id dc score rc dists nodes pred, h, r, hr => by
    rw [reached, List.mem_cons] at hr
    rcases hr with rfl | hr
    · exact h _ .here
    · have ht : T (.mk id dc score rc dists nodes pred) = .t := by
        by_contra hne
        have := h _ (.here)
        cases hT : T (.mk id dc score rc dists nodes pred) <;> simp_all [goesOn]
      rw [ht] at hr
      exact reacheds_known nodes [] (by simp) (fun c r pre post hn hpre hc hv =>
        h r (.step ht hn hpre hc hv)) r hr
where
  reacheds_known {T : Node F → PredRes} : (ns done : List (Node F)) → (∀ c ∈ done, T c = .f) →
      (∀ c r pre post, done ++ ns = pre ++ c :: post → (∀ d ∈ pre, T d = .f) → T c ≠ .f → Visits T r c → T r ≠ .u) →
      ∀ r ∈ reached.reacheds .nullPrediction T ns, T r ≠ .u
    | [], _, _, _, r, hr => by simp [reached.reacheds] at hr
    | n :: ns, done, hd, h, r, hr => by
      rw [reached.reacheds, List.mem_append] at hr
      by_cases hf : T n = .f
      · rcases hr with hr | hr
        · obtain ⟨id, dc, score, rc, dists, nodes, pred⟩ := n
          rw [reached, List.mem_cons] at hr
          rcases hr with rfl | hr
          · rw [hf]; simp
          · rw [hf] at hr; simp [goesOn] at hr
        · rw [hf] at hr
          exact reacheds_known ns (done ++ [n])
            (by intro c hc; simp only [List.mem_append, List.mem_singleton] at hc
                rcases hc with hc | rfl
                · exact hd c hc
                · exact hf) (by simpa using h) r (by simpa [settles] using hr)
      · have hv := fun r => h n r done ns rfl hd hf
        rcases hr with hr | hr
        · exact reached_known n hv r hr
        · have : T n = .t := by
            have := hv n .here
            cases hT : T n <;> simp_all
          rw [this] at hr
          simp [settles, Thorough] at hr

omit [Arith F] [Lib F] in
theorem reached_sub {s : MissingValueStrategy} {T : Node F → PredRes} : (n : Node F) → {r : Node F} →
    r ∈ reached s T n → Sub r n
  | .mk id dc score rc dists nodes pred, r, hr => by
    rw [reached, List.mem_cons] at hr
    rcases hr with hr | hr
    · rw [hr]; exact .refl
    · split at hr
      · obtain ⟨c, hc, hs⟩ := reacheds_sub nodes hr
        exact .child hc hs
      · simp at hr
where
  reacheds_sub {s : MissingValueStrategy} {T : Node F → PredRes} : (ns : List (Node F)) → {r : Node F} →
      r ∈ reached.reacheds s T ns → ∃ c ∈ ns, Sub r c
    | [], r, hr => by simp [reached.reacheds] at hr
    | n :: ns, r, hr => by
      rw [reached.reacheds, List.mem_append] at hr
      rcases hr with hr | hr
      · exact ⟨n, List.mem_cons_self, reached_sub n hr⟩
      · split at hr
        · simp at hr
        · obtain ⟨c, hc, hs⟩ := reacheds_sub ns hr
          exact ⟨c, List.mem_cons_of_mem _ hc, hs⟩

end

/-! ## Models -/

section
variable [Arith F] [Lib F]

omit [Arith F] [Lib F] in
theorem usesOnly_mono {K K' : String → Prop} (h : ∀ k, K k → K' k) : (dfs : List (DerivedField F)) →
    UsesOnly K dfs → UsesOnly K' dfs
  | [], _ => trivial
  | _ :: dfs, hu => ⟨fun f hf => h f (hu.1 f hf),
      usesOnly_mono (fun k hk => hk.imp id (h k)) dfs hu.2⟩

theorem handleInput_filled (dfs : List (DerivedField F)) : ∀ {r r' : GoMap (GoVal F)}, FilledIn r r' →
    UsesOnly (fun k => (r[k]?).isSome) dfs → ∃ q q', (handleInput dfs (some r)).2 = some q ∧
      (handleInput dfs (some r')).2 = some q' ∧ FilledIn q q' ∧
      (handleInput dfs (some r')).1 = (handleInput dfs (some r)).1 := by
  induction dfs with
  | nil => intro r r' h _; exact ⟨r, r', rfl, rfl, h, rfl⟩
  | cons df dfs ih =>
    intro r r' h hu
    have he := Props.C35_expression_frame (row := some r) (row' := some r') df.expr (fun f hf => by
      obtain ⟨v, hv⟩ := Option.isSome_iff_exists.mp (hu.1 f hf)
      simp only [Row.get, Option.bind_some]
      rw [hv, h _ _ hv])
    simp only [handleInput, he]
    cases handleExpression (some r') df.expr with
    | error e => exact ⟨r, r', rfl, rfl, h, rfl⟩
    | ok v =>
      refine ih ?_ (usesOnly_mono ?_ dfs hu.2)
      · intro k w hw
        rw [GoMap.getElem?_insert] at hw ⊢
        split at hw
        · rename_i hk; rw [if_pos hk]; exact hw
        · rename_i hk; rw [if_neg hk]; exact h _ _ hw
      · intro k hk
        rw [GoMap.getElem?_insert]
        split
        · rfl
        · rcases hk with rfl | hk
          · simp_all
          · exact hk

omit [Arith F] [Lib F] in
theorem imputed_filled {fs : List MiningField} {r r' r1 r1' : GoMap (GoVal F)} (h : FilledIn r r')
    (hf : ∀ k ∈ replaced fs, (r[k]?).isSome) (h1 : Imputed fs r r1) (h2 : Imputed fs r' r1') :
    FilledIn r1 r1' := by
  intro k v hv
  rw [h1 k] at hv
  rw [h2 k]
  cases hr : r[k]? with
  | some w => rw [hr] at hv; rw [h _ _ hr]; exact hv
  | none =>
    cases hp : replacement fs k with
    | none => rw [hr, hp] at hv; simp at hv
    | some t =>
      exfalso
      have : k ∈ replaced fs := by
        unfold replacement at hp
        cases hg : (fs.filter (fun g => g.name = k ∧ g.missingValueReplacement.isSome)).getLast? with
        | none => rw [hg] at hp; simp at hp
        | some g =>
          have := List.mem_of_getLast? hg
          simp only [List.mem_filter, decide_eq_true_eq] at this
          simp only [replaced, List.mem_map, List.mem_filter]
          exact ⟨g, ⟨this.1, this.2.2⟩, this.2.1⟩
      have := hf k this
      rw [hr] at this
      simp at this

omit [Arith F] [Lib F] in
theorem extended_filled {r r' r1 : GoMap (GoVal F)} {out : GoMap (GoVal F)} {row1' : Row F} (h : FilledIn r r')
    (h1 : Extended (some r) out (some r1)) (h2 : Extended (some r') out row1') :
    ∃ r1', row1' = some r1' ∧ FilledIn r1 r1' := by
  obtain ⟨a, -, b⟩ := h2
  cases row1' with
  | none => simp at a
  | some r1' =>
    refine ⟨r1', rfl, fun k v hv => ?_⟩
    have e1 := h1.2.2 k
    have e2 := b k
    simp only [Row.get, Option.bind_some] at e1 e2
    rw [e1] at hv
    rw [e2]
    cases ho : out[k]? with
    | some w => rw [ho] at hv; exact hv
    | none => rw [ho] at hv; exact h _ _ hv

end

section
variable [Arith F] [Lib F] [Trans F]

/-- A definite answer stays the same when fields are filled in. -/
def Persists (dd : List DataField) (e : ModelElem F) (m : EModel F) : Prop :=
  ∀ r r', FilledIn r r' → Definite dd e m r → ∀ o, ∃ q q',
    (EModel.evaluate o m (some r)).row = some q ∧ (EModel.evaluate o m (some r')).row = some q' ∧
    FilledIn q q' ∧ (EModel.evaluate o m (some r')).res = (EModel.evaluate o m (some r)).res

omit [Trans F] in
theorem tree_filled {dd : List DataField} {td td' : TD F} {d : TreeDoc F} {m : TreeModel F}
    (h : newTreeModel dd td d = (.ok m, td')) {row row' : Row F} {q q' : GoMap (GoVal F)}
    (hq : handleInput d.localTransformations row = (.ok (), some q))
    (hq' : handleInput d.localTransformations row' = (.ok (), some q')) (hf : FilledIn q q')
    (hr : ∀ n ∈ reached d.missingValueStrategy (nodeTest (treeTypes dd td d) (some q)) d.node,
        steadyNode n = true ∧ nodeTest (treeTypes dd td d) (some q) n ≠ .u) (o : MapOrd) :
    (m.evaluate o row').res = (m.evaluate o row).res := by
  have hn := (newTreeModel_ok h).2.2.2.2.2.2.2.2
  rw [constructed_evaluate h hq o, constructed_evaluate h hq' o,
    evalNode_alike o (c := docCtx dd td d) (calike_of_tests (row := some q) (row' := some q')
      d.missingValueStrategy d.node hn fun n hm => by
        rcases nodeTest_below hf n (hr n hm).1 with hb | hb
        · exact absurd hb (hr n hm).2
        · exact hb)]

/-- The segments of a document and their evaluators. -/
def SegsPersist (dd : List DataField) (segs : List (SegDoc F)) (ms : List (EModel F)) : Prop :=
  List.Forall₂ (fun seg m => ∃ id ps e, seg = SegDoc.mk id ps [e] ∧ Persists dd e m) segs ms

theorem sumSegments_filled {dd : List DataField} {method : MultipleModelMethod} (hm1 : method ≠ .modelChain)
    (hm2 : method ≠ .selectFirst) {segs : List (SegDoc F)} {ms : List (EModel F)}
    (h : SegsPersist dd segs ms) (o : MapOrd) (fn : MiningFunction) : ∀ (i : Nat) (sm : GoMap F) (last : Out F)
    {r r' : GoMap (GoVal F)}, FilledIn r r' → DefiniteSegs dd method last segs ms r →
    ∃ q q', (sumSegments o fn i sm ms (some r)).row = some q ∧ (sumSegments o fn i sm ms (some r')).row = some q' ∧
      FilledIn q q' ∧ (sumSegments o fn i sm ms (some r')).res = (sumSegments o fn i sm ms (some r)).res := by
  induction h with
  | nil => intro i sm last r r' hf _; exact ⟨r, r', rfl, rfl, hf, rfl⟩
  | cons hseg _ ih =>
    rename_i seg m segs ms _
    obtain ⟨id, ps, e, rfl, hp⟩ := hseg
    intro i sm last r r' hf hd
    cases hd with
    | first _ => exact absurd rfl hm2
    | next hx hd hev hrest =>
      rw [if_neg hm1] at hx
      subst hx
      obtain ⟨q, q', h1, h2, h3, h4⟩ := hp _ _ hf hd (o.at_ (2 * i))
      have hev := hev (o.at_ (2 * i))
      rw [hev.1] at h4
      rw [hev.2] at h1
      cases h1
      obtain ⟨p, p', g1, g2, g3, g4⟩ := ih (i + 1) (((o.at_ (2 * i + 1)).range sm).foldl (addScore fn _) sm) _ h3 hrest
      exact ⟨p, p', by simp only [sumSegments, hev.1, hev.2]; exact g1,
        by simp only [sumSegments, h4, h2]; exact g2, g3,
        by simp only [sumSegments, hev.1, hev.2, h4, h2]; exact g4⟩

theorem chainSegments_filled {dd : List DataField} {segs : List (SegDoc F)} {ms : List (EModel F)}
    (h : SegsPersist dd segs ms) (o : MapOrd) : ∀ (i : Nat) (last : Out F)
    {r r' : GoMap (GoVal F)}, FilledIn r r' → DefiniteSegs dd .modelChain last segs ms r →
    ∃ q q', (chainSegments o i last ms (some r)).row = some q ∧ (chainSegments o i last ms (some r')).row = some q' ∧
      FilledIn q q' ∧ (chainSegments o i last ms (some r')).res = (chainSegments o i last ms (some r)).res := by
  induction h with
  | nil => intro i last r r' hf _; exact ⟨r, r', rfl, rfl, hf, rfl⟩
  | cons hseg _ ih =>
    rename_i seg m segs ms _
    obtain ⟨id, ps, e, rfl, hp⟩ := hseg
    intro i last r r' hf hd
    cases hd with
    | next hx hd hev hrest =>
      rw [if_pos rfl] at hx
      rcases writeAll_extended (o.at_ (2 * i)) (last.getD ∅) (some r) with ⟨hn, -⟩ | ⟨row1, hw, hx1⟩
      · simp at hn
      rcases writeAll_extended (o.at_ (2 * i)) (last.getD ∅) (some r') with ⟨hn, -⟩ | ⟨row1', hw', hx2⟩
      · simp at hn
      obtain ⟨r1, rfl, hr1⟩ := extended_filled (fun k v hv => hv) hx hx1
      obtain ⟨r1', rfl, hf1⟩ := extended_filled hf hx1 hx2
      obtain rfl : _ = r1 := Option.some.inj (extended_unique hx hx1)
      obtain ⟨q, q', h1, h2, h3, h4⟩ := hp _ _ hf1 hd (o.at_ (2 * i + 1))
      have hev := hev (o.at_ (2 * i + 1))
      rw [hev.1] at h4
      rw [hev.2] at h1
      cases h1
      obtain ⟨p, p', g1, g2, g3, g4⟩ := ih (i + 1) _ h3 hrest
      exact ⟨p, p', by simp only [chainSegments, hw, hev.1, hev.2]; exact g1,
        by simp only [chainSegments, hw', h4, h2]; exact g2, g3,
        by simp only [chainSegments, hw, hw', hev.1, hev.2, h4, h2]; exact g4⟩

/-- The answers of constructed models persist. -/
theorem filled_persists {dd : List DataField} {e : ModelElem F} {td td' : TD F} {m : EModel F}
    (h : newModel dd e td = (.ok m, td')) : Persists dd e m := by
  refine newModel_ind (P := fun e m => Persists dd e m) ?_ ?_ ?_ e h
  · intro d t td td' hn r r' hf hd o
    cases hd with
    | tree hn' hu hq hr =>
      obtain ⟨q, q', h1, h2, h3, h4⟩ := handleInput_filled _ hf hu
      rw [hq] at h1 h4
      obtain rfl := Option.some.inj h1
      have hq' : handleInput d.localTransformations (some r') = (.ok (), some q') := Prod.ext h4 h2
      obtain ⟨-, -, hv, hc, hk, hm, -⟩ := newTreeModel_ok hn'
      have hlt : t.model.localTransformations = d.localTransformations := by rw [hm]
      have hrow := fun row => (evaluate_eq hv hc (by rw [hk]; exact keysOk_empty) o row).1
      refine ⟨_, q', ?_, ?_, h3, ?_⟩
      · simp only [EModel.evaluate]; rw [hrow, hlt, hq]
      · simp only [EModel.evaluate]; rw [hrow, hlt, hq']
      · simp only [EModel.evaluate]; exact tree_filled hn' hq hq' h3 hr o
  · intro d r r' hf hd o
    cases hd with
    | regression hres =>
      refine ⟨r, r', rfl, rfl, hf, ?_⟩
      simp only [EModel.evaluate] at hres ⊢
      have hk := ((regression_answers d (some r)).mp ⟨_, hres o⟩).1
      refine (regression_agree d fun t ht np hnp => ?_).symm
      have := hk np.name (by
        simp only [tableFields, List.mem_flatMap, List.mem_map]
        exact ⟨t, ht, np, hnp, rfl⟩)
      obtain ⟨v, hv⟩ := Option.isSome_iff_exists.mp this
      have hv' : r[np.name]? = some v := hv
      rw [hv]
      exact (hf _ _ hv').symm
  · intro hd segs td td' s ms hn hsegs r r' hf hdef o
    cases hdef with
    | mining hrep hu hp hds =>
    obtain ⟨s', ms', he, -, hh, -, -, -, hev⟩ := constructed_mining hn
    obtain ⟨rfl, rfl⟩ := by simpa using he
    cases hp with
    | row hi hq =>
    rename_i q r1
    have hall : ∀ row, ∃ row1 : GoMap (GoVal F), Imputed hd.miningFields row row1 := by
      intro row
      rcases hev o (some row) with ⟨e, row2, hp, -⟩ | ⟨row2, hp, -⟩ <;>
      · cases hp with
        | row hi _ => exact ⟨_, hi⟩
    obtain ⟨r1', hi'⟩ := hall r'
    have hf1 := imputed_filled hf hrep hi hi'
    obtain ⟨q0, q', h1, h2, h3, h4⟩ := handleInput_filled hd.localTransformations hf1
      (usesOnly_mono (fun k hk => (imputed_holds hi).1 k hk) _ hu)
    rw [hq] at h1 h4
    obtain rfl := Option.some.inj h1
    have hq' : handleInput hd.localTransformations (some r1') = (.ok (), some q') := Prod.ext h4 h2
    have run : ∀ {a a1 b : GoMap (GoVal F)}, Imputed hd.miningFields a a1 →
        handleInput hd.localTransformations (some a1) = (.ok (), some b) →
        EModel.evaluate o (.mining s ms) (some a) = runMethod o s ms (some b) := by
      intro a a1 b hi hq
      have hun : ∀ {a1'}, Imputed hd.miningFields a a1' → a1' = a1 := fun hi' =>
        Std.ExtTreeMap.ext_getElem? fun k => by rw [hi k, hi' k]
      rcases hev o (some a) with ⟨e, row2, hp, -⟩ | ⟨row2, hp, hr⟩
      · cases hp with
        | row hi' hq' => rw [hun hi', hq] at hq'; cases hq'
      · cases hp with
        | row hi' hq' =>
          rw [hun hi', hq] at hq'
          cases hq'
          exact hr
    rw [run hi hq, run hi' hq']
    have hsum : effectiveMethod hd.method = .sum ∨ effectiveMethod hd.method = .average →
        ∃ p p', (runMethod o s ms (some q)).row = some p ∧ (runMethod o s ms (some q')).row = some p' ∧
          FilledIn p p' ∧ (runMethod o s ms (some q')).res = (runMethod o s ms (some q)).res := by
      intro heff
      obtain ⟨p, p', g1, g2, g3, g4⟩ := sumSegments_filled
        (by rcases heff with h | h <;> simp [h]) (by rcases heff with h | h <;> simp [h]) hsegs (o.at_ 1)
        s.head.functionName 0 (initScores s) _ h3 hds
      refine ⟨p, p', ?_, ?_, g3, ?_⟩
      all_goals
        rcases heff with heff | heff <;>
        · unfold runMethod
          rw [hh] at g1 g2 g4 ⊢
          simp only [heff] at g1 g2 g4 ⊢
          first | exact g1 | exact g2 | rw [g4]
    have hm : SupportedMethod hd.method := by
      rw [newModel] at hn
      rcases mining_validate (MiningState.init dd hd segs) with ⟨h1, -⟩ | ⟨-, e, s', hv⟩
      · exact h1
      · rw [hv] at hn; simp at hn
    rcases hm with hm | hm | hm | hm | hm
    · exact hsum (.inl (by rw [hm]; rfl))
    · exact hsum (.inl (by rw [hm]; rfl))
    · exact hsum (.inr (by rw [hm]; rfl))
    · have heff : effectiveMethod hd.method = .modelChain := by rw [hm]; rfl
      rw [heff] at hds
      obtain ⟨p, p', g1, g2, g3, g4⟩ := chainSegments_filled hsegs (o.at_ 1) 0 _ h3 hds
      refine ⟨p, p', ?_, ?_, g3, ?_⟩
      all_goals
        unfold runMethod
        rw [hh]
        simp only [heff]
        first | exact g1 | exact g2 | exact g4
    · have heff : effectiveMethod hd.method = .selectFirst := by rw [hm]; rfl
      rw [heff] at hds
      cases hsegs with
      | nil =>
        refine ⟨q, q', ?_, ?_, h3, ?_⟩
        all_goals
          unfold runMethod
          rw [hh]
          simp only [heff, selectFirst]
      | @cons _ m1 _ _ hseg _ =>
        obtain ⟨id, ps, e, rfl, hp⟩ := hseg
        have hd1 : Definite dd e m1 q := by
          cases hds with
          | first h => exact h
          | next hx h _ _ => rw [if_neg (by simp)] at hx; rw [← hx]; exact h
        obtain ⟨p, p', g1, g2, g3, g4⟩ := hp _ _ h3 hd1 (o.at_ 1)
        refine ⟨p, p', ?_, ?_, g3, ?_⟩
        all_goals
          unfold runMethod
          rw [hh]
          simp only [heff, selectFirst]
          first | exact g1 | exact g2 | exact g4

end

end Gopmml
