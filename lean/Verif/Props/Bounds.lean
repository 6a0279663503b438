import Verif.Proofs.Bounds
import Verif.Props.Specialise
import Verif.Props.Monotone
import Verif.Props.Range
import Verif.Props.Ascending
import Verif.Model.Samples

/-!
# Property C102: bounds on the answer can be computed for a region of inputs
-/

namespace Gopmml
open Spec Props F64

variable {B : Box} {dd : List DataField}

/-! ### Trees -/

theorem firstTrue_end {F : Type} {T : Node F → PredRes} {n r : Node F} (h : FirstTrue T n r) :
    Sub r n ∧ ∀ c ∈ r.nodes, T c ≠ .t := by
  induction h with
  | stop h => exact ⟨.refl, h⟩
  | step he _ _ _ ih => exact ⟨.child (by rw [he]; simp) ih.1, ih.2⟩

theorem visits_sub {F : Type} {T : Node F → PredRes} {n r : Node F} (h : Visits T r n) : Sub r n := by
  induction h with
  | here => exact .refl
  | step _ he _ _ _ ih => exact .child (by rw [he]; simp) ih

theorem report_ok_none {fn : MiningFunction} {tgt : String} {a : Ans F64} {out : GoMap (GoVal F64)}
    (h : report fn tgt a = .ok (some out)) : a.2 = .t := by
  by_contra hn
  unfold report at h
  rw [if_pos hn] at h
  cases h

theorem nodeAnswers_holds {d : TreeDoc F64} {ns : List (Node F64)} {r : Node F64} (hr : r ∈ ns) {out : GoMap (GoVal F64)}
    (ho : report d.functionName (targetOf d.miningFields) (ownDist dd d r, .t) = .ok (some out)) (k : String) :
    (joinAll ((nodeAnswers dd d ns).map fun out => .entry out[k]?)).Holds out[k]? := by
  refine Region.joinAll_holds (r := .entry out[k]?) ?_ (Region.entry_holds _)
  refine List.mem_map.mpr ⟨out, ?_, rfl⟩
  refine List.mem_filterMap.mpr ⟨r, hr, ?_⟩
  rw [ho]

/-- What a specialised tree answers is as computed. -/
theorem specialAnswers_holds {td td' : TD F64} {d : TreeDoc F64} {m : TreeModel F64}
    (h : newTreeModel dd td d = (.ok m, td')) {row row' : Row F64}
    (hi : handleInput d.localTransformations row = (.ok (), row')) {outc : Pred F64 → Outcomes}
    (hout : ∀ p, (outc p).has (testValue (simpleVal (treeTypes dd td d) row') p) = true) (o : MapOrd) {out : Out F64}
    (hr : (m.evaluate o row).res = .ok out) : (specialAnswers outc dd d).Holds out := by
  have hany : Outlook.any.Holds out := by
    cases out with
    | none => rfl
    | some out => intro k; trivial
  unfold specialAnswers
  cases hm : mayAnswer d with
  | none =>
    dsimp only
    split_ifs with hf
    · cases out with
      | none => rfl
      | some out =>
        intro k
        obtain ⟨l, hl, x, hx, rfl⟩ := tree_score_in h hf o row hr
        dsimp only
        split_ifs with hk
        · subst hk
          simp only [Std.ExtTreeMap.getElem?_insert_self]
          exact Span.ofSpan_holds (hull_holds (List.mem_filterMap.mpr ⟨l, hl, hx⟩))
        · change _ = _
          rw [Std.ExtTreeMap.getElem?_insert]
          simp [Ne.symm hk]
    · exact hany
  | some ns =>
    dsimp only
    split_ifs with hp
    swap
    · exact hany
    have hp' : AllPreds d.node := by
      intro r hr
      rw [List.all_eq_true] at hp
      exact Option.isSome_iff_exists.1 (hp r (sub_mem_allNodes hr))
    have hcert : ∀ {P : PredRes → Bool} {n : Node F64}, certain outc P n.pred = true →
        P (nodeTest (treeTypes dd td d) row' n) = true := by
      intro P n hc
      cases hq : n.pred with
      | none => rw [hq] at hc; cases hc
      | some p =>
        rw [hq] at hc
        simp only [nodeTest, hq]
        exact Outcomes.all_spec hc (hout p)
    -- the answer of a first true node
    have hfirst : ∀ {r : Node F64}, FirstTrue (nodeTest (treeTypes dd td d) row') d.node r →
        r ∈ (allNodes d.node).filter fun n => n.nodes.all fun c => match c.pred with | some .true_ => false | _ => true := by
      intro r hf
      obtain ⟨h1, h2⟩ := firstTrue_end hf
      refine List.mem_filter.mpr ⟨sub_mem_allNodes h1, List.all_eq_true.mpr fun c hc => ?_⟩
      have := h2 c hc
      cases hq : c.pred with
      | none => rfl
      | some p =>
        cases p <;> first | rfl | skip
        exact absurd (by simp only [nodeTest, hq]; rfl) this
    have hdef : (d.missingValueStrategy = .none ∨ ∃ s, d.missingValueStrategy = .other s) →
        (⟨!sure outc d, fun k => joinAll ((nodeAnswers dd d ns).map fun out => .entry out[k]?)⟩ : Outlook).Holds out := by
      intro hs
      have hns : ns = (allNodes d.node).filter fun n =>
          n.nodes.all fun c => match c.pred with | some .true_ => false | _ => true := by
        rcases hs with hs | ⟨s, hs⟩ <;> · simp only [mayAnswer, hs, Option.some.injEq] at hm; exact hm.symm
      obtain ⟨c1, c2⟩ := C12_first_true_child h hp' hs hi o
      cases out with
      | none =>
        change (!sure outc d) = true
        rw [Bool.not_eq_true']
        by_contra hsure
        rw [Bool.not_eq_false] at hsure
        unfold sure at hsure
        rw [Bool.and_eq_true] at hsure
        have := hcert hsure.1
        exact c1.mpr hr (by simpa using this)
      | some out =>
        have hT : nodeTest (treeTypes dd td d) row' d.node = .t := by
          by_contra hT
          rw [c1.mp hT] at hr
          cases hr
        obtain ⟨r, hf, -, he⟩ := c2 hT
        intro k
        exact nodeAnswers_holds (by rw [hns]; exact hfirst hf) (he ▸ hr) k
    cases hs : d.missingValueStrategy with
    | none => exact hdef (.inl hs)
    | other s => exact hdef (.inr ⟨s, hs⟩)
    | nullPrediction =>
      have hns : ns = (allNodes d.node).filter fun n =>
          n.nodes.all fun c => match c.pred with | some .true_ => false | _ => true := by
        simp only [mayAnswer, hs, Option.some.injEq] at hm; exact hm.symm
      obtain ⟨c1, c2, c3⟩ := C13_null_prediction h hp' hs hi o
      cases out with
      | none =>
        change (!sure outc d) = true
        rw [Bool.not_eq_true']
        by_contra hsure
        rw [Bool.not_eq_false] at hsure
        unfold sure at hsure
        rw [Bool.and_eq_true, hs] at hsure
        obtain ⟨s1, s2⟩ := hsure
        simp only [List.all_eq_true] at s2
        have ht : nodeTest (treeTypes dd td d) row' d.node = .t := by simpa using hcert s1
        refine (c3 (fun r hv => ?_) (by rw [ht]; simp)).1 hr
        have := hcert (s2 r (sub_mem_allNodes (visits_sub hv)))
        simpa using this
      | some out =>
        have hu : ∀ r, Visits (nodeTest (treeTypes dd td d) row') r d.node →
            nodeTest (treeTypes dd td d) row' r ≠ .u := by
          intro r hv hru
          rw [c1 ⟨r, hv, hru⟩] at hr
          cases hr
        have hnf : nodeTest (treeTypes dd td d) row' d.node ≠ .f := by
          intro hf
          rw [c2 hf] at hr
          cases hr
        obtain ⟨-, m0, td0, h0, he⟩ := c3 hu hnf
        rw [he] at hr
        obtain ⟨d1, d2⟩ := C12_first_true_child (d := { d with missingValueStrategy := .none }) h0 hp' (.inl rfl) hi o
        have hT : nodeTest (treeTypes dd td d) row' d.node = .t := by
          by_contra hT
          rw [d1.mp hT] at hr
          cases hr
        obtain ⟨r, hf, -, he'⟩ := d2 hT
        intro k
        exact nodeAnswers_holds (by rw [hns]; exact hfirst hf) (he' ▸ hr) k
    | lastPrediction =>
      have hns : ns = allNodes d.node := by
        simp only [mayAnswer, hs, Option.some.injEq] at hm; exact hm.symm
      rw [C14_last_prediction h hp' hs hi o] at hr
      cases out with
      | none =>
        change (!sure outc d) = true
        simp [sure, hs]
      | some out =>
        have ht := report_ok_none hr
        obtain ⟨r, hsub, -, he⟩ := C14_answer_is_a_nodes_own (nodeTest (treeTypes dd td d) row') (ownDist dd d) d.node
          (by rw [ht]; simp)
        intro k
        refine nodeAnswers_holds (r := r) (by rw [hns]; exact sub_mem_allNodes hsub) ?_ k
        rw [← hr, ← he, ← ht]
    | defaultChild => simp [mayAnswer, hs] at hm
    | weightedConfidence => simp [mayAnswer, hs] at hm
    | aggregateNodes => simp [mayAnswer, hs] at hm

variable [Trans F64]

theorem tree_as_special {td td' : TD F64} {d : TreeDoc F64} {m : EModel F64}
    (hm : newModel dd (.tree d) td = (.ok m, td')) {row : Row F64} (hB : B.Has row) (o : MapOrd) {out : Out F64}
    (hr : (EModel.evaluate o m row).res = .ok out) :
    ∃ t row', newTreeModel dd td (specialTree (derivedBox d.localTransformations B) dd td d) = (.ok t, td') ∧
      handleInput d.localTransformations row = (.ok (), row') ∧ (derivedBox d.localTransformations B).Has row' ∧
      (EModel.evaluate o m row).row = row' ∧ (t.evaluate o row).res = .ok out := by
  obtain ⟨m', hm', hs⟩ := tree_sameIn (R0 := B.Has) (R := (derivedBox d.localTransformations B).Has)
    (n' := (specialTree (derivedBox d.localTransformations B) dd td d).node)
    (fun _ hc => newNode_special (fun _ hR p => test_has (fun s => leaf_has hR _ s) p) d.node hc)
    (fun row row' hR hi => derivedBox_has _ hR hi) hm
  obtain ⟨e1, e2⟩ := hs o row hB
  rw [e2]
  rw [e1] at hr
  change newModel dd (.tree (specialTree (derivedBox d.localTransformations B) dd td d)) td = _ at hm'
  rw [newModel] at hm'
  rcases ht : newTreeModel dd td (specialTree (derivedBox d.localTransformations B) dd td d) with ⟨e | t, td1⟩
  · rw [ht] at hm'; simp at hm'
  rw [ht] at hm'
  simp only [Prod.mk.injEq, Except.ok.injEq] at hm'
  obtain ⟨rfl, rfl⟩ := hm'
  simp only [EModel.evaluate] at hr ⊢
  obtain ⟨-, -, hv, hc, hk, hmod, -⟩ := newTreeModel_ok ht
  obtain ⟨a1, a2, -⟩ := evaluate_eq hv hc (by rw [hk]; exact keysOk_empty) o row
  have hloc : t.model.localTransformations = d.localTransformations := by rw [hmod]; rfl
  rw [hloc] at a1 a2
  rcases hi : handleInput d.localTransformations row with ⟨e | ⟨⟨⟩⟩, row'⟩
  · rw [a2, hi] at hr; cases hr
  rw [hi] at a1
  exact ⟨t, row', rfl, rfl, derivedBox_has _ hB hi, a1, hr⟩

theorem tree_bounds {td td' : TD F64} {d : TreeDoc F64} {m : EModel F64} (hm : newModel dd (.tree d) td = (.ok m, td'))
    {row : Row F64} (hB : B.Has row) (o : MapOrd) {out : Out F64} (hr : (EModel.evaluate o m row).res = .ok out) :
    (treeAnswers (derivedBox d.localTransformations B) dd td d).Holds out ∧
      (derivedBox d.localTransformations B).Has (EModel.evaluate o m row).row := by
  obtain ⟨t, row', ht, hi, hB', h1, h2⟩ := tree_as_special hm hB o hr
  rw [h1]
  exact ⟨specialAnswers_holds ht hi (fun p => test_has (fun s => leaf_has hB' _ s) p) o h2, hB'⟩

/-! ### Regression models -/

omit [Trans F64] in
theorem add_fin_ne_nan {x y : F64} (hx : Span.finite x = true) (hy : y ≠ nan) : F64.add x y ≠ nan := by
  cases x <;> cases y <;> simp_all [Span.finite, F64.add, ofRat_ne_nan]

omit [Trans F64] in
theorem finite_mul {x y : F64} (h : Span.finite (F64.mul x y) = true) : Span.finite x = true ∧ Span.finite y = true := by
  cases x <;> cases y <;> simp_all [F64.mul, Span.finite]
  all_goals (split_ifs at h)

/-- A link function between finite values. -/
theorem link_between (T : MonotoneTrans) {n : Normalization} {g : F64 → F64} (hg : link n = some g) {lo x hi : F64}
    (h1 : F64.le lo x = true) (h2 : F64.le x hi = true) (f1 : Span.finite (g lo) = true)
    (f2 : Span.finite (g hi) = true) : F64.le (g lo) (g x) = true ∧ F64.le (g x) (g hi) = true := by
  obtain ⟨a1, ha1⟩ := finite_iff.1 f1
  obtain ⟨a2, ha2⟩ := finite_iff.1 f2
  have hx := (le_not_nan h1).2
  suffices hn : g x ≠ nan from ⟨(C65_link T hg).2 _ _ h1 ha1.ext.1 hn, (C65_link T hg).2 _ _ h2 hn ha2.ext.1⟩
  have hlogit : ∀ {z : F64}, z ≠ nan →
      Arith.div Arith.one (Arith.add Arith.one (Trans.exp (Arith.neg z))) ≠ (nan : F64) := by
    intro z hz
    have k1 : NonNeg (Arith.one : F64) := by rw [one_eq]; exact nonNeg_ofRat zero_le_one _
    have hex : NonNeg (Trans.exp (Arith.neg z) : F64) := nonNeg_iff.mpr (T.exp_nonneg (neg_ne_nan.2 hz))
    have k2 := (ext_add k1 hex).1.1
    exact (le_not_nan (div_one_le ((le_iff one_ne_nan k2).mpr (le_add k1 hex)) (F64.le_refl k2))).1
  cases n with
  | softmax => cases hg; exact hlogit hx
  | logit => cases hg; exact hlogit hx
  | exp => cases hg; exact (le_not_nan (T.exp_mono h1)).2
  | cloglog =>
    cases hg
    have k1 := (le_not_nan (T.exp_mono h1)).2
    have k2 := (le_not_nan (T.exp_mono (neg_le (F64.le_refl k1)))).1
    have h1 : Span.finite (Arith.one : F64) = true := by decide +kernel
    exact add_fin_ne_nan h1 (neg_ne_nan.2 k2)
  | cauchit =>
    cases hg
    obtain ⟨p1, p2⟩ := Span.finite_add f1
    obtain ⟨q1, q2⟩ := Span.finite_add f2
    obtain ⟨r1, r2⟩ := finite_mul p2
    obtain ⟨s1, s2⟩ := finite_mul q2
    obtain ⟨u, hu⟩ := finite_iff.1 r2
    obtain ⟨v, hv⟩ := finite_iff.1 s2
    obtain ⟨w, hw⟩ := finite_iff.1 r1
    obtain ⟨q, hq, -⟩ := IsFin.between hu hv (T.atan_mono h1) (T.atan_mono h2)
    exact add_fin_ne_nan p1 (mul_finite hw hq).1
  | none => cases hg
  | simplemax => cases hg
  | empty => cases hg
  | other s => cases hg

theorem regression_bounds (T : MonotoneTrans) {td td' : TD F64} {d : RegressionDoc F64} {m : EModel F64}
    (hm : newModel dd (.regression d) td = (.ok m, td')) {row : Row F64} (hB : B.Has row) (o : MapOrd) {out : Out F64}
    (hr : (EModel.evaluate o m row).res = .ok out) : (regressionAnswers B d).Holds out := by
  unfold regressionAnswers
  split
  · rename_i t f g hf ht ho hg
    rw [C45_regression hm hf ht ho, hg] at hr
    cases hmiss : firstMissing row t.predictors with
    | some k => rw [hmiss] at hr; cases hr
    | none =>
      rw [hmiss] at hr
      cases hr
      intro k
      dsimp only
      split_ifs with hk
      · subst hk
        simp only [Std.ExtTreeMap.getElem?_insert_self]
        have hl := linearSpan_holds hB t
        generalize linearSpan B t = s at hl
        rcases s with _ | ⟨lo, hi⟩
        · trivial
        · exact Span.ofSpan_holds (Span.of_holds (fun f1 f2 => (link_between T hg hl.1 hl.2 f1 f2).1)
            (fun f1 f2 => (link_between T hg hl.1 hl.2 f1 f2).2))
      · change _ = _
        rw [Std.ExtTreeMap.getElem?_insert]
        simp [Ne.symm hk]
  · cases out with
    | none => rfl
    | some out => intro k; trivial

/-! ### Documents -/

mutual
theorem doc_bounds (T : MonotoneTrans) : (e : ModelElem F64) → ∀ {td td' : TD F64} {m : EModel F64} {B : Box} {row : Row F64},
    newModel dd e td = (.ok m, td') → B.Has row → ∀ (o : MapOrd) {out : Out F64}, (EModel.evaluate o m row).res = .ok out →
    (bounds dd B e td).1.Holds out ∧ (bounds dd B e td).2.Has (EModel.evaluate o m row).row
  | .tree d, td, td', m, B, row, hm, hB, o, out, hr => by
    rw [bounds]; exact tree_bounds hm hB o hr
  | .regression d, td, td', m, B, row, hm, hB, o, out, hr => by
    rw [bounds]
    refine ⟨regression_bounds T hm hB o hr, ?_⟩
    rw [regression_model hm]
    exact hB
  | .other k, td, td', m, B, row, hm, hB, o, out, hr => by
    rw [newModel] at hm; cases hm
  | .mining h segs, td, td', m, B, row, hm, hB, o, out, hr => by
    have hany : Outlook.any.Holds out := by
      cases out with
      | none => rfl
      | some out => intro k; trivial
    obtain ⟨s, ms, hM, hms, -, -, -, -, hev⟩ := constructed_mining hm
    rcases hev o row with ⟨e, row3, hp', he⟩ | ⟨row2, hp, he⟩
    · rw [he] at hr; cases hr
    have hB' := imputedBox_has hB hp
    rw [bounds]
    cases hmeth : effectiveMethod h.method with
    | sum =>
      obtain ⟨ms, r, row', h1, h2, h3, h4, h5⟩ := C36_sum hm hmeth hp o
      cases r with
      | error e => rw [h4 e rfl] at hr; cases hr
      | ok outs =>
        obtain ⟨out', e1, e2⟩ := h5 outs rfl
        rw [hr, Except.ok.injEq] at e1
        subst e1
        obtain ⟨k1, k2⟩ := segs_bounds T segs h1 hB' h2
        rw [h3]
        exact ⟨sumAnswers_holds k1 e2, k2⟩
    | average =>
      obtain ⟨ms, r, row', h1, h2, h3, h4, h5⟩ := C37_average hm hmeth hp o
      cases r with
      | error e => rw [h4 e rfl] at hr; cases hr
      | ok outs =>
        obtain ⟨out', e1, e2⟩ := h5 outs rfl
        rw [hr, Except.ok.injEq] at e1
        subst e1
        obtain ⟨k1, k2⟩ := segs_bounds T segs h1 hB' h2
        rw [h3]
        exact ⟨averageAnswers_holds k1 e2, k2⟩
    | modelChain =>
      obtain ⟨ms, h1, h2⟩ := C39_chain hm hmeth hp o
      rw [hr] at h2
      refine chain_bounds T segs h1 (last := some ∅) ?_ hB' h2
      intro k
      exact Std.ExtTreeMap.getElem?_empty
    | selectFirst =>
      obtain ⟨s, ms, -, h1, h2⟩ := C38_selectFirst hm hmeth hp o
      rcases h2 with ⟨-, h2, -⟩ | ⟨m0, rest, o', rfl, h2, h3, -⟩
      · rw [hr] at h2; cases h2
      · rw [h2] at hr
        rw [h3]
        exact first_bounds T segs h1 hB' o' hr
    | empty => exact ⟨hany, fun _ => trivial⟩
    | other t => exact ⟨hany, fun _ => trivial⟩
theorem segs_bounds (T : MonotoneTrans) : (segs : List (SegDoc F64)) → ∀ {td td' : TD F64} {ms : List (EModel F64)} {B : Box}
    {row row' : Row F64} {outs : List (Out F64)}, SegModels dd segs td ms td' → B.Has row →
    SegsRun ms row (.ok outs) row' →
    List.Forall₂ Outlook.Holds (segsBounds dd B segs td).1 outs ∧ (segsBounds dd B segs td).2.Has row'
  | [], td, td', ms, B, row, row', outs, hms, hB, hr => by
    cases hms
    rw [segsBounds]
    cases hr
    exact ⟨.nil, hB⟩
  | .mk id ps [] :: segs, td, td', ms, B, row, row', outs, hms, hB, hr => by cases hms
  | .mk id ps (e :: e2 :: es) :: segs, td, td', ms, B, row, row', outs, hms, hB, hr => by cases hms
  | .mk id ps [e] :: segs, td, td', ms, B, row, row', outs, hms, hB, hr => by
    cases hms with
    | @cons _ _ _ _ _ td1 _ m ms hm hms =>
      have hl : td ++ localFieldsAll [e] = td1 := by
        rw [newModel_locals hm]; simp [localFieldsAll]
      rw [segsBounds, elemsBounds, hl]
      generalize hq : (Except.ok outs : Res (List (Out F64))) = q at hr
      cases hr with
      | fail h => cases hq
      | @cons _ _ _ o out r _ h hrun =>
        cases r with
        | error e => cases hq
        | ok outs' =>
          cases hq
          obtain ⟨k1, k2⟩ := doc_bounds T e hm hB o h
          obtain ⟨k3, k4⟩ := segs_bounds T segs hms k2 hrun
          exact ⟨.cons k1 k3, k4⟩
theorem chain_bounds (T : MonotoneTrans) : (segs : List (SegDoc F64)) → ∀ {td td' : TD F64} {ms : List (EModel F64)} {B : Box}
    {row row' : Row F64} {a : Outlook} {last out : Out F64}, SegModels dd segs td ms td' → a.Holds last → B.Has row →
    ChainRun last ms row (.ok out) row' →
    (chainBounds dd a B segs td).1.Holds out ∧ (chainBounds dd a B segs td).2.Has row'
  | [], td, td', ms, B, row, row', a, last, out, hms, ha, hB, hr => by
    cases hms
    rw [chainBounds]
    cases hr
    exact ⟨ha, hB⟩
  | .mk id ps [] :: segs, td, td', ms, B, row, row', a, last, out, hms, ha, hB, hr => by cases hms
  | .mk id ps (e :: e2 :: es) :: segs, td, td', ms, B, row, row', a, last, out, hms, ha, hB, hr => by cases hms
  | .mk id ps [e] :: segs, td, td', ms, B, row, row', a, last, out, hms, ha, hB, hr => by
    cases hms with
    | @cons _ _ _ _ _ td1 _ m ms hm hms =>
      have hl : td ++ localFieldsAll [e] = td1 := by
        rw [newModel_locals hm]; simp [localFieldsAll]
      rw [chainBounds, elemsBounds, hl]
      generalize hq : (Except.ok out : Res (Out F64)) = q at hr
      cases hr with
      | nilRow h => cases hq
      | fail h => cases hq
      | @cons _ _ _ _ row1 o out1 _ _ hx h hrun =>
        cases hq
        obtain ⟨k1, k2⟩ := doc_bounds T e hm (written_has ha hB hx) o h
        exact chain_bounds T segs hms k1 k2 hrun
theorem first_bounds (T : MonotoneTrans) : (segs : List (SegDoc F64)) → ∀ {td td' : TD F64} {m : EModel F64}
    {rest : List (EModel F64)} {B : Box} {row : Row F64}, SegModels dd segs td (m :: rest) td' → B.Has row →
    ∀ (o : MapOrd) {out : Out F64}, (EModel.evaluate o m row).res = .ok out →
    (firstBounds dd B segs td).1.Holds out ∧ (firstBounds dd B segs td).2.Has (EModel.evaluate o m row).row
  | [], td, td', m, rest, B, row, hms, hB, o, out, hr => by cases hms
  | .mk id ps [] :: segs, td, td', m, rest, B, row, hms, hB, o, out, hr => by cases hms
  | .mk id ps (e :: e2 :: es) :: segs, td, td', m, rest, B, row, hms, hB, o, out, hr => by cases hms
  | .mk id ps [e] :: segs, td, td', m, rest, B, row, hms, hB, o, out, hr => by
    cases hms with
    | cons hm hms =>
      rw [firstBounds, elemsBounds]
      exact doc_bounds T e hm hB o hr
end

/-! ### When everything is known -/

/-- Everything is known about the row. -/
def Spec.Box.Known (B : Box) : Prop := ∀ f, B f = .absent ∨ ∃ v, B f = .is v

omit [Trans F64] in
theorem knownRow_known (h : B.Known) (fs : List String) : ∃ r, knownRow B fs = some r := by
  induction fs with
  | nil => exact ⟨∅, rfl⟩
  | cons f fs ih =>
    obtain ⟨r, hr⟩ := ih
    unfold knownRow at hr ⊢
    rw [List.foldr_cons, hr]
    rcases h f with hf | ⟨v, hf⟩ <;> rw [hf] <;> exact ⟨_, rfl⟩

omit [Trans F64] in
mutual
theorem exprRegion_known {row : Row F64} (hK : B.Known) (h : B.Has row) : (e : Expr F64) → ∀ {v},
    handleExpression row e = .ok v → exprRegion B e = .is v
  | .fieldRef f, v, hv => by
    have hh := exprRegion_holds h _ hv
    rw [exprRegion] at hh ⊢
    rcases hK f with hf | ⟨w, hf⟩ <;> rw [hf] at hh ⊢ <;> cases hh <;> rfl
  | .const dt t, v, hv => by
    simp only [handleExpression] at hv
    simp only [exprRegion, hv]
  | .mapValues m, v, hv => by
    simp only [handleExpression] at hv
    obtain ⟨r, hr⟩ := knownRow_known hK (m.fieldColumnPairs.map (·.field))
    rw [exprRegion, hr]
    dsimp only
    rw [← mapValues_known h hr, hv]
  | .other k, v, hv => by simp [handleExpression] at hv
  | .apply fn args, v, hv => by
    unfold handleExpression at hv
    unfold exprRegion
    by_cases h1 : fn = "sum"
    · rw [if_pos h1] at hv ⊢
      cases hs : sumLoop row Arith.zero args with
      | error e => rw [hs] at hv; cases hv
      | ok s =>
        rw [hs] at hv
        cases hv
        exact sumRegion_known hK h args hs
    rw [if_neg h1] at hv ⊢
    by_cases h2 : fn = "*" ∨ fn = "+" ∨ fn = "-" ∨ fn = "/"
    · rw [if_pos h2] at hv ⊢
      match args, hv with
      | [a, b], hv =>
        simp only at hv ⊢
        cases ha : handleExpression row a with
        | error e => rw [ha] at hv; cases hv
        | ok x =>
          cases hb : handleExpression row b with
          | error e => rw [ha, hb] at hv; cases hv
          | ok y =>
            rw [ha, hb] at hv
            rw [exprRegion_known hK h a ha, exprRegion_known hK h b hb]
            simp only [bind, Except.bind] at hv
            split_ifs at hv ⊢ <;> cases hv <;> rfl
      | [], hv => cases hv
      | [_], hv => cases hv
      | _ :: _ :: _ :: _, hv => cases hv
    rw [if_neg h2] at hv ⊢
    by_cases h3 : fn = "isMissing" ∨ fn = "isNotMissing"
    · rw [if_pos h3]
      match args, hv with
      | [a], hv =>
        simp only at hv ⊢
        cases ha : handleExpression row a with
        | error e => rw [ha] at hv; rcases h3 with rfl | rfl <;> simp [bind, Except.bind] at hv
        | ok x =>
          rw [ha] at hv
          rw [exprRegion_known hK h a ha]
          rcases h3 with rfl | rfl <;> simp [bind, Except.bind, pure, Except.pure] at hv <;> subst hv <;>
            cases x <;> rfl
      | [], hv => rcases h3 with rfl | rfl <;> simp at hv
      | _ :: _ :: _, hv => rcases h3 with rfl | rfl <;> simp at hv
    rw [if_neg h3]
    rw [not_or] at h3
    rw [if_neg h3.1, if_neg h3.2] at hv
    by_cases h4 : fn = "if"
    · rw [if_pos h4] at hv ⊢
      match args, hv with
      | [c, a, b], hv =>
        simp only at hv ⊢
        cases hc : handleExpression row c with
        | error e => rw [hc] at hv; cases hv
        | ok x =>
          rw [hc] at hv
          rw [exprRegion_known hK h c hc]
          simp only [bind, Except.bind] at hv
          dsimp only
          split_ifs at hv ⊢
          · exact exprRegion_known hK h a hv
          · exact exprRegion_known hK h b hv
      | [], hv => cases hv
      | [_], hv => cases hv
      | [_, _], hv => cases hv
      | _ :: _ :: _ :: _ :: _, hv => cases hv
    · rw [if_neg h4] at hv; cases hv
theorem sumRegion_known {row : Row F64} (hK : B.Known) (h : B.Has row) : (es : List (Expr F64)) → ∀ {s t : F64},
    sumLoop row s es = .ok t → sumRegion B (.is (.f64 s)) es = .is (.f64 t)
  | [], s, t, hs => by
    simp only [sumLoop, Except.ok.injEq] at hs
    subst hs
    rw [sumRegion]
  | e :: es, s, t, hs => by
    rw [sumLoop] at hs
    rw [sumRegion]
    cases he : handleExpression row e with
    | error e => rw [he] at hs; cases hs
    | ok v =>
      rw [he] at hs
      rw [exprRegion_known hK h e he]
      exact sumRegion_known hK h es hs
end

omit [Trans F64] in
theorem derivedBox_known : (dfs : List (DerivedField F64)) → ∀ {B : Box} {row row' : Row F64}, B.Known → B.Has row →
    handleInput dfs row = (.ok (), row') → (derivedBox dfs B).Known
  | [], B, row, row', hK, h, hi => hK
  | df :: dfs, B, row, row', hK, h, hi => by
    rw [handleInput] at hi
    cases he : handleExpression row df.expr with
    | error e => rw [he] at hi; simp at hi
    | ok v =>
      rw [he] at hi
      simp only at hi
      cases hs : row.set df.name (storeValue df.opType v) with
      | error e => rw [hs] at hi; simp at hi
      | ok row1 =>
        rw [hs] at hi
        rw [derivedBox]
        refine derivedBox_known dfs ?_ (set_has h hs (storeRegion_holds (exprRegion_holds h _ he) _)) hi
        intro f
        unfold Box.set
        split_ifs
        · rw [exprRegion_known hK h _ he]
          cases df.opType <;> exact .inr ⟨_, rfl⟩
        · exact hK f

omit [Trans F64] in
theorem leaf_known (hK : B.Known) (types : FieldTypes) (s : SimplePred F64) : ∃ v, leafOutcomes types B s = .only v := by
  unfold leafOutcomes
  rcases hK s.field with hf | ⟨w, hf⟩ <;> rw [hf]
  · exact ⟨_, rfl⟩
  · dsimp only
    split <;> exact ⟨_, rfl⟩

/-- No child whose test is the constant true. -/
def noTrueChild (n : Node F64) : Bool := n.nodes.all fun c => match c.pred with | some .true_ => false | _ => true

omit [Trans F64] in
mutual
theorem specialNode_single {out : Pred F64 → Outcomes} {s : MissingValueStrategy} {nt : NoTrueChildStrategy}
    (hl : ∀ p, ∃ v, out p = .only v) (hs : s = .none ∨ ∃ t, s = .other t) (hnt : nt ≠ .returnNullPrediction) :
    (n : Node F64) → AllPreds n → ((allNodes (specialNode out s nt n)).filter noTrueChild).length ≤ 1
  | .mk id dc score rc ds ns p, hp => by
    rw [specialNode, if_neg (fun h => hnt h.1), allNodes]
    rcases specialNodes_single hl hs hnt dc ns fun n hn r hr => hp r (.child hn hr) with h | ⟨c, h, ht, hc⟩
    · rw [h]
      simp only [allNodes.allNodess, List.filter_cons, List.filter_nil]
      split_ifs <;> simp
    · rw [h, List.filter_cons_of_neg]
      · simpa [allNodes.allNodess] using hc
      · simp [noTrueChild, Node.nodes, ht]
theorem specialNodes_single {out : Pred F64 → Outcomes} {s : MissingValueStrategy} {nt : NoTrueChildStrategy}
    (hl : ∀ p, ∃ v, out p = .only v) (hs : s = .none ∨ ∃ t, s = .other t) (hnt : nt ≠ .returnNullPrediction)
    (dc : String) : (ns : List (Node F64)) → (∀ n ∈ ns, AllPreds n) → specialNodes out s nt dc ns = [] ∨
      ∃ c, specialNodes out s nt dc ns = [c] ∧ c.pred = some .true_ ∧ ((allNodes c).filter noTrueChild).length ≤ 1
  | [], _ => by rw [specialNodes]; exact .inl rfl
  | n :: ns, hp => by
    have h1 := specialNode_single hl hs hnt n (hp n (by simp))
    have h2 := specialNodes_single hl hs hnt dc ns fun n hn => hp n (by simp [hn])
    obtain ⟨p, hq⟩ := hp n (by simp) n .refl
    have hth : Thorough s = false := by rcases hs with rfl | ⟨t, rfl⟩ <;> rfl
    have := certain_or hl hth dc n.id p
    rw [specialNodes, hq]
    split_ifs with k1 k2
    · exact h2
    · refine .inr ⟨_, rfl, ?_, h1⟩
      cases n with
      | mk id dc' score rc ds ns' q =>
        simp only [Node.pred] at hq
        subst hq
        rw [specialNode]
        simp only [Node.pred, specialTest]
        rw [if_pos]
        obtain ⟨v, hv⟩ := hl p
        simp only [certain, hv] at k2 ⊢
        rcases hs with rfl | ⟨t, rfl⟩ <;> cases v <;> simp_all [Outcomes.only, Outcomes.all, settles]
    · exact absurd this (by simp [k1, k2])
end

omit [Trans F64] in
mutual
theorem specialNode_preds {out : Pred F64 → Outcomes} {s : MissingValueStrategy} {nt : NoTrueChildStrategy}
    (hnt : nt ≠ .returnNullPrediction) : (n : Node F64) → AllPreds n →
    ∀ r ∈ allNodes (specialNode out s nt n), r.pred.isSome = true
  | .mk id dc score rc ds ns p, hp, r, hr => by
    rw [specialNode, if_neg (fun h => hnt h.1), allNodes] at hr
    rcases List.mem_cons.mp hr with rfl | hr
    · obtain ⟨q, hq⟩ := hp _ .refl
      simp only [Node.pred] at hq
      subst hq
      simp only [Node.pred, specialTest]
      split_ifs <;> rfl
    · exact specialNodes_preds hnt dc ns (fun n hn r hr => hp r (.child hn hr)) r hr
theorem specialNodes_preds {out : Pred F64 → Outcomes} {s : MissingValueStrategy} {nt : NoTrueChildStrategy}
    (hnt : nt ≠ .returnNullPrediction) (dc : String) : (ns : List (Node F64)) → (∀ n ∈ ns, AllPreds n) →
    ∀ r ∈ allNodes.allNodess (specialNodes out s nt dc ns), r.pred.isSome = true
  | [], _, r, hr => by rw [specialNodes] at hr; simp [allNodes.allNodess] at hr
  | n :: ns, hp, r, hr => by
    have h1 := specialNode_preds (out := out) (s := s) hnt n (hp n (by simp)) r
    have h2 := specialNodes_preds (out := out) (s := s) hnt dc ns (fun n hn => hp n (by simp [hn])) r
    rw [specialNodes] at hr
    split_ifs at hr with k1 k2
    · exact h2 hr
    · exact h1 (by simpa [allNodes.allNodess] using hr)
    · rw [allNodes.allNodess, List.mem_append] at hr
      exact hr.elim h1 h2
end

end Gopmml

namespace Gopmml.Props
open Gopmml Spec F64

variable {dd : List DataField}

/-- **C102**: if the row is as known and the document answers, the answer and the row afterwards are as computed.
Every kind of model at any depth, every strategy and method, any order of maps, numbers rounded as float64s. -/
theorem C102_bounds [Trans F64] (T : MonotoneTrans) {e : ModelElem F64} {td td' : TD F64} {m : EModel F64}
    (hm : newModel dd e td = (.ok m, td')) {B : Box} {row : Row F64} (hB : B.Has row) (o : MapOrd) {out : Out F64}
    (hr : (EModel.evaluate o m row).res = .ok out) :
    (bounds dd B e td).1.Holds out ∧ (bounds dd B e td).2.Has (EModel.evaluate o m row).row :=
  doc_bounds T e hm hB o hr

/-- **C102** (numbers): where bounds are computed for an entry, the entry is there and is a number within them. -/
theorem C102_within [Trans F64] (T : MonotoneTrans) {e : ModelElem F64} {td td' : TD F64} {m : EModel F64}
    (hm : newModel dd e td = (.ok m, td')) {B : Box} {k : String} {lo hi : F64}
    (hk : (bounds dd B e td).1.entry k = .between lo hi) {row : Row F64} (hB : B.Has row) (o : MapOrd)
    {out : GoMap (GoVal F64)} (hr : (EModel.evaluate o m row).res = .ok (some out)) :
    ∃ x, out[k]? = some (.f64 x) ∧ F64.le lo x = true ∧ F64.le x hi = true := by
  have := (C102_bounds T hm hB o hr).1 k
  rw [hk] at this
  exact this

/-- **C102** (robustness): where one value is computed for an entry, all rows that are as known get that value. -/
theorem C102_robust [Trans F64] (T : MonotoneTrans) {e : ModelElem F64} {td td' : TD F64} {m : EModel F64}
    (hm : newModel dd e td = (.ok m, td')) {B : Box} {k : String} {v : GoVal F64}
    (hk : (bounds dd B e td).1.entry k = .is v) {row row' : Row F64} (hB : B.Has row) (hB' : B.Has row') (o o' : MapOrd)
    {out out' : GoMap (GoVal F64)} (hr : (EModel.evaluate o m row).res = .ok (some out))
    (hr' : (EModel.evaluate o' m row').res = .ok (some out')) : out[k]? = some v ∧ out'[k]? = some v := by
  have h1 := (C102_bounds T hm hB o hr).1 k
  have h2 := (C102_bounds T hm hB' o' hr').1 k
  rw [hk] at h1 h2
  exact ⟨h1, h2⟩

/-- **C102** (a prediction): where it is computed that there is one, there is one unless evaluation fails. -/
theorem C102_predicts [Trans F64] (T : MonotoneTrans) {e : ModelElem F64} {td td' : TD F64} {m : EModel F64}
    (hm : newModel dd e td = (.ok m, td')) {B : Box} (hn : (bounds dd B e td).1.none = false) {row : Row F64}
    (hB : B.Has row) (o : MapOrd) : (EModel.evaluate o m row).res ≠ .ok none := by
  intro hr
  have : (bounds dd B e td).1.none = true := (C102_bounds T hm hB o hr).1
  rw [hn] at this
  cases this

/-- **C102** (exactness): for a tree that goes to the first true child, from complete knowledge of a row exactly the
answer is computed. -/
theorem C102_exact [Trans F64] {d : TreeDoc F64} {td td' : TD F64} {m : EModel F64}
    (hm : newModel dd (.tree d) td = (.ok m, td'))
    (hs : d.missingValueStrategy = .none ∨ ∃ s, d.missingValueStrategy = .other s)
    (hnt : d.noTrueChildStrategy ≠ .returnNullPrediction) (hp : AllPreds d.node) {B : Box} (hK : B.Known)
    {row : Row F64} (hB : B.Has row) (o : MapOrd) {out : GoMap (GoVal F64)}
    (hr : (EModel.evaluate o m row).res = .ok (some out)) (k : String) :
    (bounds dd B (.tree d) td).1.none = false ∧ (bounds dd B (.tree d) td).1.entry k = .entry out[k]? := by
  obtain ⟨t, row', ht, hi, hB', -, h2⟩ := tree_as_special hm hB o hr
  have hK' := derivedBox_known _ hK hB hi
  rw [bounds]
  generalize derivedBox d.localTransformations B = B' at ht hB' hK'
  have hl : ∀ p, ∃ v, testOutcomes (leafOutcomes (treeTypes dd td d) B') p = .only v :=
    fun p => test_only (fun s => leaf_known hK' _ s) p
  have hout : ∀ p, (testOutcomes (leafOutcomes (treeTypes dd td d) B') p).has
      (testValue (simpleVal (treeTypes dd td d) row') p) = true := fun p => test_has (fun s => leaf_has hB' _ s) p
  have hpre := specialNode_preds (out := testOutcomes (leafOutcomes (treeTypes dd td d) B'))
    (s := d.missingValueStrategy) hnt d.node hp
  have hone := specialNode_single hl hs hnt d.node hp
  have hp' : AllPreds (specialTree B' dd td d).node := fun r hr => Option.isSome_iff_exists.1 (hpre r (sub_mem_allNodes hr))
  obtain ⟨c1, c2⟩ := C12_first_true_child ht hp' hs hi o
  have hT : nodeTest (treeTypes dd td d) row' (specialTree B' dd td d).node = .t := by
    by_contra hT
    rw [c1.mp hT] at h2
    cases h2
  obtain ⟨r, hf, -, he⟩ := c2 hT
  obtain ⟨f1, f2⟩ := firstTrue_end hf
  have hmem : r ∈ (allNodes (specialTree B' dd td d).node).filter noTrueChild := by
    refine List.mem_filter.mpr ⟨sub_mem_allNodes f1, List.all_eq_true.mpr fun c hc => ?_⟩
    have := f2 c hc
    cases hq : c.pred with
    | none => rfl
    | some p =>
      cases p <;> first | rfl | skip
      exact absurd (by simp only [nodeTest, hq]; rfl) this
  have hns : (allNodes (specialTree B' dd td d).node).filter noTrueChild = [r] := by
    change ((allNodes (specialTree B' dd td d).node).filter noTrueChild).length ≤ 1 at hone
    generalize (allNodes (specialTree B' dd td d).node).filter noTrueChild = l at hmem hone
    match l, hmem, hone with
    | [x], hm, _ => rw [List.mem_singleton] at hm; rw [hm]
    | _ :: _ :: _, _, h => simp at h
  have hmay : mayAnswer (specialTree B' dd td d) = some [r] := by
    rw [← hns]
    unfold mayAnswer
    have : (specialTree B' dd td d).missingValueStrategy = d.missingValueStrategy := rfl
    rw [this]
    rcases hs with hs | ⟨s, hs⟩ <;> rw [hs] <;> rfl
  have hall : ((allNodes (specialTree B' dd td d).node).all (·.pred.isSome)) = true := List.all_eq_true.mpr hpre
  simp only [treeAnswers, specialAnswers, hmay, hall, if_true]
  constructor
  · rw [Bool.not_eq_false']
    unfold sure
    rw [Bool.and_eq_true]
    constructor
    · obtain ⟨p, hq⟩ := hp' _ .refl
      rw [hq]
      simp only [nodeTest, hq] at hT
      have := hout p
      rw [hT] at this
      obtain ⟨v, hv⟩ := hl p
      simp only [certain, hv] at this ⊢
      cases v <;> simp_all [Outcomes.has, Outcomes.only, Outcomes.all]
    · have : (specialTree B' dd td d).missingValueStrategy = d.missingValueStrategy := rfl
      rw [this]
      rcases hs with hs | ⟨s, hs⟩ <;> rw [hs]
  · rw [h2] at he
    simp only [nodeAnswers, List.filterMap_cons, List.filterMap_nil, ← he, List.map_cons, List.map_nil]
    rfl

section Examples
open Replay Samples
attribute [local instance] steps

/-- x lies between two numbers. -/
def xBetween (lo hi : String) : Box := fun f => if f = "x" then .between (num lo) (num hi) else .any

-- C102: the sum of three trees, times 2, plus 1. For x between 1 and 2 the answer is 15, for x between 5 and 9 it is
-- 141; for x between 1 and 9 it lies between 1 and 141 (the analysis does not notice that one of the two children is
-- always true, and takes the label 0 of the roots into account).
example :
    let at_ (m : MultipleModelMethod) (lo hi : String) := (bounds Samples.dd (xBetween lo hi) (ensemble m) []).1
    (at_ .sum "1" "2").entry "y" = .between (num "15") (num "15") ∧
    (at_ .sum "5" "9").entry "y" = .between (num "141") (num "141") ∧
    (at_ .sum "1" "9").entry "y" = .between (num "1") (num "141") ∧
    (at_ .average "5" "9").entry "y" = .between (num "47") (num "47") ∧
    (at_ .modelChain "1" "2").entry "score" = .is (.f64 (num "4")) ∧
    (at_ .selectFirst "1" "2").entry "score" = .is (.f64 (num "1")) ∧
    (at_ .sum "1" "9").entry "other" = .absent ∧ (at_ .sum "1" "9").none = false ∧
    (at_ .modelChain "1" "9").none = false := by
  decide +kernel

-- C102: an ensemble inside a chain; and without x, which is then replaced by 3.
example :
    let a := bounds Samples.dd (xBetween "1" "2") nested []
    let b := bounds Samples.dd (fun _ => .absent) nested []
    a.1.entry "score" = .is (.f64 (num "100")) ∧ a.2 "y" = .between (num "15") (num "15") ∧
    b.1.entry "score" = .is (.f64 (num "100")) ∧ b.2 "y" = .between (num "15") (num "15") ∧
    b.2 "x" = .is (.str "3") ∧ b.2 "c" = .absent := by
  decide +kernel

example : (xBetween "1" "2").Has (some (mk [("x", .f64 (num "1.25")), ("c", .str "a")])) := by
  intro f
  unfold xBetween
  split_ifs with h
  · subst h; exact ⟨num "1.25", by decide +kernel, by decide +kernel, by decide +kernel⟩
  · trivial

/-- On a nice day that is not humid. -/
def dryDay : Box := fun f => if f = "humidity" then .between (num "20") (num "79") else niceDay f

-- C102 (robustness): on all dry nice days the golf tree says "will play"; on nice days in general either.
example :
    let a (s : MissingValueStrategy) (B : Box) := (bounds Replay.dd B (.tree (doc s "1" golfNormal)) []).1
    (a .none dryDay).entry "whatIdo" = .is (.str "will play") ∧ (a .none dryDay).none = false ∧
    (a .nullPrediction dryDay).entry "whatIdo" = .is (.str "will play") ∧ (a .nullPrediction dryDay).none = false ∧
    (a .lastPrediction dryDay).entry "whatIdo" = .is (.str "will play") ∧
    (a .none niceDay).entry "whatIdo" = .any ∧ (a .nullPrediction niceDay).none = true := by
  decide +kernel

/-- A tree whose x is replaced by an expression. -/
def withDerived (e : Expr F64) : TreeDoc F64 :=
  { regTree "1" "10" with localTransformations := [⟨"x", .double, .continuous, e⟩] }

def parabola : Expr F64 := .apply "/" [.apply "*" [.apply "+" [.fieldRef "x", .const .double "1"],
  .apply "-" [.fieldRef "x", .const .double "4"]], .const .double "2"]

-- C102 (derived fields): x is replaced by (x + 1) * (x - 4) / 2, between -4 and -1.5 for x between 2 and 3 (with
-- both factors bounded on their own), and is exactly 3 for x = 5.
example :
    let d := withDerived parabola
    (bounds Samples.dd (xBetween "2" "3") (.tree d) []).2 "x" = .between (num "-4") (num "-1.5") ∧
    (bounds Samples.dd (xBetween "2" "3") (.tree d) []).1.entry "score" = .is (.f64 (num "1")) ∧
    (bounds Samples.dd (fun f => if f = "x" then .is (.f64 (num "5")) else .absent) (.tree d) []).2 "x" =
      .is (.f64 (num "3")) ∧
    (bounds Samples.dd (fun f => if f = "x" then .is (.str "6") else .absent) (.tree d) []).1.entry "score" =
      .is (.f64 (num "10")) := by
  decide +kernel

-- C102 (regression): 1 + 2*x + 3*z with the step function for exp.
example :
    let a (lo hi : String) := (bounds Samples.dd (fun f => if f = "x" then .between (num lo) (num hi) else
      if f = "z" then .is (.str "0.5") else .any) (.regression (line .exp)) []).1
    (a "-3" "-2").entry "out" = .between (num "0.5") (num "0.5") ∧
    (a "-3" "4").entry "out" = .between (num "0.5") (num "2") ∧
    (a "1" "4").entry "out" = .between (num "2") (num "2") ∧ (a "-3" "4").entry "x" = .absent := by
  decide +kernel

-- C102 (operations): a product of numbers of both signs; no bounds when dividing by numbers around zero or when a
-- bound is not finite.
example :
    Span.mul (some (num "-2", num "3")) (some (num "-5", num "4")) = some (num "-15", num "12") ∧
    Span.div (some (num "-2", num "3")) (some (num "2", num "4")) = some (num "-1", num "1.5") ∧
    Span.div (some (num "-2", num "3")) (some (num "-4", num "-2")) = some (num "-1.5", num "1") ∧
    Span.div (some (num "1", num "1")) (some (num "-1", num "1")) = none ∧
    Span.sub (some (num "1", num "2")) (some (num "5", num "7")) = some (num "-6", num "-3") ∧
    Span.add (some (num "1e308", num "1e308")) (some (num "1e308", num "1e308")) = none ∧
    Region.join (.is (.f64 (num "1"))) (.between (num "3") (num "4")) = .between (num "1") (num "4") := by
  decide +kernel

end Examples

end Gopmml.Props
