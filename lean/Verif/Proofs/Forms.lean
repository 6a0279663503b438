import Verif.Spec.Forms
import Verif.Proofs.Counts
import Verif.Props.ModelFrame

/-!
# Evaluation on rows that look alike
-/

namespace Gopmml
open Spec

variable {F : Type} [Arith F] [Lib F]

/-! Building with a fact `J` about all derived fields in scope. -/

mutual
theorem newModel_ind_td {dd : List DataField} {J : DerivedField F → Prop} {P : ModelElem F → EModel F → Prop}
    (ht : ∀ d t td td', (∀ df ∈ td', J df) → newTreeModel dd td d = (.ok t, td') → P (.tree d) (.tree t))
    (hr : ∀ d, P (.regression d) (.regression d))
    (hm : ∀ h segs td td' s ms, newModel dd (.mining h segs) td = (.ok (.mining s ms), td') →
      List.Forall₂ (fun seg m => ∃ id ps e, seg = SegDoc.mk id ps [e] ∧ P e m) segs ms →
      P (.mining h segs) (.mining s ms)) :
    (e : ModelElem F) → ∀ {td td' : TD F} {m : EModel F}, (∀ df, DerivedIn df e → J df) → (∀ df ∈ td, J df) →
    newModel dd e td = (.ok m, td') → P e m ∧ ∀ df ∈ td', J df
  | .tree d, td, td', m, hd, hj, h => by
    rw [newModel] at h
    rcases hn : newTreeModel dd td d with ⟨_ | t, td1⟩ <;> rw [hn] at h
    · simp at h
    · simp at h; obtain ⟨rfl, rfl⟩ := h
      have : ∀ df ∈ td1, J df := by
        rw [(newTreeModel_ok hn).2.1]
        intro df hdf
        rcases List.mem_append.mp hdf with h | h
        · exact hj df h
        · exact hd df (.tree h)
      exact ⟨ht d t td td1 this hn, this⟩
  | .regression d, td, td', m, hd, hj, h => by
    simp [newModel] at h; obtain ⟨rfl, rfl⟩ := h; exact ⟨hr d, hj⟩
  | .mining hh segs, td, td', m, hd, hj, h => by
    obtain ⟨s, ms, rfl, -, -, -, -, -, -, -, -, hc⟩ := newMining_ok h
    have := compileSegments_ind_td ht hr hm segs (td := td ++ hh.localTransformations)
      (fun id ps es e hs he df hdf => hd df (.segment hs he hdf)) (by
        intro df hdf
        rcases List.mem_append.mp hdf with h | h
        · exact hj df h
        · exact hd df (.mining h)) hc
    exact ⟨hm hh segs td td' s ms h this.1, this.2⟩
  | .other k, td, td', m, hd, hj, h => by simp [newModel] at h
theorem compileSegments_ind_td {dd : List DataField} {J : DerivedField F → Prop} {P : ModelElem F → EModel F → Prop}
    (ht : ∀ d t td td', (∀ df ∈ td', J df) → newTreeModel dd td d = (.ok t, td') → P (.tree d) (.tree t))
    (hr : ∀ d, P (.regression d) (.regression d))
    (hm : ∀ h segs td td' s ms, newModel dd (.mining h segs) td = (.ok (.mining s ms), td') →
      List.Forall₂ (fun seg m => ∃ id ps e, seg = SegDoc.mk id ps [e] ∧ P e m) segs ms →
      P (.mining h segs) (.mining s ms)) :
    (segs : List (SegDoc F)) → ∀ {td td' : TD F} {ms : List (EModel F)},
    (∀ id ps es e, SegDoc.mk id ps es ∈ segs → e ∈ es → ∀ df, DerivedIn df e → J df) → (∀ df ∈ td, J df) →
    compileSegments dd segs td = (.ok (), ms, td') →
    List.Forall₂ (fun seg m => ∃ id ps e, seg = SegDoc.mk id ps [e] ∧ P e m) segs ms ∧ ∀ df ∈ td', J df
  | [], td, td', ms, hd, hj, h => by
    simp [compileSegments] at h; obtain ⟨rfl, rfl⟩ := h; exact ⟨.nil, hj⟩
  | .mk id ps [] :: segs, td, td', ms, hd, hj, h => by simp [compileSegments] at h
  | .mk id ps [e] :: segs, td, td', ms, hd, hj, h => by
    rw [compileSegments] at h
    rcases hn : newModel dd e td with ⟨_ | m, td1⟩ <;> rw [hn] at h
    · simp at h
    · simp at h
      obtain ⟨h1, rfl, h3⟩ := h
      obtain ⟨g1, g2⟩ := newModel_ind_td ht hr hm e (hd id ps [e] e (by simp) (by simp)) hj hn
      obtain ⟨k1, k2⟩ := compileSegments_ind_td ht hr hm segs (td := td1)
        (fun id ps es e hs he => hd id ps es e (by simp [hs]) he) g2 (Prod.ext h1 rfl)
      rw [h3] at k2
      exact ⟨.cons ⟨id, ps, e, rfl, g1⟩ k1, k2⟩
  | .mk id ps (e :: e' :: es) :: segs, td, td', ms, hd, hj, h => by simp [compileSegments] at h
end

/-! Values. -/

theorem Spec.Alike.refl (k : Form) (v : GoVal F) : Alike k v v := by
  cases k <;> simp [Alike]

/-- A test for order looks at the number only. -/
theorem ofNumber_alike {dt : DataType} {op : SimpleOp} {k : Form} (h : OfNumber dt op k) (text : String)
    {v w : GoVal F} (hv : Alike k v w) : satisfies dt op text v = satisfies dt op text w := by
  cases k with
  | real =>
    have := hv.2
    obtain ⟨h1, h2, h3⟩ := h
    cases op <;> first | rfl | exact absurd rfl h1 | exact absurd rfl h2 |
      (cases dt <;> first | rfl | exact absurd rfl h3 | simp only [satisfies, this])
  | whole =>
    have := hv.2
    obtain ⟨h1, h2, h3, h4⟩ := h
    cases op <;> first | rfl | exact absurd rfl h1 | exact absurd rfl h2 |
      (cases dt <;> first | rfl | exact absurd rfl h3 | exact absurd rfl h4 | simp only [satisfies, this])
  | exact => cases h
  | present => cases h
  | tests ts => cases h

theorem Spec.Alike.cover {k l : Form} {v w : GoVal F} (h : Alike k v w) (hc : k.Covers l) : Alike l v w := by
  cases k with
  | exact => cases h; exact .refl l v
  | real =>
    rcases hc with rfl | rfl | ⟨ts, rfl, hts⟩
    · exact h
    · exact h.1
    · exact ⟨h.1, fun t ht => ofNumber_alike (hts t ht) _ h⟩
  | whole =>
    rcases hc with rfl | rfl | ⟨ts, rfl, hts⟩
    · exact h
    · exact h.1
    · exact ⟨h.1, fun t ht => ofNumber_alike (hts t ht) _ h⟩
  | tests ts =>
    rcases hc with rfl | ⟨ts', rfl, hts⟩
    · exact h.1
    · exact ⟨h.1, fun t ht => h.2 t (hts ht)⟩
  | present => cases hc; exact h

theorem Spec.Alike.nil_iff {k : Form} {v w : GoVal F} (h : Alike k v w) : v = .nil ↔ w = .nil := by
  cases k with
  | exact => cases h; rfl
  | real => exact h.1
  | whole => exact h.1
  | tests ts => exact h.1
  | present => exact h

theorem Spec.AlikeRows.get {form : String → Form} {r r' : GoMap (GoVal F)} (h : AlikeRows form r r') (f : String) :
    (Row.get (some r) f = none ∧ Row.get (some r') f = none) ∨
    ∃ v w, Row.get (some r) f = some v ∧ Row.get (some r') f = some w ∧ Alike (form f) v w := by
  have := h f
  simp only [Row.get, Option.bind_some]
  cases h1 : r[f]? <;> cases h2 : r'[f]? <;> rw [h1, h2] at this <;> cases this
  · exact .inl ⟨rfl, rfl⟩
  · rename_i h; exact .inr ⟨_, _, rfl, rfl, h⟩

theorem Spec.AlikeRows.getD {form : String → Form} {r r' : GoMap (GoVal F)} (h : AlikeRows form r r') (f : String) :
    Alike (form f) (Row.getD (some r) f) (Row.getD (some r') f) := by
  unfold Row.getD
  rcases h.get f with ⟨h1, h2⟩ | ⟨v, w, h1, h2, h3⟩
  · rw [h1, h2]; exact .refl _ _
  · rw [h1, h2]; exact h3

theorem Spec.AlikeRows.insert {form : String → Form} {r r' : GoMap (GoVal F)} (h : AlikeRows form r r') {f : String}
    {v w : GoVal F} (hv : Alike (form f) v w) : AlikeRows form (r.insert f v) (r'.insert f w) := by
  intro x
  rw [GoMap.getElem?_insert, GoMap.getElem?_insert]
  split
  · rename_i hx
    subst hx
    exact .some hv
  · exact h x

/-! Tests. -/

theorem satisfies_alike {dt : DataType} {op : SimpleOp} {text : String} {k : Form} {v w : GoVal F}
    (hk : TestSees op text dt k) (h : Alike k v w) : satisfies dt op text v = satisfies dt op text w := by
  cases op with
  | isMissing => rfl
  | isNotMissing => rfl
  | other s => rfl
  | _ => exact (h.cover hk).2 _ (List.mem_singleton.mpr rfl)

theorem simpleVal_alike {types : FieldTypes} {declared : String → DataType → Prop} {form : String → Form}
    (ht : ∀ (f : String) dt, types[f]? = some dt → declared f dt) {r r' : GoMap (GoVal F)} (h : AlikeRows form r r')
    {p : SimplePred F} (hp : ∀ dt, declared p.field dt → TestSees p.op p.value dt (form p.field)) :
    simpleVal types (some r) p = simpleVal types (some r') p := by
  unfold simpleVal
  rcases h.get p.field with ⟨h1, h2⟩ | ⟨v, w, h1, h2, h3⟩
  · rw [h1, h2]
  · rw [h1, h2]
    simp only
    cases hd : types[p.field]? with
    | none => rfl
    | some dt => simp only [satisfies_alike (hp dt (ht _ _ hd)) h3]

mutual
theorem operandValue_alike {types : FieldTypes} {declared : String → DataType → Prop} {form : String → Form}
    (ht : ∀ (f : String) dt, types[f]? = some dt → declared f dt) {r r' : GoMap (GoVal F)} (h : AlikeRows form r r') :
    (p : Pred F) → PredSees declared form p →
    operandValue (simpleVal types (some r)) p = operandValue (simpleVal types (some r')) p
  | .true_, _ => by simp [operandValue]
  | .false_, _ => by simp [operandValue]
  | .set _, _ => by simp [operandValue]
  | .simple p, hp => by
    rw [PredSees] at hp
    simp only [operandValue]
    exact simpleVal_alike ht h hp
  | .compound op ps, hp => by
    rw [PredSees] at hp
    simp only [operandValue]
    rw [operandValues_alike ht h ps hp]
theorem operandValues_alike {types : FieldTypes} {declared : String → DataType → Prop} {form : String → Form}
    (ht : ∀ (f : String) dt, types[f]? = some dt → declared f dt) {r r' : GoMap (GoVal F)} (h : AlikeRows form r r') :
    (ps : List (Pred F)) → PredsSee declared form ps →
    operandValue.operandValues (simpleVal types (some r)) ps = operandValue.operandValues (simpleVal types (some r')) ps
  | [], _ => rfl
  | p :: ps, hp => by
    rw [PredsSee] at hp
    simp only [operandValue.operandValues]
    rw [operandValue_alike ht h p hp.1, operandValues_alike ht h ps hp.2]
end

theorem sameTests_alike {dd : List DataField} {td : TD F} {d : TreeDoc F} {cn : CNode F}
    {declared : String → DataType → Prop} {form : String → Form}
    (ht : ∀ f dt, (treeTypes dd td d)[f]? = some dt → declared f dt) {r r' : GoMap (GoVal F)}
    (h : newNode (treeTypes dd td d) d.node = .ok cn) (hr : AlikeRows form r r')
    (hp : ∀ n p, Sub n d.node → n.pred = some p → PredSees declared form p) :
    SameTests (docCtx dd td d) (treeTypes dd td d) (some r) (some r') cn := by
  intro x hsub
  obtain ⟨k, hk, hkr⟩ := csub_origin d.node h x hsub
  obtain ⟨id, dc, score, rc, dists, nodes, pred⟩ := k
  obtain ⟨cs, pred', -, hq, rfl⟩ := newNode_ok hkr
  cases pred with
  | none => subst hq; rfl
  | some p =>
    obtain ⟨p', hc, rfl⟩ := hq
    have := operandValue_alike ht hr p (hp _ p hk rfl)
    change runTest (treeTypes dd td d) (some p') (some r) = runTest (treeTypes dd td d) (some p') (some r')
    rw [runTest_spec _ hc, runTest_spec _ hc]
    cases p <;> simp only [testValue] <;> first | rfl | rw [this]

/-! Expressions. -/

omit [Arith F] [Lib F] in
theorem mapColumns_congr {row row' : Row F} (ps : List FieldColumnPair) (h : ∀ p ∈ ps, row.get p.field = row'.get p.field) :
    mapColumns ps row = mapColumns ps row' := by
  unfold mapColumns
  generalize (∅ : GoMap (GoVal F)) = c
  induction ps generalizing c with
  | nil => rfl
  | cons p ps ih =>
    simp only [List.foldl_cons, h p (by simp)]
    exact ih (fun q hq => h q (by simp [hq])) _

mutual
theorem handleExpression_alike {form : String → Form} {r r' : GoMap (GoVal F)} (h : AlikeRows form r r') :
    (e : Expr F) → ∀ {k}, ExprSees form k e →
    ResRel (Alike k) (handleExpression (some r) e) (handleExpression (some r') e)
  | .fieldRef f, k, hk => by
    rw [ExprSees] at hk
    simp only [handleExpression]
    exact .ok ((h.getD f).cover hk)
  | .const dt v, k, _ => by
    simp only [handleExpression]
    cases handleConstant (F := F) dt v with
    | error e => exact .error e
    | ok x => exact .ok (.refl k x)
  | .mapValues m, k, hk => by
    rw [ExprSees] at hk
    simp only [handleExpression]
    have : handleMapValues m (some r) = handleMapValues m (some r') := by
      unfold handleMapValues
      rw [mapColumns_congr (row := some r) (row' := some r') m.fieldColumnPairs]
      intro p hp
      have := h.get p.field
      rw [hk p hp] at this
      rcases this with ⟨h1, h2⟩ | ⟨v, w, h1, h2, h3⟩
      · rw [h1, h2]
      · rw [h1, h2, show v = w from h3]
    rw [this]
    cases handleMapValues m (some r') with
    | error e => exact .error e
    | ok x => exact .ok (.refl k x)
  | .other s, k, _ => by
    simp only [handleExpression]
    exact .error _
  | .apply fn args, k, hk => by
    rw [ExprSees.eq_def] at hk
    rw [handleExpression.eq_def, handleExpression.eq_def]
    simp only at hk ⊢
    by_cases hs : fn = "sum"
    · rw [if_pos (.inl hs)] at hk
      rw [if_pos hs, if_pos hs]
      refine (sumLoop_alike h args hk Arith.zero).bind fun a b hab => ?_
      subst hab
      exact .ok (.refl _ _)
    rw [if_neg hs, if_neg hs]
    by_cases ha : fn = "*" ∨ fn = "+" ∨ fn = "-" ∨ fn = "/"
    · rw [if_pos (.inr ha)] at hk
      rw [if_pos ha, if_pos ha]
      match args, hk with
      | [], _ => exact .error _
      | [_], _ => exact .error _
      | _ :: _ :: _ :: _, _ => exact .error _
      | [a, b], hk =>
        rw [ExprsSee, ExprsSee] at hk
        refine (handleExpression_alike h a hk.1).bind fun v v' hv => ?_
        refine (handleExpression_alike h b hk.2.1).bind fun w w' hw => ?_
        rw [hv.2, hw.2]
        split_ifs <;> exact .ok (.refl _ _)
    have hsa : ¬ (fn = "sum" ∨ fn = "*" ∨ fn = "+" ∨ fn = "-" ∨ fn = "/") := by tauto
    rw [if_neg hsa] at hk
    rw [if_neg ha, if_neg ha]
    by_cases hm : fn = "isMissing"
    · rw [if_pos (.inl hm)] at hk
      rw [if_pos hm, if_pos hm]
      match args, hk with
      | [], _ => exact .error _
      | _ :: _ :: _, _ => exact .error _
      | [a], hk =>
        rw [ExprsSee] at hk
        refine (handleExpression_alike h a hk.1).bind fun v v' hv => ?_
        have hv : v = .nil ↔ v' = .nil := hv
        cases v <;> cases v' <;> simp at hv <;> exact .ok (.refl _ _)
    rw [if_neg hm, if_neg hm]
    by_cases hm' : fn = "isNotMissing"
    · rw [if_pos (.inr hm')] at hk
      rw [if_pos hm', if_pos hm']
      match args, hk with
      | [], _ => exact .error _
      | _ :: _ :: _, _ => exact .error _
      | [a], hk =>
        rw [ExprsSee] at hk
        refine (handleExpression_alike h a hk.1).bind fun v v' hv => ?_
        have hv : v = .nil ↔ v' = .nil := hv
        cases v <;> cases v' <;> simp at hv <;> exact .ok (.refl _ _)
    rw [if_neg (by tauto)] at hk
    rw [if_neg hm', if_neg hm']
    by_cases hi : fn = "if"
    · rw [if_pos hi] at hk
      rw [if_pos hi, if_pos hi]
      match args, hk with
      | [], _ => exact .error _
      | [_], _ => exact .error _
      | [_, _], _ => exact .error _
      | _ :: _ :: _ :: _ :: _, _ => exact .error _
      | [c, a, b], hk =>
        refine (handleExpression_alike h c hk.1).bind fun v v' hv => ?_
        cases hv
        split_ifs
        · exact handleExpression_alike h a hk.2.1
        · exact handleExpression_alike h b hk.2.2
    · rw [if_neg hi, if_neg hi]
      exact .error _
theorem sumLoop_alike {form : String → Form} {r r' : GoMap (GoVal F)} (h : AlikeRows form r r') :
    (es : List (Expr F)) → ExprsSee form .real es → ∀ s, ResRel Eq (sumLoop (some r) s es) (sumLoop (some r') s es)
  | [], _, s => by simp only [sumLoop]; exact .ok rfl
  | e :: es, hk, s => by
    rw [ExprsSee] at hk
    simp only [sumLoop]
    refine (handleExpression_alike h e hk.1).bind fun v v' hv => ?_
    rw [hv.2]
    exact sumLoop_alike h es hk.2 _
end

/-- Derived fields on rows that look alike. -/
theorem handleInput_alike {form : String → Form} (dfs : List (DerivedField F)) (hs : ∀ df ∈ dfs, DerivedSees form df) :
    ∀ {r r' : GoMap (GoVal F)}, AlikeRows form r r' →
    (handleInput dfs (some r)).1 = (handleInput dfs (some r')).1 ∧
    ∃ q q', (handleInput dfs (some r)).2 = some q ∧ (handleInput dfs (some r')).2 = some q' ∧ AlikeRows form q q' := by
  induction dfs with
  | nil => intro r r' h; exact ⟨rfl, r, r', rfl, rfl, h⟩
  | cons df dfs ih =>
    intro r r' h
    have hd := hs df (by simp)
    have ih := @ih fun d hd => hs d (by simp [hd])
    unfold DerivedSees at hd
    rw [handleInput, handleInput]
    cases ho : df.opType with
    | continuous =>
      rw [ho] at hd
      have := handleExpression_alike h df.expr hd
      generalize handleExpression (some r) df.expr = x at this ⊢
      generalize handleExpression (some r') df.expr = y at this ⊢
      cases this with
      | error e => exact ⟨rfl, r, r', rfl, rfl, h⟩
      | ok hv =>
        simp only [storeValue, Row.set, hv.2]
        exact ih (h.insert (.refl _ _))
    | other s =>
      rw [ho] at hd
      have := handleExpression_alike h df.expr hd
      generalize handleExpression (some r) df.expr = x at this ⊢
      generalize handleExpression (some r') df.expr = y at this ⊢
      cases this with
      | error e => exact ⟨rfl, r, r', rfl, rfl, h⟩
      | ok hv =>
        simp only [storeValue, Row.set]
        exact ih (h.insert hv)

/-! Ensembles. -/

theorem imputed_alike {form : String → Form} {fs : List MiningField} {r r' r1 r1' : GoMap (GoVal F)}
    (h : AlikeRows form r r') (h1 : Imputed fs r r1) (h2 : Imputed fs r' r1') : AlikeRows form r1 r1' := by
  intro f
  rw [h1 f, h2 f]
  have := h f
  generalize r[f]? = x at this ⊢
  generalize r'[f]? = y at this ⊢
  cases hr : replacement fs f with
  | none => cases this with
    | none => exact .none
    | some h => exact .some h
  | some t =>
    cases this with
    | none => exact .some (.refl _ _)
    | @some v w h =>
      have hn := h.nil_iff
      cases v <;> cases w <;> simp at hn <;> first | exact .some (.refl _ _) | exact .some h

theorem prepared_alike {form : String → Form} {h : MiningHead F} (hS : ∀ df ∈ h.localTransformations, DerivedSees form df)
    {r r' : GoMap (GoVal F)} (ha : AlikeRows form r r') {e e' : Res Unit} {row row' : Row F}
    (h1 : Prepared h (some r) e row) (h2 : Prepared h (some r') e' row') :
    e = e' ∧ ∃ q q', row = some q ∧ row' = some q' ∧ AlikeRows form q q' := by
  cases h1 with
  | row i1 g1 =>
    cases h2 with
    | row i2 g2 =>
      have := handleInput_alike h.localTransformations hS (imputed_alike ha i1 i2)
      rw [g1, g2] at this
      exact this

theorem extended_alike {form : String → Form} {r r' : GoMap (GoVal F)} {out : GoMap (GoVal F)} {row row' : Row F}
    (ha : AlikeRows form r r') (h1 : Extended (some r) out row) (h2 : Extended (some r') out row') :
    ∃ q q', row = some q ∧ row' = some q' ∧ AlikeRows form q q' := by
  obtain ⟨a1, -, b1⟩ := h1
  obtain ⟨a2, -, b2⟩ := h2
  cases row with
  | none => simp at a1
  | some q =>
    cases row' with
    | none => simp at a2
    | some q' =>
      refine ⟨q, q', rfl, rfl, fun f => ?_⟩
      have h1 := b1 f
      have h2 := b2 f
      simp only [Row.get, Option.bind_some] at h1 h2
      rw [h1, h2]
      cases out[f]? with
      | none => exact ha f
      | some v => exact .some (.refl _ _)

/-! Regressions. -/

theorem linearLoop_alike {form : String → Form} {r r' : GoMap (GoVal F)} (h : AlikeRows form r r')
    (nps : List (NumericPredictor F)) (hs : ∀ np ∈ nps, (form np.name).Covers .real) (y : F) :
    linearLoop (some r) y nps = linearLoop (some r') y nps := by
  induction nps generalizing y with
  | nil => rfl
  | cons np nps ih =>
    have ih := ih fun a ha => hs a (by simp [ha])
    rcases h.get np.name with ⟨h1, h2⟩ | ⟨v, w, h1, h2, h3⟩
    · simp only [linearLoop, h1, h2]
    · have h4 : v.float64 = w.float64 := (h3.cover (hs np (by simp))).2
      simp only [linearLoop, h1, h2, h4]
      exact ih _

theorem linearAll_alike {form : String → Form} {r r' : GoMap (GoVal F)} (h : AlikeRows form r r')
    (ts : List (RegressionTable F)) (hs : ∀ t ∈ ts, ∀ np ∈ t.predictors, (form np.name).Covers .real) :
    linearAll (some r) ts = linearAll (some r') ts := by
  induction ts with
  | nil => rfl
  | cons t ts ih =>
    simp only [linearAll, linearLoop_alike h t.predictors (hs t (by simp)), ih (fun a ha => hs a (by simp [ha]))]

variable [Trans F]

theorem binaryLoop_alike (n : Normalization) {form : String → Form} {r r' : GoMap (GoVal F)} (h : AlikeRows form r r')
    (nps : List (NumericPredictor F)) (hs : ∀ np ∈ nps, (form np.name).Covers .real) (y : F) :
    binaryLoop n (some r) y nps = binaryLoop n (some r') y nps := by
  induction nps generalizing y with
  | nil => rfl
  | cons np nps ih =>
    have ih := ih fun a ha => hs a (by simp [ha])
    rcases h.get np.name with ⟨h1, h2⟩ | ⟨v, w, h1, h2, h3⟩
    · simp only [binaryLoop, h1, h2]
    · have h4 : v.float64 = w.float64 := (h3.cover (hs np (by simp))).2
      simp only [binaryLoop, h1, h2, h4]
      congr 1
      funext x
      exact ih _

theorem binaryTables_alike (n : Normalization) (os : List OutputField) {form : String → Form} {r r' : GoMap (GoVal F)}
    (h : AlikeRows form r r') (ts : List (RegressionTable F))
    (hs : ∀ t ∈ ts, ∀ np ∈ t.predictors, (form np.name).Covers .real) (p : F) (out : GoMap (GoVal F)) :
    binaryTables n os (some r) p out ts = binaryTables n os (some r') p out ts := by
  induction ts generalizing p out with
  | nil => rfl
  | cons t ts ih =>
    simp only [binaryTables, binaryLoop_alike n h t.predictors (hs t (by simp)), ih (fun a ha => hs a (by simp [ha]))]

theorem regression_alike (d : RegressionDoc F) {form : String → Form} {r r' : GoMap (GoVal F)} (h : AlikeRows form r r')
    (hs : ∀ t ∈ d.tables, ∀ np ∈ t.predictors, (form np.name).Covers .real) :
    d.evaluate (some r) = d.evaluate (some r') := by
  unfold RegressionDoc.evaluate
  cases d.functionName with
  | regression =>
    simp only
    unfold RegressionDoc.evalRegression
    split
    · rename_i t ht
      split
      · rw [linearLoop_alike h t.predictors (hs t (by simp [ht]))]
      · rfl
    · rfl
  | classification =>
    simp only
    unfold RegressionDoc.evalBinary RegressionDoc.evalMulticlass
    rw [binaryTables_alike d.normalization d.outputs h d.tables hs, linearAll_alike h d.tables hs]
  | other s => rfl

/-- The model does not tell rows apart that look alike. -/
def Blind (form : String → Form) (m : EModel F) : Prop :=
  ∀ o r r', AlikeRows form r r' → (EModel.evaluate o m (some r)).res = (EModel.evaluate o m (some r')).res ∧
    ∃ q q', (EModel.evaluate o m (some r)).row = some q ∧ (EModel.evaluate o m (some r')).row = some q' ∧
      AlikeRows form q q'

theorem sumSegments_alike {form : String → Form} (ms : List (EModel F)) (ih : ∀ m ∈ ms, Blind form m) :
    ∀ o fn i sm r r', AlikeRows form r r' →
      (sumSegments o fn i sm ms (some r)).res = (sumSegments o fn i sm ms (some r')).res ∧
      ∃ q q', (sumSegments o fn i sm ms (some r)).row = some q ∧
        (sumSegments o fn i sm ms (some r')).row = some q' ∧ AlikeRows form q q' := by
  induction ms with
  | nil => intro o fn i sm r r' h; simp only [sumSegments]; exact ⟨trivial, r, r', rfl, rfl, h⟩
  | cons m ms ihs =>
    intro o fn i sm r r' h
    obtain ⟨h1, q, q', h2, h3, h4⟩ := ih m (by simp) (o.at_ (2 * i)) r r' h
    simp only [sumSegments, h1, h2, h3]
    cases (EModel.evaluate (o.at_ (2 * i)) m (some r')).res with
    | error e => exact ⟨rfl, q, q', rfl, rfl, h4⟩
    | ok out => exact ihs (fun a ha => ih a (by simp [ha])) _ _ _ _ _ _ h4

theorem chainSegments_alike {form : String → Form} (ms : List (EModel F)) (ih : ∀ m ∈ ms, Blind form m) :
    ∀ o i last r r', AlikeRows form r r' →
      (chainSegments o i last ms (some r)).res = (chainSegments o i last ms (some r')).res ∧
      ∃ q q', (chainSegments o i last ms (some r)).row = some q ∧
        (chainSegments o i last ms (some r')).row = some q' ∧ AlikeRows form q q' := by
  induction ms with
  | nil => intro o i last r r' h; simp only [chainSegments]; exact ⟨trivial, r, r', rfl, rfl, h⟩
  | cons m ms ihs =>
    intro o i last r r' h
    rcases writeAll_extended (o.at_ (2 * i)) (last.getD ∅) (some r) with ⟨hn, -⟩ | ⟨row1, hw, hx⟩
    · simp at hn
    rcases writeAll_extended (o.at_ (2 * i)) (last.getD ∅) (some r') with ⟨hn, -⟩ | ⟨row1', hw', hx'⟩
    · simp at hn
    obtain ⟨p, p', rfl, rfl, hp⟩ := extended_alike h hx hx'
    obtain ⟨h1, q, q', h2, h3, h4⟩ := ih m (by simp) (o.at_ (2 * i + 1)) p p' hp
    simp only [chainSegments, hw, hw', h1, h2, h3]
    cases (EModel.evaluate (o.at_ (2 * i + 1)) m (some p')).res with
    | error e => exact ⟨rfl, q, q', rfl, rfl, h4⟩
    | ok out => exact ihs (fun a ha => ih a (by simp [ha])) _ _ _ _ _ h4

theorem runMethod_alike {form : String → Form} (ms : List (EModel F)) (ih : ∀ m ∈ ms, Blind form m)
    (o : MapOrd) (s : MiningState F) {r r' : GoMap (GoVal F)} (h : AlikeRows form r r') :
    (runMethod o s ms (some r)).res = (runMethod o s ms (some r')).res ∧
      ∃ q q', (runMethod o s ms (some r)).row = some q ∧ (runMethod o s ms (some r')).row = some q' ∧
        AlikeRows form q q' := by
  unfold runMethod
  cases s.head.method with
  | average =>
    obtain ⟨g1, g2⟩ := sumSegments_alike ms ih (o.at_ 1) s.head.functionName 0 (initScores s) r r' h
    exact ⟨by simp only [g1], g2⟩
  | sum =>
    obtain ⟨g1, g2⟩ := sumSegments_alike ms ih (o.at_ 1) s.head.functionName 0 (initScores s) r r' h
    exact ⟨by simp only [g1], g2⟩
  | modelChain => exact chainSegments_alike ms ih (o.at_ 1) 0 (some ∅) r r' h
  | selectFirst =>
    cases ms with
    | nil => simp only [selectFirst]; exact ⟨trivial, r, r', rfl, rfl, h⟩
    | cons m ms => exact ih m (by simp) (o.at_ 1) r r' h
  | empty => exact ⟨rfl, r, r', rfl, rfl, h⟩
  | other t => exact ⟨rfl, r, r', rfl, rfl, h⟩

omit [Arith F] [Lib F] [Trans F] in
theorem declaredType_mem {dd : List DataField} {td : TD F} {f : String} {dt : DataType}
    (h : declaredType dd td f = some dt) :
    (∃ d ∈ dd, d.name = f ∧ d.dataType = dt) ∨ ∃ d ∈ td, d.name = f ∧ d.dataType = dt := by
  unfold declaredType at h
  cases hl : (td.filter (fun g => g.name = f)).getLast? with
  | some g =>
    rw [hl] at h
    have := List.mem_filter.mp (List.mem_of_getLast? hl)
    simp only [decide_eq_true_eq] at this
    simp only [Option.some.injEq] at h
    exact .inr ⟨g, this.1, this.2, h⟩
  | none =>
    rw [hl] at h
    simp only [Option.map_eq_some_iff] at h
    obtain ⟨g, hg, rfl⟩ := h
    have := List.mem_filter.mp (List.mem_of_getLast? hg)
    simp only [decide_eq_true_eq] at this
    exact .inl ⟨g, this.1, this.2, rfl⟩

theorem newModel_blind {dd : List DataField} {e : ModelElem F} {td td' : TD F} {m : EModel F}
    (h : newModel dd e td = (.ok m, td')) {form : String → Form} (hs : Sees (Declared dd td e) form e) : Blind form m := by
  have key := newModel_ind_td (dd := dd) (J := fun df => df ∈ td ∨ DerivedIn df e)
    (P := fun e' m => Sees (Declared dd td e) form e' → Blind form m) ?_ ?_ ?_ e (fun df h => .inr h) (fun df h => .inl h) h
  · exact key.1 hs
  · intro d t td1 td2 hj hn hs o r r' ha
    cases hs with
    | tree hp hl =>
      obtain ⟨-, htd, hv, hc, hk, hm, ht, hx, hnn⟩ := newTreeModel_ok hn
      have hk' : KeysOk t.outKeys := by rw [hk]; exact keysOk_empty
      have hlt : t.model.localTransformations = d.localTransformations := by rw [hm]
      simp only [EModel.evaluate]
      have hi := handleInput_alike d.localTransformations hl ha
      rw [(evaluate_eq hv hc hk' o (some r)).1, (evaluate_eq hv hc hk' o (some r')).1, hlt,
        (evaluate_eq hv hc hk' o (some r)).2.1, (evaluate_eq hv hc hk' o (some r')).2.1, hx, hm]
      simp only
      obtain ⟨h1, q, q', h2, h3, h4⟩ := hi
      refine ⟨?_, q, q', h2, h3, h4⟩
      rcases e1 : handleInput d.localTransformations (some r) with ⟨x1, row1⟩
      rcases e2 : handleInput d.localTransformations (some r') with ⟨x2, row2⟩
      rw [e1, e2] at h1
      rw [e1] at h2
      rw [e2] at h3
      simp only at h1 h2 h3
      subst h1 h2 h3
      cases x1 with
      | error e => rfl
      | ok u =>
        have := evalNode_congr o (sameTests_alike (declared := Declared dd td e) (fun f dt hf => ?_) hnn h4 hp)
        · simp only [this]
          rfl
        · rw [buildTypes_getElem?] at hf
          rcases declaredType_mem hf with h | ⟨g, hg, h⟩
          · exact .inl h
          · rw [← htd] at hg
            rcases hj g hg with hg | hg
            · exact .inr (.inl ⟨g, hg, h⟩)
            · exact .inr (.inr ⟨g, hg, h⟩)
  · intro d hs o r r' ha
    cases hs with
    | regression hs =>
      simp only [EModel.evaluate]
      exact ⟨regression_alike d ha hs, r, r', rfl, rfl, ha⟩
  · intro h segs td1 td2 s ms hn hf hs o r r' ha
    cases hs with
    | mining hl hs =>
      have hms : ∀ m ∈ ms, Blind form m := by
        clear hn
        induction hf with
        | nil => simp
        | cons hh _ ih =>
          obtain ⟨id, ps, e1, rfl, hP⟩ := hh
          intro m hm
          rcases List.mem_cons.mp hm with rfl | hm
          · exact hP (hs id ps [e1] e1 (by simp) (by simp))
          · exact ih (fun id ps es e hm he => hs id ps es e (by simp [hm]) he) m hm
      obtain ⟨s', ms', heq, -, -, -, -, -, hev⟩ := constructed_mining hn
      simp only [EModel.mining.injEq] at heq
      obtain ⟨rfl, rfl⟩ := heq
      rcases hev o (some r) with ⟨e1, row1, hp1, he1⟩ | ⟨row1, hp1, he1⟩ <;>
        rcases hev o (some r') with ⟨e2, row2, hp2, he2⟩ | ⟨row2, hp2, he2⟩ <;>
        obtain ⟨hee, q, q', rfl, rfl, hq⟩ := prepared_alike hl ha hp1 hp2
      · rw [he1, he2]
        simp only [Except.error.injEq] at hee
        subst hee
        exact ⟨rfl, q, q', rfl, rfl, hq⟩
      · simp at hee
      · simp at hee
      · rw [he1, he2]
        exact runMethod_alike ms hms o s hq

end Gopmml
