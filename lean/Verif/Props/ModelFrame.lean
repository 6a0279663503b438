import Verif.Props.Frame
import Verif.Props.Panics

/-!
# Property C60: models read only the fields they mention
-/

namespace Gopmml
open Spec

variable {F : Type} [Arith F] [Lib F]

/-- Both rows have the same values in the fields `S`. -/
def Agree (S : String → Prop) (r r' : GoMap (GoVal F)) : Prop := ∀ f, S f → r[f]? = r'[f]?

omit [Arith F] [Lib F] in
theorem imputed_agree {S : String → Prop} {fs : List MiningField} {r r' r1 r1' : GoMap (GoVal F)}
    (h : Agree S r r') (h1 : Imputed fs r r1) (h2 : Imputed fs r' r1') : Agree S r1 r1' := by
  intro f hf
  rw [h1 f, h2 f, h f hf]

theorem handleInput_some (dfs : List (DerivedField F)) (r : GoMap (GoVal F)) :
    ∃ r', (handleInput dfs (some r)).2 = some r' := by
  have := (handleInput_panic dfs (some r)).1
  cases h : (handleInput dfs (some r)).2 with
  | none => rw [h] at this; simp at this
  | some r' => exact ⟨r', rfl⟩

theorem prepared_agree {S : String → Prop} {h : MiningHead F}
    (hS : ∀ df ∈ h.localTransformations, ∀ f ∈ exprFields df.expr, S f) {r r' : GoMap (GoVal F)}
    (ha : Agree S r r') {e e' : Res Unit} {row row' : Row F} (h1 : Prepared h (some r) e row)
    (h2 : Prepared h (some r') e' row') :
    e = e' ∧ ∃ q q', row = some q ∧ row' = some q' ∧ Agree S q q' := by
  cases h1 with
  | row i1 g1 =>
    cases h2 with
    | row i2 g2 =>
      rename_i a b
      have ha' := imputed_agree ha i1 i2
      have := handleInput_agree S h.localTransformations hS a b (fun f hf => ha' f hf)
      obtain ⟨q, hq⟩ := handleInput_some h.localTransformations a
      obtain ⟨q', hq'⟩ := handleInput_some h.localTransformations b
      rw [hq, hq', g1, g2] at this
      rw [g1] at hq
      rw [g2] at hq'
      exact ⟨this.1, q, q', hq, hq', fun f hf => this.2 f hf⟩

omit [Arith F] [Lib F] in
theorem extended_agree {S : String → Prop} {r r' : GoMap (GoVal F)} {out : GoMap (GoVal F)} {row row' : Row F}
    (ha : Agree S r r') (h1 : Extended (some r) out row) (h2 : Extended (some r') out row') :
    ∃ q q', row = some q ∧ row' = some q' ∧ Agree S q q' := by
  obtain ⟨a1, -, b1⟩ := h1
  obtain ⟨a2, -, b2⟩ := h2
  cases row with
  | none => simp at a1
  | some q =>
    cases row' with
    | none => simp at a2
    | some q' =>
      refine ⟨q, q', rfl, rfl, fun f hf => ?_⟩
      have h1 := b1 f
      have h2 := b2 f
      simp only [Row.get, Option.bind_some] at h1 h2
      rw [h1, h2, ha f hf]

theorem linearLoop_agree {row row' : Row F} (nps : List (NumericPredictor F))
    (h : ∀ np ∈ nps, row.get np.name = row'.get np.name) (y : F) :
    linearLoop row y nps = linearLoop row' y nps := by
  induction nps generalizing y with
  | nil => rfl
  | cons np nps ih =>
    simp only [linearLoop, h np (by simp)]
    cases row'.get np.name with
    | none => rfl
    | some v => exact ih (fun a ha => h a (by simp [ha])) _

theorem linearAll_agree {row row' : Row F} (ts : List (RegressionTable F))
    (h : ∀ t ∈ ts, ∀ np ∈ t.predictors, row.get np.name = row'.get np.name) :
    linearAll row ts = linearAll row' ts := by
  induction ts with
  | nil => rfl
  | cons t ts ih =>
    simp only [linearAll, linearLoop_agree t.predictors (h t (by simp)), ih (fun a ha => h a (by simp [ha]))]

variable [Trans F]

theorem binaryLoop_agree (n : Normalization) {row row' : Row F} (nps : List (NumericPredictor F))
    (h : ∀ np ∈ nps, row.get np.name = row'.get np.name) (y : F) :
    binaryLoop n row y nps = binaryLoop n row' y nps := by
  induction nps generalizing y with
  | nil => rfl
  | cons np nps ih =>
    simp only [binaryLoop, h np (by simp)]
    cases row'.get np.name with
    | none => rfl
    | some v =>
      simp only
      congr 1
      funext x
      exact ih (fun a ha => h a (by simp [ha])) _

theorem binaryTables_agree (n : Normalization) (os : List OutputField) {row row' : Row F}
    (ts : List (RegressionTable F))
    (h : ∀ t ∈ ts, ∀ np ∈ t.predictors, row.get np.name = row'.get np.name) (p : F) (out : GoMap (GoVal F)) :
    binaryTables n os row p out ts = binaryTables n os row' p out ts := by
  induction ts generalizing p out with
  | nil => rfl
  | cons t ts ih =>
    simp only [binaryTables, binaryLoop_agree n t.predictors (h t (by simp)),
      ih (fun a ha => h a (by simp [ha]))]

theorem regression_agree (d : RegressionDoc F) {row row' : Row F}
    (h : ∀ t ∈ d.tables, ∀ np ∈ t.predictors, row.get np.name = row'.get np.name) :
    d.evaluate row = d.evaluate row' := by
  unfold RegressionDoc.evaluate
  cases d.functionName with
  | regression =>
    simp only
    unfold RegressionDoc.evalRegression
    split
    · rename_i t ht
      split
      · rw [linearLoop_agree t.predictors (h t (by simp [ht]))]
      · rfl
    · rfl
  | classification =>
    simp only
    unfold RegressionDoc.evalBinary RegressionDoc.evalMulticlass
    rw [binaryTables_agree d.normalization d.outputs d.tables h, linearAll_agree d.tables h]
  | other s => rfl

/-- The model's answer depends on the fields `S` of the row only, and rows that agree there still do
afterwards. -/
def Framed (S : String → Prop) (m : EModel F) : Prop :=
  ∀ o r r', Agree S r r' → (EModel.evaluate o m (some r)).res = (EModel.evaluate o m (some r')).res ∧
    ∃ q q', (EModel.evaluate o m (some r)).row = some q ∧ (EModel.evaluate o m (some r')).row = some q' ∧
      Agree S q q'

theorem sumSegments_agree {S : String → Prop} (ms : List (EModel F)) (ih : ∀ m ∈ ms, Framed S m) :
    ∀ o fn i sm r r', Agree S r r' →
      (sumSegments o fn i sm ms (some r)).res = (sumSegments o fn i sm ms (some r')).res ∧
      ∃ q q', (sumSegments o fn i sm ms (some r)).row = some q ∧
        (sumSegments o fn i sm ms (some r')).row = some q' ∧ Agree S q q' := by
  induction ms with
  | nil => intro o fn i sm r r' h; simp only [sumSegments]; exact ⟨trivial, r, r', rfl, rfl, h⟩
  | cons m ms ihs =>
    intro o fn i sm r r' h
    obtain ⟨h1, q, q', h2, h3, h4⟩ := ih m (by simp) (o.at_ (2 * i)) r r' h
    simp only [sumSegments, h1, h2, h3]
    cases (EModel.evaluate (o.at_ (2 * i)) m (some r')).res with
    | error e => exact ⟨rfl, q, q', rfl, rfl, h4⟩
    | ok out => exact ihs (fun a ha => ih a (by simp [ha])) _ _ _ _ _ _ h4

theorem chainSegments_agree {S : String → Prop} (ms : List (EModel F)) (ih : ∀ m ∈ ms, Framed S m) :
    ∀ o i last r r', Agree S r r' →
      (chainSegments o i last ms (some r)).res = (chainSegments o i last ms (some r')).res ∧
      ∃ q q', (chainSegments o i last ms (some r)).row = some q ∧
        (chainSegments o i last ms (some r')).row = some q' ∧ Agree S q q' := by
  induction ms with
  | nil => intro o i last r r' h; simp only [chainSegments]; exact ⟨trivial, r, r', rfl, rfl, h⟩
  | cons m ms ihs =>
    intro o i last r r' h
    rcases writeAll_extended (o.at_ (2 * i)) (last.getD ∅) (some r) with ⟨hn, -⟩ | ⟨row1, hw, hx⟩
    · simp at hn
    rcases writeAll_extended (o.at_ (2 * i)) (last.getD ∅) (some r') with ⟨hn, -⟩ | ⟨row1', hw', hx'⟩
    · simp at hn
    obtain ⟨p, p', rfl, rfl, hp⟩ := extended_agree h hx hx'
    obtain ⟨h1, q, q', h2, h3, h4⟩ := ih m (by simp) (o.at_ (2 * i + 1)) p p' hp
    simp only [chainSegments, hw, hw', h1, h2, h3]
    cases (EModel.evaluate (o.at_ (2 * i + 1)) m (some p')).res with
    | error e => exact ⟨rfl, q, q', rfl, rfl, h4⟩
    | ok out => exact ihs (fun a ha => ih a (by simp [ha])) _ _ _ _ _ h4

theorem runMethod_agree {S : String → Prop} (ms : List (EModel F)) (ih : ∀ m ∈ ms, Framed S m)
    (o : MapOrd) (s : MiningState F) {r r' : GoMap (GoVal F)} (h : Agree S r r') :
    (runMethod o s ms (some r)).res = (runMethod o s ms (some r')).res ∧
      ∃ q q', (runMethod o s ms (some r)).row = some q ∧ (runMethod o s ms (some r')).row = some q' ∧
        Agree S q q' := by
  unfold runMethod
  cases s.head.method with
  | average =>
    obtain ⟨g1, g2⟩ := sumSegments_agree ms ih (o.at_ 1) s.head.functionName 0 (initScores s) r r' h
    exact ⟨by simp only [g1], g2⟩
  | sum =>
    obtain ⟨g1, g2⟩ := sumSegments_agree ms ih (o.at_ 1) s.head.functionName 0 (initScores s) r r' h
    exact ⟨by simp only [g1], g2⟩
  | modelChain => exact chainSegments_agree ms ih (o.at_ 1) 0 (some ∅) r r' h
  | selectFirst =>
    cases ms with
    | nil => simp only [selectFirst]; exact ⟨trivial, r, r', rfl, rfl, h⟩
    | cons m ms => exact ih m (by simp) (o.at_ 1) r r' h
  | empty => exact ⟨rfl, r, r', rfl, rfl, h⟩
  | other t => exact ⟨rfl, r, r', rfl, rfl, h⟩

end Gopmml

namespace Gopmml.Props
open Gopmml Spec

variable {F : Type} [Arith F] [Lib F] [Trans F]

/-- A constructed model reads and keeps any set of fields that contains those it mentions. -/
theorem newModel_framed {dd : List DataField} {e : ModelElem F} {td td' : TD F} {m : EModel F}
    (h : newModel dd e td = (.ok m, td')) :
    ∀ S : String → Prop, (∀ f, Mentioned e f → S f) → Framed S m := by
  refine newModel_ind (P := fun e m => ∀ S : String → Prop, (∀ f, Mentioned e f → S f) → Framed S m)
    ?_ ?_ ?_ e h
  · intro d t td td' hn S hS o r r' ha
    obtain ⟨-, -, hv, hc, hk, hm, -⟩ := newTreeModel_ok hn
    have hk' : KeysOk t.outKeys := by rw [hk]; exact keysOk_empty
    have hlt : t.model.localTransformations = d.localTransformations := by rw [hm]
    simp only [EModel.evaluate]
    refine ⟨C05_tree_frame hn o fun f hf => ha f (hS f ?_), ?_⟩
    · rcases hf with ⟨n, p, h1, h2, h3⟩ | ⟨df, h1, h2⟩
      · exact .predicate h1 h2 h3
      · exact .treeDerived h1 h2
    · rw [(evaluate_eq hv hc hk' o (some r)).1, (evaluate_eq hv hc hk' o (some r')).1, hlt]
      obtain ⟨q, hq⟩ := handleInput_some d.localTransformations r
      obtain ⟨q', hq'⟩ := handleInput_some d.localTransformations r'
      have := (handleInput_agree S d.localTransformations
        (fun df hdf f hf => hS f (.treeDerived hdf hf)) r r' ha).2
      rw [hq, hq'] at this
      exact ⟨q, q', hq, hq', this⟩
  · intro d S hS o r r' ha
    simp only [EModel.evaluate]
    exact ⟨regression_agree d fun t ht np hnp => ha _ (hS _ (.predictor ht hnp)), r, r', rfl, rfl, ha⟩
  · intro h segs td td' s ms hn hf S hS o r r' ha
    have hms : ∀ m ∈ ms, Framed S m := by
      have key : ∀ {segs' : List (SegDoc F)} {ms' : List (EModel F)}, segs' ⊆ segs →
          List.Forall₂ (fun seg m => ∃ id ps e, seg = SegDoc.mk id ps [e] ∧
            ∀ S : String → Prop, (∀ f, Mentioned e f → S f) → Framed S m) segs' ms' →
          ∀ m ∈ ms', Framed S m := by
        intro segs' ms' hsub hf
        induction hf with
        | nil => simp
        | cons hh _ ih =>
          obtain ⟨id, ps, e, rfl, hP⟩ := hh
          have hsub' := List.cons_subset.mp hsub
          exact List.forall_mem_cons.mpr
            ⟨hP S fun f hf => hS f (.segment hsub'.1 (by simp) hf), ih hsub'.2⟩
      exact key (List.Subset.refl _) hf
    obtain ⟨s', ms', heq, -, -, -, -, -, hev⟩ := constructed_mining hn
    simp only [EModel.mining.injEq] at heq
    obtain ⟨rfl, rfl⟩ := heq
    have hS' : ∀ df ∈ h.localTransformations, ∀ f ∈ exprFields df.expr, S f :=
      fun df hdf f hf => hS f (.derived hdf hf)
    rcases hev o (some r) with ⟨e1, row1, hp1, he1⟩ | ⟨row1, hp1, he1⟩ <;>
      rcases hev o (some r') with ⟨e2, row2, hp2, he2⟩ | ⟨row2, hp2, he2⟩ <;>
      obtain ⟨hee, q, q', rfl, rfl, hq⟩ := prepared_agree hS' ha hp1 hp2
    · rw [he1, he2]
      simp only [Except.error.injEq] at hee
      subst hee
      exact ⟨rfl, q, q', rfl, rfl, hq⟩
    · simp at hee
    · simp at hee
    · rw [he1, he2]
      exact runMethod_agree ms hms o s hq

/-- **C60**: two rows that agree on every field mentioned anywhere in a model document, nested to
any depth, get the same answer (or the same error), and they still agree on those fields after the
call. -/
theorem C60_model_frame {dd : List DataField} {e : ModelElem F} {td td' : TD F} {m : EModel F}
    (h : newModel dd e td = (.ok m, td')) (o : MapOrd) {r r' : GoMap (GoVal F)}
    (hr : ∀ f, Mentioned e f → r[f]? = r'[f]?) :
    (EModel.evaluate o m (some r)).res = (EModel.evaluate o m (some r')).res ∧
    ∀ f, Mentioned e f →
      (EModel.evaluate o m (some r)).row.get f = (EModel.evaluate o m (some r')).row.get f := by
  obtain ⟨h1, q, q', h2, h3, h4⟩ := newModel_framed h (Mentioned e) (fun f hf => hf) o r r' hr
  refine ⟨h1, fun f hf => ?_⟩
  rw [h2, h3]
  exact h4 f hf

section
open Samples Replay

-- C60: the nested sample mentions "x" and not "c"; a row with another "c" gets the same answer, and
-- a row with another "x" a different one.
example : eval .sorted nested [("x", .int .int 7), ("c", .str "a")] =
      eval .sorted nested [("x", .int .int 7), ("c", .str "b")] ∧
    eval .sorted nested [("x", .int .int 7)] ≠ eval .sorted nested [("x", .int .int 2)] := by
  decide +kernel
example : ¬ Mentioned nested "c" := by
  intro h
  have htree : ∀ lo hi, ¬ Mentioned (.tree (regTree lo hi)) "c" := by
    intro lo hi h
    cases h with
    | predicate hs hp hf =>
      unfold regTree at hs
      cases hs with
      | refl => simp only [Node.pred, Option.some.injEq] at hp; subst hp; simp [predFields] at hf
      | child hc hs =>
        simp only [Node.nodes, List.mem_cons, List.not_mem_nil, or_false] at hc
        rcases hc with rfl | rfl <;> cases hs with
        | refl =>
          simp only [Node.pred, Option.some.injEq] at hp; subst hp
          simp [sp, predFields] at hf
        | child hc _ => simp [Node.nodes] at hc
    | treeDerived hd _ => simp [regTree] at hd
  unfold nested ensemble seg at h
  cases h with
  | derived hd _ => simp [Samples.head] at hd
  | segment hs he hd =>
    simp only [List.mem_cons, List.not_mem_nil, or_false, SegDoc.mk.injEq] at hs
    rcases hs with ⟨-, -, rfl⟩ | ⟨-, -, rfl⟩ <;> simp only [List.mem_singleton] at he <;> subst he
    · cases hd with
      | derived hd _ => simp [Samples.head] at hd
      | segment hs he hd =>
        simp only [List.mem_cons, List.not_mem_nil, or_false, SegDoc.mk.injEq] at hs
        rcases hs with ⟨-, -, rfl⟩ | ⟨-, -, rfl⟩ | ⟨-, -, rfl⟩ <;> simp only [List.mem_singleton] at he <;>
          subst he <;> exact htree _ _ hd
    · exact htree _ _ hd

end

end Gopmml.Props
