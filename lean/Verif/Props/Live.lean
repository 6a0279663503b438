import Verif.Spec.Live
import Verif.Props.ModelFrame
import Verif.Props.Ensemble
import Verif.Props.History

/-!
# Property C63: only the live fields of the row matter
-/

namespace Gopmml
open Spec

variable {F : Type} [Arith F] [Lib F]

omit [Arith F] [Lib F] in
theorem mem_nodesFields {ns : List (Node F)} {c : Node F} {f : String} (hc : c ∈ ns) (hf : f ∈ nodeFields c) :
    f ∈ nodesFields ns := by
  induction ns with
  | nil => simp at hc
  | cons m ms ih =>
    rw [nodesFields]
    rcases List.mem_cons.mp hc with rfl | hc
    · exact List.mem_append_left _ hf
    · exact List.mem_append_right _ (ih hc)

omit [Arith F] [Lib F] in
theorem sub_fields (n0 : Node F) {n : Node F} (hs : Sub n n0) {p : Pred F} {f : String}
    (hp : n.pred = some p) (hf : f ∈ predFields p) : f ∈ nodeFields n0 := by
  induction hs with
  | refl =>
    cases n
    simp only [Node.pred] at hp
    subst hp
    simp [nodeFields, hf]
  | @child n0 c hc _ ih =>
    cases n0
    simp only [Node.nodes] at hc
    unfold nodeFields
    exact List.mem_append_right _ (mem_nodesFields hc ih)

/-- Derived fields computed on two rows that agree on what they need. -/
theorem handleInput_live (dfs : List (DerivedField F)) (A : List String) :
    ∀ m m' : GoMap (GoVal F), Agree (· ∈ needs dfs A) m m' →
    (handleInput dfs (some m)).1 = (handleInput dfs (some m')).1 ∧
    ((handleInput dfs (some m)).1 = .ok () →
      ∀ f ∈ A, (handleInput dfs (some m)).2.get f = (handleInput dfs (some m')).2.get f) := by
  induction dfs with
  | nil => exact fun m m' h => ⟨rfl, fun _ f hf => h f hf⟩
  | cons df dfs ih =>
    intro m m' h
    simp only [needs, List.mem_append, List.mem_filter, decide_eq_true_eq] at h
    have he := Props.C35_expression_frame (row := some m) (row' := some m') df.expr
      (fun f hf => h f (.inl hf))
    simp only [handleInput, he]
    cases handleExpression (some m') df.expr with
    | error e => exact ⟨rfl, fun h => by simp at h⟩
    | ok v =>
      refine ih _ _ fun f hf => ?_
      simp only [GoMap.getElem?_insert]
      by_cases hn : f = df.name
      · simp [hn]
      · have := h f (.inr ⟨hf, by simpa using hn⟩)
        rw [this]

theorem prepared_live {h : MiningHead F} {A : List String} {r r' : GoMap (GoVal F)}
    (ha : Agree (· ∈ needs h.localTransformations A) r r') {e e' : Res Unit} {row row' : Row F}
    (h1 : Prepared h (some r) e row) (h2 : Prepared h (some r') e' row') :
    e = e' ∧ (e = .ok () → ∃ q q', row = some q ∧ row' = some q' ∧ Agree (· ∈ A) q q') := by
  cases h1 with
  | row i1 g1 =>
    cases h2 with
    | row i2 g2 =>
      rename_i a b
      have ha' := imputed_agree ha i1 i2
      have := handleInput_live h.localTransformations A a b ha'
      obtain ⟨q, hq⟩ := handleInput_some h.localTransformations a
      obtain ⟨q', hq'⟩ := handleInput_some h.localTransformations b
      rw [hq, hq', g1, g2] at this
      rw [g1] at hq
      rw [g2] at hq'
      exact ⟨this.1, fun he => ⟨q, q', hq, hq', fun f hf => this.2 he f hf⟩⟩

variable [Trans F]

/-- Agreement on `B` before gives the same answer, and agreement on `A` afterwards. -/
def Carries (B A : List String) (m : EModel F) : Prop :=
  ∀ o r r', Agree (· ∈ B) r r' →
    (EModel.evaluate o m (some r)).res = (EModel.evaluate o m (some r')).res ∧
    ((EModel.evaluate o m (some r)).res.isOk →
      ∃ q q', (EModel.evaluate o m (some r)).row = some q ∧
        (EModel.evaluate o m (some r')).row = some q' ∧ Agree (· ∈ A) q q')

/-- The same for the segments of an ensemble. -/
inductive CarriesAll (A : List String) : List String → List (EModel F) → Prop
  | nil : CarriesAll A A []
  | cons {B C m ms} : Carries C B m → CarriesAll A B ms → CarriesAll A C (m :: ms)

theorem sumSegments_live {A B : List String} {ms : List (EModel F)} (h : CarriesAll A B ms) :
    ∀ o fn i sm r r', Agree (· ∈ B) r r' →
      (sumSegments o fn i sm ms (some r)).res = (sumSegments o fn i sm ms (some r')).res ∧
      ((sumSegments o fn i sm ms (some r)).res.isOk →
        ∃ q q', (sumSegments o fn i sm ms (some r)).row = some q ∧
          (sumSegments o fn i sm ms (some r')).row = some q' ∧ Agree (· ∈ A) q q') := by
  induction h with
  | nil => intro o fn i sm r r' h; simp only [sumSegments]; exact ⟨trivial, fun _ => ⟨r, r', rfl, rfl, h⟩⟩
  | @cons B C m ms hm _ ih =>
    intro o fn i sm r r' h
    obtain ⟨h1, h2⟩ := hm (o.at_ (2 * i)) r r' h
    simp only [sumSegments, h1]
    rw [h1] at h2
    cases hr : (EModel.evaluate (o.at_ (2 * i)) m (some r')).res with
    | error e => exact ⟨rfl, fun h => by simp [Except.isOk, Except.toBool] at h⟩
    | ok out =>
      rw [hr] at h2
      obtain ⟨q, q', h2, h3, h4⟩ := h2 rfl
      simp only [h2, h3]
      exact ih _ _ _ _ _ _ h4

theorem chainSegments_live {A B : List String} {ms : List (EModel F)} (h : CarriesAll A B ms) :
    ∀ o i last r r', Agree (· ∈ B) r r' →
      (chainSegments o i last ms (some r)).res = (chainSegments o i last ms (some r')).res ∧
      ((chainSegments o i last ms (some r)).res.isOk →
        ∃ q q', (chainSegments o i last ms (some r)).row = some q ∧
          (chainSegments o i last ms (some r')).row = some q' ∧ Agree (· ∈ A) q q') := by
  induction h with
  | nil => intro o i last r r' h; simp only [chainSegments]; exact ⟨trivial, fun _ => ⟨r, r', rfl, rfl, h⟩⟩
  | @cons B C m ms hm _ ih =>
    intro o i last r r' h
    rcases writeAll_extended (o.at_ (2 * i)) (last.getD ∅) (some r) with ⟨hn, -⟩ | ⟨row1, hw, hx⟩
    · simp at hn
    rcases writeAll_extended (o.at_ (2 * i)) (last.getD ∅) (some r') with ⟨hn, -⟩ | ⟨row1', hw', hx'⟩
    · simp at hn
    obtain ⟨p, p', rfl, rfl, hp⟩ := extended_agree h hx hx'
    obtain ⟨h1, h2⟩ := hm (o.at_ (2 * i + 1)) p p' hp
    simp only [chainSegments, hw, hw', h1]
    rw [h1] at h2
    cases hr : (EModel.evaluate (o.at_ (2 * i + 1)) m (some p')).res with
    | error e => exact ⟨rfl, fun h => by simp [Except.isOk, Except.toBool] at h⟩
    | ok out =>
      rw [hr] at h2
      obtain ⟨q, q', h2, h3, h4⟩ := h2 rfl
      simp only [h2, h3]
      exact ih _ _ _ _ _ h4

end Gopmml

namespace Gopmml.Props
open Gopmml Spec

variable {F : Type} [Arith F] [Lib F] [Trans F]

omit [Arith F] [Lib F] [Trans F] in
theorem isOk_of_map {α β : Type} {f : α → β} {r : Res α} (h : (r.map f).isOk) : r.isOk := by
  cases r with
  | error e => simp [Except.map, Except.isOk, Except.toBool] at h
  | ok a => rfl

theorem live_carries {dd : List DataField} {e : ModelElem F} {td td' : TD F} {m : EModel F}
    (h : newModel dd e td = (.ok m, td')) : ∀ A, Carries (liveIn e A) A m := by
  refine newModel_ind (P := fun e m => ∀ A, Carries (liveIn e A) A m) ?_ ?_ ?_ e h
  · intro d t td td' hn A o r r' ha
    simp only [liveIn] at ha
    obtain ⟨-, -, hv, hc, hk, hm, ht, hx, hnn⟩ := newTreeModel_ok hn
    have hk' : KeysOk t.outKeys := by rw [hk]; exact keysOk_empty
    have hlt : t.model.localTransformations = d.localTransformations := by rw [hm]
    have hi := handleInput_live d.localTransformations (nodeFields d.node ++ A) r r' ha
    obtain ⟨q, hq⟩ := handleInput_some d.localTransformations r
    obtain ⟨q', hq'⟩ := handleInput_some d.localTransformations r'
    simp only [EModel.evaluate]
    rw [(evaluate_eq hv hc hk' o (some r)).1, (evaluate_eq hv hc hk' o (some r')).1, hlt,
      (evaluate_eq hv hc hk' o (some r)).2.1, (evaluate_eq hv hc hk' o (some r')).2.1, hx, hm]
    simp only
    rcases h1 : handleInput d.localTransformations (some r) with ⟨e1, row1⟩
    rcases h2 : handleInput d.localTransformations (some r') with ⟨e2, row2⟩
    rw [h1] at hq
    rw [h2] at hq'
    rw [h1, h2] at hi
    simp only at hq hq' hi
    subst hq hq'
    obtain ⟨he, hag⟩ := hi
    subst he
    cases e1 with
    | error e => exact ⟨rfl, fun h => by simp [Except.isOk, Except.toBool] at h⟩
    | ok u =>
      have hag := hag rfl
      constructor
      · have := evalNode_congr o (sameTests_of_agree (row := some q) (row' := some q') hnn
          (fun n p f hs hp hf => hag f (List.mem_append_left _ (sub_fields _ hs hp hf))))
        simp only [this]
        rfl
      · exact fun _ => ⟨q, q', rfl, rfl, fun f hf => hag f (List.mem_append_right _ hf)⟩
  · intro d A o r r' ha
    simp only [liveIn] at ha
    simp only [EModel.evaluate]
    refine ⟨regression_agree d fun t ht np hnp => ha _ (List.mem_append_left _ ?_), fun _ => ⟨r, r', rfl, rfl,
      fun f hf => ha f (List.mem_append_right _ hf)⟩⟩
    exact List.mem_flatMap.mpr ⟨t, ht, List.mem_map.mpr ⟨np, hnp, rfl⟩⟩
  · intro h segs td td' s ms hn hf A o r r' ha
    have hall : ∀ A, CarriesAll A (liveSegs segs A) ms := by
      intro A
      clear ha hn
      induction hf with
      | nil => exact .nil
      | cons hh _ ih =>
        obtain ⟨id, ps, e, rfl, hP⟩ := hh
        rw [liveSegs, liveSeg, liveModels, liveModels]
        exact .cons (hP _) ih
    have hfirst : ∀ A m ms', ms = m :: ms' → Carries (liveFirst segs A) A m := by
      intro A m ms' hms
      subst hms
      cases hf with
      | cons hh _ =>
        obtain ⟨id, ps, e, rfl, hP⟩ := hh
        rw [liveFirst, liveSeg, liveModels, liveModels]
        exact hP A
    obtain ⟨s', ms', heq, -, hhead, -, -, -, hev⟩ := constructed_mining hn
    simp only [EModel.mining.injEq] at heq
    obtain ⟨rfl, rfl⟩ := heq
    simp only [liveIn] at ha
    rcases hev o (some r) with ⟨e1, row1, hp1, he1⟩ | ⟨row1, hp1, he1⟩ <;>
      rcases hev o (some r') with ⟨e2, row2, hp2, he2⟩ | ⟨row2, hp2, he2⟩ <;>
      obtain ⟨hee, hq⟩ := prepared_live ha hp1 hp2
    · rw [he1, he2]
      simp only [Except.error.injEq] at hee
      subst hee
      exact ⟨rfl, fun h => by simp [Except.isOk, Except.toBool] at h⟩
    · simp at hee
    · simp at hee
    · obtain ⟨q, q', rfl, rfl, hq'⟩ := hq rfl
      clear hq
      have hq := hq'
      clear hq'
      rw [he1, he2]
      have hmeth : s.head.method = effectiveMethod h.method := by rw [hhead]
      unfold runMethod
      rw [hmeth]
      cases hm : h.method with
      | average =>
        rw [hm, if_neg (by simp)] at hq
        obtain ⟨g1, g2⟩ := sumSegments_live (hall A) (o.at_ 1) s.head.functionName 0 (initScores s) q q' hq
        exact ⟨by simp only [effectiveMethod, g1], fun hk => g2 (isOk_of_map hk)⟩
      | sum =>
        rw [hm, if_neg (by simp)] at hq
        obtain ⟨g1, g2⟩ := sumSegments_live (hall A) (o.at_ 1) s.head.functionName 0 (initScores s) q q' hq
        exact ⟨by simp only [effectiveMethod, g1], fun hk => g2 (isOk_of_map hk)⟩
      | empty =>
        rw [hm, if_neg (by simp)] at hq
        obtain ⟨g1, g2⟩ := sumSegments_live (hall A) (o.at_ 1) s.head.functionName 0 (initScores s) q q' hq
        exact ⟨by simp only [effectiveMethod, g1], fun hk => g2 (isOk_of_map hk)⟩
      | modelChain =>
        rw [hm, if_neg (by simp)] at hq
        exact chainSegments_live (hall A) (o.at_ 1) 0 (some ∅) q q' hq
      | selectFirst =>
        rw [hm, if_pos rfl] at hq
        cases ms with
        | nil =>
          simp only [effectiveMethod, selectFirst]
          exact ⟨trivial, fun h => by simp [Except.isOk, Except.toBool] at h⟩
        | cons m ms => exact hfirst A m ms rfl (o.at_ 1) q q' hq
      | other t => exact ⟨rfl, fun h => by simp [effectiveMethod, Except.isOk, Except.toBool] at h⟩

/-- **C63**: the answer depends only on the live fields of the row: two non-nil rows that agree there
get the same answer or the same error, even if they differ in fields the model mentions but
computes itself before reading them. -/
theorem C63_live {dd : List DataField} {e : ModelElem F} {td td' : TD F} {m : EModel F}
    (h : newModel dd e td = (.ok m, td')) (o : MapOrd) {r r' : GoMap (GoVal F)}
    (hr : ∀ f ∈ liveIn e [], r[f]? = r'[f]?) :
    (EModel.evaluate o m (some r)).res = (EModel.evaluate o m (some r')).res :=
  (live_carries h [] o r r' hr).1

/-- **C63** (reusing a row): `Evaluate` leaves replacements, derived fields and chained outputs in the
caller's row.  If the model writes no field that is live, evaluating the row it has left behind
gives the same answer, with the same model object and whatever map orders are used. -/
theorem C63_reuse {dd : List DataField} {e : ModelElem F} {td td' : TD F} {m : EModel F}
    (h : newModel dd e td = (.ok m, td')) (hw : ∀ f ∈ liveIn e [], ¬ DocWrites e f) (o o' : MapOrd)
    (r : GoMap (GoVal F)) :
    let first := EModel.evaluate o m (some r)
    (EModel.evaluate o' first.model first.row).res = (EModel.evaluate o' m (some r)).res := by
  have hist := (C26_history h [(o, some r)] o' (EModel.evaluate o m (some r)).row).1
  simp only [afterCalls, List.foldl] at hist
  simp only
  rw [hist]
  have hk : ∀ f ∈ liveIn e [], (EModel.evaluate o m (some r)).row.get f = Row.get (some r) f :=
    fun f hf => C41_document h (hw f hf) o (some r)
  obtain ⟨-, q, -, hq, -, -⟩ := newModel_framed h (fun _ => True) (fun _ _ => trivial) o r r (fun _ _ => rfl)
  rw [hq] at hk ⊢
  exact C63_live h o' hk

section
open Samples Replay

/-- The tree of the samples, after computing a field `into` as x + 3. -/
def shifted (into : String) : ModelElem F64 :=
  .tree { regTree "1" "2" with
    localTransformations := [⟨into, .double, .continuous, .apply "+" [.fieldRef "x", .const .double "3"]⟩]
    node := .mk "" "" "0" (num "0") [] [
      .mk "" "" "1" (num "0") [] [] (some (sp into .lessThan "5")),
      .mk "" "" "2" (num "0") [] [] (some (sp into .greaterOrEqual "5"))] (some .true_) }

/-- Two calls on one row. -/
def again (e : ModelElem F64) (row : List (String × GoVal F64)) : Option (List (Res (Out F64))) :=
  match newModel Samples.dd e [] with
  | (.ok m, _) =>
    let first := EModel.evaluate .sorted m (some (mk row))
    some [first.res, (EModel.evaluate .sorted first.model first.row).res]
  | _ => none

-- C63: the field "d" is mentioned but not live; what the caller puts there does not matter, and the
-- row can be used again.
example : liveIn (shifted "d") [] = ["x"] := by decide +kernel
example : Mentioned (shifted "d") "d" := by
  refine .predicate (n := .mk "" "" "1" (num "0") [] [] (some (sp "d" .lessThan "5"))) (.child ?_ .refl) rfl
    (by simp [sp, predFields])
  simp [Node.nodes]
example : ∀ f ∈ liveIn (shifted "d") [], ¬ DocWrites (shifted "d") f := by
  have hl : liveIn (shifted "d") [] = ["x"] := by decide +kernel
  rw [hl]
  intro f hf h
  simp only [List.mem_singleton] at hf
  subst hf
  unfold shifted at h
  generalize hk : "x" = k at h
  cases h with
  | treeDerived hd =>
    simp only [List.mem_singleton] at hd
    rw [hd] at hk
    simp at hk
example : eval .sorted (shifted "d") [("x", .f64 (num "1"))] =
      eval .sorted (shifted "d") [("x", .f64 (num "1")), ("d", .str "?")] ∧
    again (shifted "d") [("x", .f64 (num "1"))] =
      some [.ok (some (mk [("score", .f64 (num "1"))])), .ok (some (mk [("score", .f64 (num "1"))]))] := by
  decide +kernel

/-- **C63** (the proviso is needed): a derived field may have the name of an input field.  Then the
first call changes the input in the caller's row, and the same call on the same row gives another
answer. -/
theorem C63_reuse_changes :
    again (shifted "x") [("x", .f64 (num "1"))] =
      some [.ok (some (mk [("score", .f64 (num "1"))])), .ok (some (mk [("score", .f64 (num "2"))]))] := by
  decide +kernel
end

end Gopmml.Props
