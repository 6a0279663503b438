import Verif.Proofs.Forms

/-!
# Property C71: the form of an input does not matter where only its number is looked at
-/

namespace Gopmml.Props
open Gopmml Spec

variable {F : Type} [Arith F] [Lib F] [Trans F]

/-- **C71**: if a document does nothing with a field that needs more than the form given for it, then an
accepted model gives the same answer, or the same error, for rows that differ only in what the forms do
not tell apart; and afterwards the rows still look alike. -/
theorem C71_forms {dd : List DataField} {e : ModelElem F} {td td' : TD F} {m : EModel F}
    (h : newModel dd e td = (.ok m, td')) {form : String → Form} (hs : Sees (Declared dd td e) form e) (o : MapOrd)
    {r r' : GoMap (GoVal F)} (hr : AlikeRows form r r') :
    (EModel.evaluate o m (some r)).res = (EModel.evaluate o m (some r')).res ∧
    ∃ q q', (EModel.evaluate o m (some r)).row = some q ∧ (EModel.evaluate o m (some r')).row = some q' ∧
      AlikeRows form q q' :=
  newModel_blind h hs o r r' hr

/-- **C71** (numbers): a document that looks at field `f` only as a number (ordering tests of double or
float fields, arithmetic, continuous derived fields, numeric predictors, tests for missing) answers the
same whether the caller passes an integer of any Go type, the float64 of that value, or a string that
reads as it. -/
theorem C71_number {dd : List DataField} {e : ModelElem F} {td td' : TD F} {m : EModel F}
    (h : newModel dd e td = (.ok m, td')) {form : String → Form} (hs : Sees (Declared dd td e) form e) {f : String}
    (hf : form f = .real) (o : MapOrd) (r : GoMap (GoVal F)) :
    (∀ k n, -(2 ^ 63) ≤ n → n < 2 ^ 63 →
      (EModel.evaluate o m (some (r.insert f (.int k n)))).res =
        (EModel.evaluate o m (some (r.insert f (.f64 (Arith.ofInt n))))).res) ∧
    ∀ s x, Lib.parseFloat s = some x →
      (EModel.evaluate o m (some (r.insert f (.str s)))).res =
        (EModel.evaluate o m (some (r.insert f (.f64 x)))).res := by
  have key : ∀ v w : GoVal F, v ≠ .nil → w ≠ .nil → v.float64 = w.float64 →
      (EModel.evaluate o m (some (r.insert f v))).res = (EModel.evaluate o m (some (r.insert f w))).res := by
    intro v w hv hw hvw
    refine (C71_forms h hs o (AlikeRows.insert (fun x => ?_) ?_)).1
    · cases r[x]? with
      | none => exact .none
      | some v => exact .some (.refl _ _)
    · rw [hf]
      exact ⟨⟨fun h => absurd h hv, fun h => absurd h hw⟩, hvw⟩
  refine ⟨fun k n h1 h2 => key _ _ (by simp) (by simp) ?_, fun s x hx => key _ _ (by simp) (by simp) ?_⟩
  · have : (GoVal.int k n : GoVal F).int64 = n := by
      have hw : wrap64 n = n := by unfold wrap64; omega
      cases k <;> simp only [GoVal.int64, hw]
    simp only [GoVal.float64, this]
  · simp only [GoVal.float64, hx]

section
open Samples Replay

/-- A tree that tests x only by order, on a double field. -/
abbrev ordered : ModelElem F64 := .tree (regTree "1" "2")

/-- A tree that asks whether x equals 7. -/
def asksEqual : ModelElem F64 :=
  .tree { regTree "1" "2" with
    node := .mk "" "" "0" (num "0") [] [
      .mk "" "" "1" (num "0") [] [] (some (sp "x" .equal "7")),
      .mk "" "" "2" (num "0") [] [] (some (sp "x" .notEqual "7"))] (some .true_) }

-- C71: the sample tree looks at x as a number; the three forms of 7 get the same answer.
example : Sees (Declared Samples.dd ([] : TD F64) ordered) (fun f => if f = "x" then .real else .exact) ordered ∧
    (newModel Samples.dd ordered []).1.isOk := by
  refine ⟨.tree ?_ (by simp [regTree]), by decide +kernel⟩
  intro n p hs hp
  have hx : ∀ op text, op = SimpleOp.lessThan ∨ op = .greaterOrEqual →
      PredSees (F := F64) (Declared Samples.dd [] ordered) (fun f => if f = "x" then .real else .exact)
        (.simple ⟨"x", op, text, .nil⟩) := by
    intro op text hop
    rw [PredSees]
    intro dt hd
    have : dt = .double := by
      rcases hd with ⟨d, h1, h2, h3⟩ | ⟨d, h1, -⟩ | ⟨d, h1, -⟩
      · simp only [Samples.dd, List.mem_cons, List.not_mem_nil, or_false] at h1
        rcases h1 with rfl | rfl | rfl <;> simp_all
      · simp at h1
      · cases h1 with
        | tree h => simp [regTree] at h
    subst this
    rcases hop with rfl | rfl <;>
      · simp only [TestSees, Form.Covers]
        exact .inr (.inr ⟨_, rfl, fun t ht => by rw [List.mem_singleton] at ht; subst ht; simp [OfNumber]⟩)
  unfold regTree at hs
  cases hs with
  | refl => simp only [Node.pred, Option.some.injEq] at hp; subst hp; simp [PredSees]
  | child hc hs =>
    simp only [Node.nodes, List.mem_cons, List.not_mem_nil, or_false] at hc
    rcases hc with rfl | rfl <;> cases hs with
    | refl =>
      simp only [Node.pred, Option.some.injEq] at hp; subst hp
      exact hx _ _ (by simp)
    | child hc _ => simp [Node.nodes] at hc
example : eval .sorted ordered [("x", .int .int 7)] = eval .sorted ordered [("x", .f64 (num "7"))] ∧
    eval .sorted ordered [("x", .int .uint8 7)] = eval .sorted ordered [("x", .str "7")] ∧
    eval .sorted ordered [("x", .int .int 7)] = eval .sorted ordered [("x", .str "7")] := by
  decide +kernel

/-- **C71** (the proviso is needed): a test for equality compares the value as it is, so the integer 7
does not equal the 7 of a double field, and the caller's choice of type decides the answer. -/
theorem C71_equality_differs :
    eval .sorted asksEqual [("x", .f64 (num "7"))] = some (.ok (some (mk [("score", .f64 (num "1"))]))) ∧
    eval .sorted asksEqual [("x", .int .int 7)] = some (.ok (some (mk [("score", .f64 (num "2"))]))) ∧
    eval .sorted asksEqual [("x", .str "7")] = some (.ok (some (mk [("score", .f64 (num "2"))]))) := by
  decide +kernel

end

end Gopmml.Props
