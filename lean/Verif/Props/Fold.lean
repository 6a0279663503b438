import Verif.Spec.Fold
import Verif.Props.Inline
import Verif.Props.Format

/-!
# Property C98: constant expressions can be computed once
-/

namespace Gopmml.Props
open Gopmml Spec

section
variable {F : Type} [Arith F] [Lib F]

theorem fixedValue_eval {e : Expr F} {v : GoVal F} (h : fixedValue e = some v) (row : Row F) :
    handleExpression row e = .ok v := by
  unfold fixedValue at h
  split_ifs at h with h1
  rw [C35_expression_frame (row' := none) e (by simp [h1])]
  cases h2 : handleExpression none e with
  | error x => rw [h2] at h; simp [Except.toOption] at h
  | ok w => rw [h2] at h; simp [Except.toOption] at h; rw [h]

omit [Arith F] [Lib F] in
mutual
theorem mapExprs_reworked {D : String → Prop} (hD : ∀ f, ¬ D f) (g : Expr F → Expr F) : (e : ModelElem F) →
    Reworked D (fun L L' => L' = mapFields g L) e (mapExprs g e)
  | .tree d => by rw [mapExprs]; exact .tree rfl (fun f _ => hD f)
  | .regression d => by rw [mapExprs]; exact .regression (fun f _ => hD f)
  | .mining h segs => by rw [mapExprs]; exact .mining rfl (mapExprsSegs_reworked hD g segs)
  | .other k => by rw [mapExprs]; exact .other
theorem mapExprsSegs_reworked {D : String → Prop} (hD : ∀ f, ¬ D f) (g : Expr F → Expr F) : (segs : List (SegDoc F)) →
    ReworkedSegs D (fun L L' => L' = mapFields g L) segs (mapExprsSegs g segs)
  | [] => by rw [mapExprsSegs]; exact .nil
  | .mk id p es :: segs => by
    rw [mapExprsSegs]
    exact .cons (mapExprsDocs_reworked hD g es) (mapExprsSegs_reworked hD g segs)
theorem mapExprsDocs_reworked {D : String → Prop} (hD : ∀ f, ¬ D f) (g : Expr F → Expr F) : (es : List (ModelElem F)) →
    ReworkedDocs D (fun L L' => L' = mapFields g L) es (mapExprsDocs g es)
  | [] => by rw [mapExprsDocs]; exact .nil
  | e :: es => by
    rw [mapExprsDocs]
    exact .cons (mapExprs_reworked hD g e) (mapExprsDocs_reworked hD g es)
end

theorem reworks_map {g : Expr F → Expr F} (hg : ∀ row e, handleExpression row (g e) = handleExpression row e)
    (D : String → Prop) (hD : ∀ f, ¬ D f) (L : List (DerivedField F)) : Reworks D L (mapFields g L) := by
  have hrun : ∀ row, handleInput (mapFields g L) row = handleInput L row := by
    induction L with
    | nil => intro row; rfl
    | cons df L ih =>
      intro row
      simp only [mapFields, List.map_cons, handleInput, hg] at ih ⊢
      cases handleExpression row df.expr with
      | error e => rfl
      | ok v =>
        simp only
        cases row.set df.name (storeValue df.opType v) with
        | error e => rfl
        | ok row' => exact ih row'
  refine ⟨fun f _ => ?_, fun r r' ha => ?_⟩
  · simp [mapFields, List.filter_map, Function.comp_def]
  · have hrr : r = r' := by
      apply Std.ExtTreeMap.ext_getElem?
      exact fun k => ha k (hD k)
    subst hrr
    rw [hrun]
    obtain ⟨q, hq⟩ := handleInput_some L r
    exact ⟨rfl, q, q, hq, hq, fun _ _ => rfl⟩

theorem foldExprs_eq (es : List (Expr F)) : foldExprs es = es.map foldExpr := by
  induction es with
  | nil => rw [foldExprs]; rfl
  | cons e es ih => rw [foldExprs, ih]; rfl

/-- Expressions with the same values in every row may be exchanged throughout a document: it is rejected with
the same error, or the model gives the same answers and leaves the same rows. -/
theorem mapExprs_same [Trans F] {g : Expr F → Expr F}
    (hg : ∀ row e, handleExpression row (g e) = handleExpression row e) (dd : List DataField) (e : ModelElem F)
    (td : TD F) :
    Both (fun m m' => ∀ o r, (EModel.evaluate o m (some r)).res = (EModel.evaluate o m' (some r)).res ∧
      (EModel.evaluate o m (some r)).row = (EModel.evaluate o m' (some r)).row)
      (newModel dd e td).1 (newModel dd (mapExprs g e) td).1 := by
  have := (reworked_newModel (dd := dd) (D := fun _ => False) (T := fun L L' => L' = mapFields g L)
    (fun {L L'} h => by subst h; exact reworks_map hg _ (fun _ => id) L) e td td
    (mapExprs_reworked (fun _ => id) g e) (fun _ _ => rfl)).1
  cases h1 : (newModel dd e td).1 <;> cases h2 : (newModel dd (mapExprs g e) td).1 <;> rw [h1, h2] at this
  · exact this
  · exact this
  · exact this
  · intro o r
    obtain ⟨g1, q, q', g2, g3, g4⟩ := this o r r (fun _ _ => rfl)
    refine ⟨g1, ?_⟩
    rw [g2, g3]
    exact congrArg some (Std.ExtTreeMap.ext_getElem? fun k => g4 k id)

end

/-- **C98** (expressions): computing the constant parts of an expression changes its value in no row, nor the
error it fails with. -/
theorem C98_expression (e : Expr F64) : ∀ row, handleExpression row (foldExpr e) = handleExpression row e := by
  induction e using Expr.ind with
  | h1 f => intro row; rw [foldExpr]
  | h2 dt v => intro row; rw [foldExpr]
  | h4 m => intro row; rw [foldExpr]
  | h5 k => intro row; rw [foldExpr]
  | h3 fn args ih =>
    intro row
    rw [foldExpr.eq_def]
    simp only
    have hc : handleExpression row (.apply fn (foldExprs args)) = handleExpression row (.apply fn args) := by
      rw [foldExprs_eq]
      apply apply_pairs
      rw [List.forall₂_map_left_iff, List.forall₂_same]
      exact fun a ha => ih a ha row
    split
    · rename_i x hx
      rw [fixedValue_eval hx row, handleExpression, handleConstant]
      have : (Lib.parseFloat (Lib.fmtF64 x) : Option F64) = some x := parseF64_iff.mpr (C77_roundtrip x).1
      rw [this]
    · by_cases h : ∃ c a b v, fn = "if" ∧ args = [c, a, b] ∧ fixedValue c = some v
      · obtain ⟨c, a, b, v, rfl, rfl, hv⟩ := h
        have he : handleExpression row (.apply "if" [c, a, b]) =
            if v.toBool then handleExpression row a else handleExpression row b := by
          rw [handleExpression.eq_def]
          simp [fixedValue_eval hv row]
        rw [he, foldExprs_eq]
        simp only [foldCall, List.map_cons, List.map_nil, hv, if_true]
        split_ifs
        · exact ih a (by simp) row
        · exact ih b (by simp) row
      · rw [← hc]
        congr 1
        unfold foldCall
        split
        · split_ifs with hf
          · split
            · rename_i hv
              exact absurd ⟨_, _, _, _, hf, rfl, hv⟩ h
            · rfl
          · rfl
        · rfl

/-- **C98** (construction): the document with its constants computed is accepted exactly if the document is,
and rejected with the same error. -/
theorem C98_construction [Trans F64] (dd : List DataField) (e : ModelElem F64) (td : TD F64) :
    (∀ x, (newModel dd e td).1 = .error x ↔ (newModel dd (foldDoc e) td).1 = .error x) ∧
    ((∃ m, (newModel dd e td).1 = .ok m) ↔ ∃ m', (newModel dd (foldDoc e) td).1 = .ok m') := by
  have := mapExprs_same (fun row e => C98_expression e row) dd e td
  unfold foldDoc
  cases h1 : (newModel dd e td).1 <;> cases h2 : (newModel dd (mapExprs foldExpr e) td).1 <;> rw [h1, h2] at this <;>
    simp [Both] at this ⊢
  subst this
  simp

/-- **C98**: computing the constant expressions of a document once changes no answer, no error and no row
afterwards, bit for bit. -/
theorem C98_document [Trans F64] {dd : List DataField} {e : ModelElem F64} {td td1 td2 : TD F64} {m m' : EModel F64}
    (hm : newModel dd e td = (.ok m, td1)) (hm' : newModel dd (foldDoc e) td = (.ok m', td2)) (o : MapOrd)
    (r : GoMap (GoVal F64)) :
    (EModel.evaluate o m (some r)).res = (EModel.evaluate o m' (some r)).res ∧
    (EModel.evaluate o m (some r)).row = (EModel.evaluate o m' (some r)).row := by
  have := mapExprs_same (fun row e => C98_expression e row) dd e td
  unfold foldDoc at hm'
  rw [hm, hm'] at this
  exact this o r

/-- **C98** (nothing left): an expression that reads no field and computes a number becomes a constant. -/
theorem C98_constant {e : Expr F64} (h1 : exprFields e = []) (h2 : makesNumber e = true) (h3 : safeExpr [] e = true) :
    ∃ text, foldExpr e = .const .double text := by
  cases e with
  | const dt text =>
    rw [safeExpr] at h3
    simp only [Bool.and_eq_true, beq_iff_eq] at h3
    obtain ⟨rfl, -⟩ := h3
    exact ⟨text, by rw [foldExpr]⟩
  | apply fn args =>
    obtain ⟨v, hv⟩ := safeExpr_ok (K := []) (r := ∅) (by simp [Holds]) _ h3
    obtain ⟨x, rfl⟩ := number_eval _ h2 v hv
    have : fixedValue (.apply fn args) = some (.f64 x) := by
      unfold fixedValue
      rw [if_pos h1, ← C35_expression_frame (row := some ∅) _ (by simp [h1]), hv]
      rfl
    exact ⟨Lib.fmtF64 x, by rw [foldExpr.eq_def]; simp only [this]⟩
  | fieldRef f => simp [makesNumber] at h2
  | mapValues m => simp [makesNumber] at h2
  | other k => simp [makesNumber] at h2

section
open Replay Samples

/-- Fixed parts whose values are rounded, and a conditional with a fixed condition. -/
def wordy : Expr F64 :=
  .apply "+" [.apply "*" [.fieldRef "x", .apply "/" [.const .double "1", .const .double "3"]],
    .apply "if" [.apply "isMissing" [.const .double "1"], .apply "frobnicate" [],
      .apply "sum" [.fieldRef "x", .apply "+" [.const .double "0.1", .const .double "0.2"]]]]

def terse : Expr F64 :=
  .apply "+" [.apply "*" [.fieldRef "x", .const .double "0.3333333333333333"],
    .apply "sum" [.fieldRef "x", .const .double "0.30000000000000004"]]

-- C98: what is left of an expression.
example : foldExpr wordy = terse := by
  have h1 : fixedValue (.apply "/" [.const .double "1", .const .double "3"] : Expr F64) =
    some (.f64 (num "0.3333333333333333")) := by decide +kernel
  have h2 : (Lib.fmtF64 (num "0.3333333333333333")) = "0.3333333333333333" := by decide +kernel
  have h3 : fixedValue (.apply "+" [.const .double "0.1", .const .double "0.2"] : Expr F64) =
    some (.f64 (num "0.30000000000000004")) := by decide +kernel
  have h4 : (Lib.fmtF64 (num "0.30000000000000004")) = "0.30000000000000004" := by decide +kernel
  have h5 : fixedValue (.apply "isMissing" [.const .double "1"] : Expr F64) = some (.bool false) := by
    decide +kernel
  have h6 : ∀ e : Expr F64, exprFields e ≠ [] → fixedValue e = none := by
    intro e h; unfold fixedValue; rw [if_neg h]
  unfold wordy terse
  simp only [foldExpr, foldExprs, foldCall]
  rw [h1, h3, h5, h6 _ (by decide), h6 _ (by decide), h6 _ (by decide)]
  simp only [h2, h4, GoVal.toBool, if_true, Bool.false_eq_true, if_false]
  rw [h6 _ (by decide)]
-- C98: the number is the one of every evaluation, bit for bit.
example : eval .sorted (.tree (onField "u" [cont "u" wordy])) [("x", .int .int 20)] =
      eval .sorted (.tree (onField "u" [cont "u" terse])) [("x", .int .int 20)] ∧
    evalRow .sorted (.tree (onField "u" [cont "u" wordy])) [("x", .int .int 20)] =
      some (some (mk [("x", .int .int 20), ("u", .f64 (num "26.96666666666667"))])) ∧
    evalRow .sorted (.tree (onField "u" [cont "u" terse])) [("x", .int .int 20)] =
      some (some (mk [("x", .int .int 20), ("u", .f64 (num "26.96666666666667"))])) := by
  decide +kernel
-- C98: sums of floats cannot be taken apart: with the constants of a sum added first the number is another.
example : handleExpression (some (mk [("x", .f64 (num "0.4"))]))
      (.apply "+" [.apply "+" [.fieldRef "x", .const .double "0.1"], .const .double "0.2"] : Expr F64) ≠
    handleExpression (some (mk [("x", .f64 (num "0.4"))]))
      (.apply "+" [.fieldRef "x", .const .double "0.30000000000000004"]) := by
  decide +kernel

end

end Gopmml.Props
