import Verif.Props.History
import Verif.Props.Regression
import Verif.Proofs.Document
import Verif.Model.Samples

/-!
# Property C75: what Validate accepts, and what it does to the answers
-/

namespace Gopmml.Props
open Gopmml Spec

variable {F : Type}

/-- The normalisations `RegressionModel.Validate` lets pass. -/
def Allowed (n : Normalization) : Prop :=
  n = .empty ∨ n = .none ∨ n = .logit ∨ n = .softmax ∨ n = .exp ∨ n = .cloglog ∨ n = .cauchit

/-- **C75** (regression models): accepted exactly with one of six normalisations or none stated, the
classification function and probability outputs only; otherwise the first condition that fails, in
this order, is the error.  Only an empty normalisation is changed, into `none`. -/
theorem C75_regression (d : RegressionDoc F) :
    (d.validate.1 = .ok () ↔ Allowed d.normalization ∧ d.functionName = .classification ∧
      ∀ o ∈ d.outputs, o.feature = .probability) ∧
    (d.validate.1 = fail .unsupportedNormalization ↔ ¬ Allowed d.normalization) ∧
    (d.validate.1 = fail .unsupportedMiningFunction ↔
      Allowed d.normalization ∧ d.functionName ≠ .classification) ∧
    (d.validate.1 = fail .unsupportedOutputFeature ↔ Allowed d.normalization ∧
      d.functionName = .classification ∧ ∃ o ∈ d.outputs, o.feature ≠ .probability) ∧
    d.validate.2 = { d with normalization := if d.normalization = .empty then .none else d.normalization } := by
  have ha : Allowed d.normalization ↔
      ((if d.normalization = .empty then Normalization.none else d.normalization) = .none ∨
      (if d.normalization = .empty then Normalization.none else d.normalization) = .logit ∨
      (if d.normalization = .empty then Normalization.none else d.normalization) = .softmax ∨
      (if d.normalization = .empty then Normalization.none else d.normalization) = .exp ∨
      (if d.normalization = .empty then Normalization.none else d.normalization) = .cloglog ∨
      (if d.normalization = .empty then Normalization.none else d.normalization) = .cauchit) := by
    unfold Allowed
    cases d.normalization <;> simp
  unfold RegressionDoc.validate
  simp only
  by_cases h1 : Allowed d.normalization
  · rw [if_pos (ha.mp h1)]
    by_cases h2 : d.functionName = .classification
    · rw [if_neg (not_not.mpr h2)]
      by_cases h3 : ∀ o ∈ d.outputs, o.feature = .probability
      · rw [if_pos (by simpa using h3)]
        have h3' : ¬ ∃ o ∈ d.outputs, o.feature ≠ .probability := by push Not; exact h3
        simp [fail, h1, h2]
        exact h3
      · rw [if_neg (by simpa using h3)]
        have h3' : ∃ o ∈ d.outputs, o.feature ≠ .probability := by push Not at h3; exact h3
        simp only [fail, h1, h2, h3, and_false, h3', ne_eq, not_true_eq_false, and_true, iff_false]
        simp
    · rw [if_pos h2]
      simp [fail, h1, h2]
  · rw [if_neg fun h => h1 (ha.mpr h)]
    simp [fail, h1]

/-- **C75** (mining models): accepted exactly with one of four methods or none stated (then `sum`) and
outputs without a feature or with the probability feature. -/
theorem C75_mining (s : MiningState F) :
    (s.validate.1 = .ok () ↔ (s.head.method = .average ∨ s.head.method = .modelChain ∨ s.head.method = .sum ∨
        s.head.method = .selectFirst ∨ s.head.method = .empty) ∧
      ∀ f ∈ s.head.outputs, f.feature = .empty ∨ f.feature = .probability) ∧
    (s.validate.1 = fail .unsupportedMultipleModelMethod ↔ ∃ t, s.head.method = .other t) ∧
    (s.validate.1 = .ok () ∨ s.validate.1 = fail .unsupportedMultipleModelMethod ∨
      s.validate.1 = fail .unsupportedOutputFeature) ∧
    s.validate.2 = { s with
      head := { s.head with method := if s.head.method = .empty then .sum else s.head.method }
      validated := if s.validate.1 = .ok () then true else s.validated } := by
  have ho : (∀ f ∈ s.head.outputs, f.feature = .empty ∨ f.feature = .probability) ↔
      s.head.outputs.all (fun f => decide (f.feature = .empty ∨ f.feature = .probability)) = true := by
    simp
  rw [ho]
  unfold MiningState.validate
  simp only
  cases s.head.outputs.all (fun f => decide (f.feature = .empty ∨ f.feature = .probability)) <;>
    cases hm : s.head.method <;> simp [fail]

/-- **C75** (trees): accepted exactly with the classification or regression function. -/
theorem C75_tree (m : TreeModel F) :
    (m.validate.1 = .ok () ↔ m.model.functionName = .classification ∨ m.model.functionName = .regression) ∧
    (m.validate.1 = .ok () ∨ m.validate.1 = fail .unsupportedMiningFunction ∧ m.validate.2 = m) := by
  unfold TreeModel.validate
  by_cases h1 : m.model.functionName = .classification <;> by_cases h2 : m.model.functionName = .regression <;>
    simp [h1, h2, fail]

variable [Arith F] [Lib F] [Trans F]

/-- **C75**: validating a regression model does not change what it answers. -/
theorem C75_regression_same (d : RegressionDoc F) (row : Row F) :
    d.validate.2.evaluate row = d.evaluate row := by
  rw [(C75_regression d).2.2.2.2]
  by_cases h : d.normalization = .empty
  swap
  · rw [if_neg h]
  rw [if_pos h]
  have hn : ∀ x : F, normalize .empty x = normalize .none x := fun _ => rfl
  have hb : ∀ (nps : List (NumericPredictor F)) (p : F), binaryLoop .empty row p nps = binaryLoop .none row p nps := by
    intro nps
    induction nps with
    | nil => intro p; rfl
    | cons np nps ih =>
      intro p
      simp only [binaryLoop, hn]
      split
      · rfl
      · simp only [ih]
  have ht : ∀ (ts : List (RegressionTable F)) (p : F) (out : GoMap (GoVal F)),
      binaryTables .empty d.outputs row p out ts = binaryTables .none d.outputs row p out ts := by
    intro ts
    induction ts with
    | nil => intro p out; rfl
    | cons t ts ih => intro p out; simp only [binaryTables, hb, ih]
  have hm : ∀ (y : List F) (out : GoMap (GoVal F)) (l : List (String × F)),
      multiclassOut .empty y out l = multiclassOut .none y out l := by
    intro y out l
    cases l <;> rfl
  simp only [RegressionDoc.evaluate, RegressionDoc.evalRegression, RegressionDoc.evalBinary,
    RegressionDoc.evalMulticlass, h, ht, hm, hn]

omit [Trans F] in
/-- **C75**: a constructed tree or mining model is a fixed point of Validate: validating it again
succeeds and changes nothing. -/
theorem C75_again {dd : List DataField} {e : ModelElem F} {td td' : TD F} {M : EModel F}
    (h : newModel dd e td = (.ok M, td')) (hr : ∀ d, M ≠ .regression d) :
    M.validate.1 = .ok () ∧ M.validate.2 = M := by
  cases e with
  | regression d => exact absurd (regression_model h) (hr d)
  | other k => rw [newModel] at h; simp at h
  | tree d =>
    rw [newModel] at h
    rcases hn : newTreeModel dd td d with ⟨_ | t, td1⟩ <;> rw [hn] at h
    · simp at h
    · simp at h; obtain ⟨rfl, -⟩ := h
      obtain ⟨hf, -, hv, -, -, hm, -⟩ := newTreeModel_ok hn
      have hf' : t.model.functionName = .classification ∨ t.model.functionName = .regression := by rw [hm]; exact hf
      refine ⟨(C75_tree t).1.mpr hf', ?_⟩
      have hidem : ∀ f : MiningField, f.withDefaults.withDefaults = f.withDefaults := by
        intro f
        unfold MiningField.withDefaults
        by_cases h1 : f.usageType = .other "" <;> by_cases h2 : f.outliers = "" <;>
          by_cases h3 : f.invalidValueTreatment = "" <;> simp [h1, h2, h3]
      have hmf : t.model.miningFields.map MiningField.withDefaults = t.model.miningFields := by
        rw [hm, List.map_map]
        exact List.map_congr_left fun f _ => hidem f
      show EModel.tree t.validate.2 = _
      unfold TreeModel.validate
      rw [if_neg (by rcases hf' with h | h <;> simp [h]), hmf, ← hv]
  | mining hd segs =>
    obtain ⟨s, ms, rfl, hv, -, -, hh, -⟩ := newMining_ok h
    have hok : SupportedMethod hd.method ∧ SupportedOutputs hd.outputs := by
      rw [newModel] at h
      rcases mining_validate (MiningState.init dd hd segs) with ⟨h1, h2, -⟩ | ⟨-, e, s', hv⟩
      · exact ⟨h1, h2⟩
      · rw [hv] at h; simp at h
    rcases mining_validate s with ⟨-, -, h3⟩ | ⟨h3, -⟩
    · refine ⟨by show s.validate.1 = _; rw [h3], ?_⟩
      show EModel.mining s.validate.2 ms = _
      rw [h3]
      have : effectiveMethod s.head.method = s.head.method := by
        rw [hh]; show effectiveMethod (effectiveMethod hd.method) = effectiveMethod hd.method
        cases hd.method <;> rfl
      rw [this, ← hv]
    · refine absurd ⟨?_, ?_⟩ h3
      · rw [hh]; show SupportedMethod (effectiveMethod hd.method)
        have := hok.1
        revert this; unfold SupportedMethod; cases hd.method <;> simp [effectiveMethod]
      · rw [hh]; exact hok.2

/-- **C75** (finding): acceptance by Validate says little about a regression model.  An accepted model
that answers any row at all has two outputs and a stated normalisation other than `none` (or no
predictors), or normalises with softmax (or has no tables). -/
theorem C75_accepted {d : RegressionDoc F} {row : Row F} {out : Out F} (hv : d.validate.1 = .ok ())
    (he : d.evaluate row = .ok out) :
    d.outputs.length = 2 ∧ (d.normalization ≠ .none ∧ d.normalization ≠ .empty ∨ allPredictors d = []) ∨
    d.outputs.length ≠ 2 ∧ (d.normalization = .softmax ∨ d.tables = []) := by
  obtain ⟨ha, hf, -⟩ := (C75_regression d).1.mp hv
  have hc : newModel ([] : List DataField) (.regression d) [] = (.ok (.regression d), []) := rfl
  by_cases ho : d.outputs.length = 2
  · refine .inl ⟨ho, ?_⟩
    by_cases hl : link (F := F) d.normalization = none
    · exact .inr ((C46_binary_unsupported hc hf ho hl .sorted row).mp ⟨out, he⟩)
    · refine .inl ⟨?_, ?_⟩ <;> intro hn <;> rw [hn] at hl <;> exact hl rfl
  · refine .inr ⟨ho, ?_⟩
    have hm := C46_multiclass hc hf ho .sorted row
    have he' : (EModel.evaluate .sorted (.regression d) row).res = .ok out := he
    rw [he'] at hm
    revert hm
    unfold Allowed at ha
    cases firstMissing row (allPredictors d) with
    | some k => intro h; cases h
    | none =>
      rcases ha with h | h | h | h | h | h | h <;> rw [h] <;> simp [weight, fail] <;>
        exact fun h _ => h

section
open Samples Replay

/-- **C75** (finding): Validate refuses models that Evaluate answers: every regression function (here
`1 + 2x + 3z` through exp) and the simplemax normalisation. -/
theorem C75_refused :
    (line .exp).validate.1 = fail .unsupportedMiningFunction ∧
    eval .sorted (.regression (line .exp)) [("x", .int .int 5), ("z", .str "0.5")] =
      some (.ok (some (mk [("out", .f64 (num "13.5"))]))) ∧
    (three .simplemax).validate.1 = fail .unsupportedNormalization ∧
    eval .sorted (.regression (three .simplemax)) [("x", .int .int 1), ("z", .int .int 2)] =
      some (.ok (some (mk [("pa", .f64 (num "0.375")), ("pb", .f64 (num "0.625")), ("pc", .f64 (num "0"))]))) := by
  refine ⟨(C75_regression _).2.2.1.mpr (by simp [Allowed, line]), by decide +kernel,
    (C75_regression _).2.1.mpr (by simp [Allowed, three]), by decide +kernel⟩

-- C75: an accepted model with two outputs that answers, an accepted one that never can, and one with
-- an output feature that is not supported.
example : two.validate.1 = .ok () ∧ (three .logit).validate.1 = .ok () ∧ (three .empty).validate.1 = .ok () ∧
    { two with outputs := [⟨"p", .empty, "yes"⟩] }.validate.1 = fail .unsupportedOutputFeature ∧
    eval .sorted (.regression two) [("x", .int .int 0)] =
      some (.ok (some (mk [("py", .f64 (num "0.75")), ("pn", .f64 (num "0.25"))]))) := by
  refine ⟨(C75_regression _).1.mpr ?_, (C75_regression _).1.mpr ?_, (C75_regression _).1.mpr ?_,
    (C75_regression _).2.2.2.1.mpr ?_, by decide +kernel⟩ <;> simp [Allowed, two, three]
end

end Gopmml.Props
