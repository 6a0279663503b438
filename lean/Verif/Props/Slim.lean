import Verif.Proofs.Slim
import Verif.Props.Prune

/-!
# Property C117: what the answers of a document do not depend on
-/

namespace Gopmml.Props
open Gopmml Spec Structs

variable {F : Type} [Arith F] [Lib F] [Trans F]

/-- **C117**: the answers of a document do not depend on its version, on its other models, on records to verify a
model with, on what is said about outliers and invalid values, on exponents, or on the names and the predicates
of segments. -/
theorem C117_document (p : Pmml F) (calls : List (MapOrd × Row F)) : answersOf (slimDoc p) calls = answersOf p calls :=
  answersOf_slim p calls

/-- **C117** (pairs): two documents that are the same otherwise have the same answers. -/
theorem C117_same {p p' : Pmml F} (h : slimDoc p = slimDoc p') (calls : List (MapOrd × Row F)) :
    answersOf p calls = answersOf p' calls := by
  rw [← C117_document p, h, C117_document]

/-- **C117** (models): nor do the models built: both are refused with the same error, or answer alike, do the same to
every row, in any order of maps, and leave the dictionary of derived fields alike. -/
theorem C117_models (dd : List DataField) (e : ModelElem F) (td : TD F) :
    (newModel dd (slim e) td).2 = (newModel dd e td).2 ∧
    (∀ f, (newModel dd (slim e) td).1 = .error f ↔ (newModel dd e td).1 = .error f) ∧
    ∀ m m', (newModel dd (slim e) td).1 = .ok m → (newModel dd e td).1 = .ok m' → ∀ o row,
      (EModel.evaluate o m row).res = (EModel.evaluate o m' row).res ∧
      (EModel.evaluate o m row).row = (EModel.evaluate o m' row).row := by
  obtain ⟨h1, h2⟩ := newModel_slim dd e td
  refine ⟨h2, ?_, ?_⟩
  · revert h1
    generalize (newModel dd (slim e) td).1 = x
    generalize (newModel dd e td).1 = y
    intro h1 f
    cases x <;> cases y <;> simp_all [Except.map]
  · intro m m' hm hm' o row
    rw [hm, hm'] at h1
    simp only [Except.map, Except.ok.injEq] at h1
    have h3 := evaluate_slim o m row
    rw [h1, evaluate_slim o m' row] at h3
    simp only [Ev.slimBy, Ev.mk.injEq] at h3
    exact ⟨h3.1.symm, h3.2.1.symm⟩

/-- **C117** (program): the program decodes, then answers from what was decoded. -/
theorem C117_program (as : Attrs) (ch : List Xml) (calls : List (MapOrd × Row F)) :
    runAll as ch calls = match decodeAll (F := F) as ch with
      | .error e => .error (.decode e)
      | .ok p => answersOf p calls := by
  unfold runAll decodeAll
  let _ := goReflect F
  unfold runFile loadFile answersOf
  cases decodePmml (F := F) as ch with
  | error e => rfl
  | ok p =>
    dsimp only
    cases p.models with
    | nil => rfl
    | cons e es =>
      dsimp only
      cases (newModel p.dataDictionary e p.transformations).1 <;> rfl

/-- **C117** (files): of an XML document only 54 element names and 30 attribute names can matter for an answer. If the
document is not refused, `main` ends in the same way when anything else is left out, at any depth. -/
theorem C117_files {as as' : Attrs} {ch ch' : List Xml} (ha : AttrsPruned coreAttrs as as')
    (h : Pruned coreNames coreAttrs ch ch') (h0 : ∃ p : Pmml F, decodeAll as ch = .ok p)
    (calls : List (MapOrd × Row F)) : runAll as ch calls = runAll as' ch' calls := by
  obtain ⟨p, h0⟩ := h0
  rw [C117_program, C117_program, h0]
  rw [C113_content] at h0
  have h1 : decodeAll (F := F) as' ch' = .ok (Spec.Said.pmml as' ch') :=
    (C113_content _ _ _).2 ⟨Said.reads_pruned ha h h0.1, rfl⟩
  rw [h1, h0.2]
  exact C117_same (Said.pmml_core as as' h) calls

/-- **C117** (runs): so either both runs are the same or the longer document is refused. -/
theorem C117_run {as as' : Attrs} {ch ch' : List Xml} (ha : AttrsPruned coreAttrs as as')
    (h : Pruned coreNames coreAttrs ch ch') (calls : List (MapOrd × Row F)) :
    runAll as ch calls = runAll as' ch' calls ∨ ∃ e, runAll as ch calls = .error (.decode e) := by
  cases h0 : decodeAll (F := F) as ch with
  | error e => exact .inr ⟨e, by rw [C117_program, h0]⟩
  | ok p => exact .inl (C117_files ha h ⟨p, h0⟩ calls)

/-- **C117** (at once): in particular when all of it is left out. -/
theorem C117_bare (as : Attrs) (ch : List Xml) (h0 : ∃ p : Pmml F, decodeAll as ch = .ok p)
    (calls : List (MapOrd × Row F)) :
    runAll as ch calls = runAll (bareAttrs coreAttrs as) (bare coreNames coreAttrs ch) calls :=
  C117_files (Said.bareAttrs_pruned coreAttrs as) (Said.bare_pruned coreNames coreAttrs ch) h0 calls

/-! ## Examples -/

namespace SlimExample

/-- An ensemble of one regression: with records to verify it, an exponent, and a segment that should never be used. -/
def full : List Xml :=
  [.elem "MiningModel" [("functionName", "regression")]
     [.elem "MiningSchema" [] [.elem "MiningField" [("name", "x"), ("outliers", "asExtremeValues"), ("missingValueReplacement", "1")] []],
      .elem "ModelVerification" [("recordCount", "1")]
        [.elem "VerificationFields" [] [.elem "VerificationField" [("field", "x"), ("precision", "0.1")] []],
         .elem "InlineTable" [] [.elem "row" [] [.elem "x" [] [.text "1" "1"]]]],
      .elem "Segmentation" [("multipleModelMethod", "selectFirst")]
        [.elem "Segment" [("id", "s")] [.elem "False" [] [],
          .elem "RegressionModel" [("functionName", "regression"), ("normalizationMethod", "exp")]
            [.elem "RegressionTable" [("intercept", "1")]
              [.elem "NumericPredictor" [("name", "x"), ("coefficient", "2"), ("exponent", "3")] []]]]]],
   .elem "TreeModel" [] []]

/-- What is left of it. -/
def left : List Xml :=
  [.elem "MiningModel" [("functionName", "regression")]
     [.elem "MiningSchema" [] [.elem "MiningField" [("name", "x"), ("missingValueReplacement", "1")] []],
      .elem "Segmentation" [("multipleModelMethod", "selectFirst")]
        [.elem "Segment" [("id", "s")] [.elem "False" [] [],
          .elem "RegressionModel" [("functionName", "regression"), ("normalizationMethod", "exp")]
            [.elem "RegressionTable" [("intercept", "1")]
              [.elem "NumericPredictor" [("name", "x"), ("coefficient", "2")] []]]]]],
   .elem "TreeModel" [] []]

theorem bare_full : bare coreNames coreAttrs full = left := by
  simp [full, left, bare, bareItem, bareAttrs, coreNames, coreAttrs, saidNames, leafNames, saidAttrs, predicateNames,
    expressionNames, modelNames]

-- C117: it can be decoded, so both are run alike.
theorem full_decodes : ∃ p : Pmml F64, decodeAll [("version", "4.4")] full = .ok p := by
  rw [C106_table]
  decide +kernel

example [Trans F64] (calls : List (MapOrd × Row F64)) : runAll [("version", "4.4")] full calls = runAll [] left calls := by
  rw [C117_bare _ _ full_decodes, bare_full]
  rfl

-- The document decoded is another one: only its answers are the same.
example : (Spec.Said.pmml (F := F64) [("version", "4.4")] full).version ≠ (slimDoc (Spec.Said.pmml (F := F64) [("version", "4.4")] full)).version := by
  decide +kernel

-- The predicate of the segment is left out too: it is never looked at.
example : slim (F := F64) (.mining ⟨.regression, .sum, none, [], [], [], []⟩ [.mk "s" [.false_] []]) =
    slim (.mining ⟨.regression, .sum, none, [], [], [], []⟩ [.mk "t" [.true_] []]) := rfl

end SlimExample

end Gopmml.Props
