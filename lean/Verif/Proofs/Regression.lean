import Verif.Spec.Regression
import Verif.Proofs.Maps
import Mathlib.Data.List.Induction

/-!
# The loops of regression.go compute the sums of the specification
-/

namespace Gopmml
open Spec

variable {F : Type} [Arith F] [Lib F] [Trans F]

omit [Trans F] in
theorem linearLoop_eq (row : Row F) (nps : List (NumericPredictor F)) (y : F) :
    linearLoop row y nps = match firstMissing row nps with
      | some k => fail (.missingTerm k)
      | none => .ok ((nps.map fun np => Arith.mul np.coefficient (valueOf row np.name)).foldl Arith.add y) := by
  induction nps generalizing y with
  | nil => rfl
  | cons np nps ih =>
    unfold linearLoop firstMissing
    cases h : row.get np.name with
    | none => simp [h]
    | some v =>
      rw [List.map_cons, List.find?_cons_of_neg (by simp [h])]
      simp only [ih, firstMissing, List.map_cons, List.foldl_cons, valueOf, h, Option.getD_some]

omit [Lib F] in
theorem normalize_eq (n : Normalization) (x : F) :
    normalize n x = match link n with
      | some g => .ok (g x)
      | none => fail .unsupportedNormalization := by
  cases n <;> rfl

theorem binaryLoop_eq {n : Normalization} {g : F → F} (hg : link n = some g) (row : Row F)
    (nps : List (NumericPredictor F)) (y : F) :
    binaryLoop n row y nps = match firstMissing row nps with
      | some k => fail (.missingTerm k)
      | none => .ok ((nps.map fun np => g (valueOf row np.name)).foldl Arith.add y) := by
  induction nps generalizing y with
  | nil => rfl
  | cons np nps ih =>
    unfold binaryLoop firstMissing
    cases h : row.get np.name with
    | none => simp [h]
    | some v =>
      rw [List.map_cons, List.find?_cons_of_neg (by simp [h])]
      simp only [normalize_eq, hg, List.map_cons, List.foldl_cons, valueOf, h, Option.getD_some]
      exact ih _

/-- Without a link function the first predictor ends the evaluation. -/
theorem binaryLoop_unsupported {n : Normalization} (hg : link (F := F) n = none) (row : Row F)
    (np : NumericPredictor F) (nps : List (NumericPredictor F)) (y : F) :
    ∃ e, binaryLoop n row y (np :: nps) = fail e := by
  unfold binaryLoop
  cases h : row.get np.name with
  | none => exact ⟨_, rfl⟩
  | some v => simp only [normalize_eq, hg]; exact ⟨_, rfl⟩

omit [Arith F] [Lib F] [Trans F] in
theorem firstMissing_append (row : Row F) (a b : List (NumericPredictor F)) :
    firstMissing row (a ++ b) = (firstMissing row a).or (firstMissing row b) := by
  simp [firstMissing, List.find?_append]

omit [Trans F] in
theorem linearAll_eq (row : Row F) (ts : List (RegressionTable F)) :
    linearAll row ts = match firstMissing row (ts.flatMap (·.predictors)) with
      | some k => fail (.missingTerm k)
      | none => .ok (ts.map (linear row)) := by
  induction ts with
  | nil => rfl
  | cons t ts ih =>
    unfold linearAll
    rw [List.flatMap_cons, firstMissing_append, linearLoop_eq, ih]
    cases firstMissing row t.predictors with
    | some k => rfl
    | none =>
      cases firstMissing row (ts.flatMap (·.predictors)) with
      | some k => rfl
      | none => rfl

omit [Arith F] [Lib F] [Trans F] in
theorem outFieldMap_getElem? (outputs : List OutputField) (cat : String) :
    ((outFieldMap outputs)[cat]?).getD "" = reportedAs outputs cat := by
  unfold reportedAs outFieldMap
  induction outputs using List.reverseRecOn with
  | nil => simp
  | append_singleton os o ih =>
    rw [List.foldl_append, List.foldl_cons, List.foldl_nil, Std.ExtTreeMap.getElem?_insert,
      List.filter_append]
    by_cases h : o.value = cat
    · simp [h]
    · rw [if_neg (by simpa using h), ih]
      simp [h]

omit [Lib F] in
theorem multiclassOut_eq {n : Normalization} {g : F → F} (hg : weight n = some g) (ys : List F)
    (l : List (String × F)) (out : GoMap (GoVal F)) :
    multiclassOut n ys out l =
      .ok (l.foldl (fun m p => m.insert p.1 (.f64 (share g ys p.2))) out) := by
  induction l generalizing out with
  | nil => rfl
  | cons p l ih =>
    obtain ⟨k, y⟩ := p
    have hs : multiclassOut n ys out ((k, y) :: l) =
        multiclassOut n ys (out.insert k (.f64 (share g ys y))) l := by
      cases n <;> simp only [weight, reduceCtorEq, Option.some.injEq] at hg
      all_goals
        subst hg
        simp only [multiclassOut, share, List.foldl_map, id]
    rw [hs, ih, List.foldl_cons]

omit [Lib F] in
theorem multiclassOut_unsupported {n : Normalization} (hg : weight (F := F) n = none) (ys : List F)
    (p : String × F) (l : List (String × F)) (out : GoMap (GoVal F)) :
    multiclassOut n ys out (p :: l) = fail .unsupportedNormalization := by
  obtain ⟨k, y⟩ := p
  cases n <;> first | rfl | simp [weight] at hg

/-- Writing one entry per element: the last element with a key wins. -/
theorem foldl_insertBy_getElem? {V A : Type} (l : List A) (key : A → String) (val : A → V) (m : GoMap V)
    (k : String) :
    (l.foldl (fun m a => m.insert (key a) (val a)) m)[k]? =
      (((l.filter fun a => key a = k).getLast?.map val).or m[k]?) := by
  induction l using List.reverseRecOn with
  | nil => simp
  | append_singleton l a ih =>
    rw [List.foldl_append, List.foldl_cons, List.foldl_nil, Std.ExtTreeMap.getElem?_insert,
      List.filter_append]
    by_cases h : key a = k
    · simp [h]
    · rw [if_neg (by simpa using h), ih]
      simp [h]

/-- The probability of each table of a binary classifier with a supported normalisation, given
the probability still unassigned. -/
def binaryPreds (g : F → F) (row : Row F) (rest : F) : List (RegressionTable F) → List F
  | [] => []
  | t :: ts =>
    let p := if t.predictors ≠ [] then transformed g row t else rest
    p :: binaryPreds g row (Arith.sub rest p) ts

theorem binaryTables_eq {n : Normalization} {g : F → F} (hg : link n = some g)
    (outputs : List OutputField) (row : Row F) (rest : F) (out : GoMap (GoVal F))
    (ts : List (RegressionTable F)) :
    binaryTables n outputs row rest out ts = match firstMissing row (ts.flatMap (·.predictors)) with
      | some k => fail (.missingTerm k)
      | none => .ok ((ts.zip (binaryPreds g row rest ts)).foldl
          (fun m p => binaryOut outputs p.1.targetCategory p.2 m) out) := by
  induction ts generalizing rest out with
  | nil => rfl
  | cons t ts ih =>
    unfold binaryTables binaryPreds
    rw [List.flatMap_cons, firstMissing_append]
    by_cases hp : t.predictors = []
    · rw [if_neg (by simp [hp]), if_neg (by simp [hp])]
      have hf : firstMissing row t.predictors = none := by rw [hp]; rfl
      rw [hf]
      exact ih _ _
    · rw [if_pos hp, if_pos hp, binaryLoop_eq hg]
      cases firstMissing row t.predictors with
      | some k => rfl
      | none => exact ih _ _

theorem binaryTables_ok {n : Normalization} (hg : link (F := F) n = none)
    (outputs : List OutputField) (row : Row F) (rest : F) (out : GoMap (GoVal F))
    (ts : List (RegressionTable F)) :
    (∃ o, binaryTables n outputs row rest out ts = .ok o) ↔ ts.flatMap (·.predictors) = [] := by
  induction ts generalizing rest out with
  | nil => simp [binaryTables]
  | cons t ts ih =>
    unfold binaryTables
    rw [List.flatMap_cons, List.append_eq_nil_iff]
    rcases hp : t.predictors with _ | ⟨np, nps⟩
    · rw [if_neg (by simp)]
      simpa using ih _ _
    · rw [if_pos (by simp)]
      obtain ⟨e, he⟩ := binaryLoop_unsupported hg row np nps t.intercept
      rw [he]
      constructor
      · rintro ⟨o, ho⟩; cases ho
      · rintro ⟨h, -⟩; cases h

end Gopmml
