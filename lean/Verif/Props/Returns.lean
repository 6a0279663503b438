import Verif.Model.Returns
import Verif.Spec.Returns
import Verif.Model.Samples
import Verif.Proofs.Tree

/-!
# What comes back beside an error (C86)
-/

namespace Gopmml.Props

open Gopmml

variable {F : Type} [Arith F] [Lib F]

section Collapse

/-- Forgetting a row beside an error inside a function. -/
def early {α β : Type} : Early α β → Res β
  | .ok b => .ok b
  | .error (.returned _ (some e)) => fail e
  | .error (.returned _ none) => fail .noSegments
  | .error (.panicked p) => panic p

/-- No early return without an error. -/
def Real {α β : Type} : Early α β → Prop
  | .error (.returned _ none) => False
  | _ => True

theorem linearRet_early (row : Row F) (nps : List (NumericPredictor F)) (y : F) :
    early (linearRet row y nps) = linearLoop row y nps ∧ Real (linearRet row y nps) := by
  induction nps generalizing y with
  | nil => exact ⟨rfl, trivial⟩
  | cons np nps ih =>
    unfold linearRet linearLoop
    cases row.get np.name with
    | none => exact ⟨rfl, trivial⟩
    | some term => exact ih _

theorem linearAllRet_early (row : Row F) (ts : List (RegressionTable F)) :
    early (linearAllRet row ts) = linearAll row ts ∧ Real (linearAllRet row ts) := by
  induction ts with
  | nil => exact ⟨rfl, trivial⟩
  | cons t ts ih =>
    unfold linearAllRet linearAll
    have h := linearRet_early row t.predictors t.intercept
    generalize linearRet row t.intercept t.predictors = a at h
    rw [← h.1]
    rcases a with (⟨v, _ | e⟩ | p) | y
    · exact absurd h.2 (by simp [Real])
    · exact ⟨rfl, trivial⟩
    · exact ⟨rfl, trivial⟩
    · generalize linearAllRet row ts = b at ih
      rw [← ih.1]
      rcases b with (⟨v, _ | e⟩ | p) | ys
      · exact absurd ih.2 (by simp [Real])
      · exact ⟨rfl, trivial⟩
      · exact ⟨rfl, trivial⟩
      · exact ⟨rfl, trivial⟩

variable [Trans F]

theorem binaryTermsRet_early (n : Normalization) (row : Row F) (out : GoMap (GoVal F))
    (nps : List (NumericPredictor F)) (y : F) :
    early (binaryTermsRet n row out y nps) = binaryLoop n row y nps ∧
      Real (binaryTermsRet n row out y nps) := by
  induction nps generalizing y with
  | nil => exact ⟨rfl, trivial⟩
  | cons np nps ih =>
    unfold binaryTermsRet binaryLoop
    cases row.get np.name with
    | none => exact ⟨rfl, trivial⟩
    | some term =>
      cases h : normalize n term.float64 with
      | ok v => simp only [h]; exact ih _
      | error f => cases f <;> simp only [h] <;> exact ⟨rfl, trivial⟩

theorem binaryTablesRet_early (n : Normalization) (outputs : List OutputField) (row : Row F)
    (ts : List (RegressionTable F)) (final : F) (out : GoMap (GoVal F)) :
    early (binaryTablesRet n outputs row final out ts)
        = (binaryTables n outputs row final out ts).map some ∧
      Real (binaryTablesRet n outputs row final out ts) := by
  induction ts generalizing final out with
  | nil => exact ⟨rfl, trivial⟩
  | cons t ts ih =>
    unfold binaryTablesRet binaryTables
    by_cases hp : t.predictors ≠ []
    · simp only [if_pos hp]
      have h := binaryTermsRet_early n row out t.predictors t.intercept
      generalize binaryTermsRet n row out t.intercept t.predictors = a at h
      rw [← h.1]
      rcases a with (⟨v, _ | e⟩ | p) | y
      · exact absurd h.2 (by simp [Real])
      · exact ⟨rfl, trivial⟩
      · exact ⟨rfl, trivial⟩
      · exact ih _ _
    · simp only [if_neg hp]
      exact ih _ _

omit [Lib F] in
theorem multiclassRet_early (n : Normalization) (y : List F) (ts : List (String × F))
    (out : GoMap (GoVal F)) :
    early (multiclassRet n y out ts) = (multiclassOut n y out ts).map some ∧
      Real (multiclassRet n y out ts) := by
  induction ts generalizing out with
  | nil => exact ⟨rfl, trivial⟩
  | cons t ts ih =>
    unfold multiclassRet multiclassOut
    cases n <;> first | exact ih _ | exact ⟨rfl, trivial⟩

omit [Arith F] [Lib F] [Trans F] in
theorem collapse_body {α : Type} (a : Early α α) (h : Real a) : a.body.collapse = early a := by
  rcases a with (⟨v, _ | e⟩ | p) | y
  · exact absurd h (by simp [Real])
  all_goals rfl

omit [Arith F] [Lib F] [Trans F] in
theorem Real.bind {α β γ : Type} {a : Early α β} {f : β → Early α γ} (ha : Real a)
    (hf : ∀ b, Real (f b)) : Real (a >>= f) ∧ early (a >>= f) = early a >>= fun b => early (f b) := by
  rcases a with (⟨v, _ | e⟩ | p) | y
  · exact absurd ha (by simp [Real])
  · exact ⟨trivial, rfl⟩
  · exact ⟨trivial, rfl⟩
  · exact ⟨hf y, rfl⟩

theorem regression_collapse (d : RegressionDoc F) (row : Row F) :
    (d.evaluateRet row).collapse = d.evaluate row := by
  unfold RegressionDoc.evaluateRet RegressionDoc.evaluate
  cases d.functionName with
  | other s => rfl
  | regression =>
    show (d.evalRegressionRet row).collapse = d.evalRegression row
    unfold RegressionDoc.evalRegressionRet RegressionDoc.evalRegression
    rcases d.tables with _ | ⟨t, _ | _⟩
    · rfl
    · rcases d.outputs with _ | ⟨f, _ | _⟩
      · rfl
      · have h := linearRet_early row t.predictors t.intercept
        simp only
        generalize linearRet row t.intercept t.predictors = a at h
        rw [← h.1]
        rcases a with (⟨v, _ | e⟩ | p) | y
        · exact absurd h.2 (by simp [Real])
        · rfl
        · rfl
        · cases hn : normalize d.normalization y with
          | ok v => simp [early, bind, Except.bind, hn, orReturn, Early.body, Ret.collapse, pure, Except.pure]
          | error f => cases f <;>
              simp [early, bind, Except.bind, hn, orReturn, Early.body, Ret.collapse]
      · rfl
    · rfl
  | classification =>
    by_cases h2 : d.outputs.length = 2
    · simp only [if_pos h2]
      unfold RegressionDoc.evalBinaryRet RegressionDoc.evalBinary
      have h := binaryTablesRet_early d.normalization d.outputs row d.tables Arith.one ∅
      rw [collapse_body _ h.2, h.1]
      cases binaryTables d.normalization d.outputs row Arith.one ∅ d.tables <;> rfl
    · simp only [if_neg h2]
      unfold RegressionDoc.evalMulticlassRet RegressionDoc.evalMulticlass
      have h := linearAllRet_early row d.tables
      simp only
      have hb := Real.bind (f := fun y => multiclassRet d.normalization y ∅
        ((d.tables.map fun t => ((outFieldMap d.outputs)[t.targetCategory]?).getD "").zip y)) h.2
        (fun y => (multiclassRet_early d.normalization y _ ∅).2)
      rw [collapse_body _ hb.1, hb.2, h.1]
      cases linearAll row d.tables with
      | error e => rfl
      | ok y =>
        show early (multiclassRet d.normalization y ∅ _) = _
        rw [(multiclassRet_early d.normalization y _ ∅).1]
        simp only [bind, Except.bind]
        generalize multiclassOut d.normalization y ∅ _ = z
        cases z <;> rfl

omit [Arith F] [Lib F] [Trans F] in
theorem collapse_nilBeside (r : Res (Out F)) : (nilBeside r).collapse = r := by
  rcases r with (e | p) | v <;> rfl

/-- `a` forgets to `b`. -/
def Forgets {α S : Type} (a : EvRet F α S) (b : Ev F α S) : Prop :=
  a.ret.collapse = b.res ∧ a.row = b.row ∧ a.model = b.model

mutual
theorem evaluateRet_forgets (o : MapOrd) : ∀ (m : EModel F) (row : Row F),
    Forgets (m.evaluateRet o row) (m.evaluate o row)
  | .tree m, row => by
    unfold EModel.evaluateRet EModel.evaluate
    exact ⟨collapse_nilBeside _, rfl, rfl⟩
  | .regression d, row => by
    unfold EModel.evaluateRet EModel.evaluate
    exact ⟨regression_collapse d row, rfl, rfl⟩
  | .mining s ms, row => by
    unfold EModel.evaluateRet EModel.evaluate
    by_cases hv : ¬ s.validated
    · simp only [if_pos hv]; exact ⟨rfl, rfl, rfl⟩
    simp only [if_neg hv]
    by_cases hc : ¬ s.compiled
    · simp only [if_pos hc]; exact ⟨rfl, rfl, rfl⟩
    simp only [if_neg hc]
    generalize imputeLoop ((o.at_ 0).range s.defaultValues) row = a
    rcases a with ⟨e | ⟨⟩, row⟩
    · exact ⟨collapse_nilBeside _, rfl, rfl⟩
    simp only
    generalize handleInput s.head.localTransformations row = b
    rcases b with ⟨e | ⟨⟩, row⟩
    · exact ⟨collapse_nilBeside _, rfl, rfl⟩
    simp only
    cases s.head.method with
    | average =>
      have h := sumSegmentsRet_forgets (o.at_ 1) s.head.functionName 0 (initScores s) ms row
      refine ⟨?_, h.2.2.1, congrArg _ h.2.2.2⟩
      have h1 := h.1
      have h2 := h.2.1
      simp only
      rw [← h1]
      generalize (sumSegmentsRet (o.at_ 1) s.head.functionName 0 (initScores s) ms row).1 = x at h2
      rcases x with (⟨v, _ | e⟩ | p) | y
      · exact absurd h2 (by simp [Real])
      all_goals rfl
    | sum =>
      have h := sumSegmentsRet_forgets (o.at_ 1) s.head.functionName 0 (initScores s) ms row
      refine ⟨?_, h.2.2.1, congrArg _ h.2.2.2⟩
      have h1 := h.1
      have h2 := h.2.1
      simp only
      rw [← h1]
      generalize (sumSegmentsRet (o.at_ 1) s.head.functionName 0 (initScores s) ms row).1 = x at h2
      rcases x with (⟨v, _ | e⟩ | p) | y
      · exact absurd h2 (by simp [Real])
      all_goals rfl
    | modelChain =>
      have h := chainSegmentsRet_forgets (o.at_ 1) 0 (some ∅) ms row
      exact ⟨h.1, h.2.1, congrArg _ h.2.2⟩
    | selectFirst =>
      have h := selectFirstRet_forgets (o.at_ 1) ms row
      exact ⟨h.1, h.2.1, congrArg _ h.2.2⟩
    | _ => exact ⟨rfl, rfl, rfl⟩
theorem selectFirstRet_forgets (o : MapOrd) : ∀ (ms : List (EModel F)) (row : Row F),
    Forgets (selectFirstRet o ms row) (selectFirst o ms row)
  | [], row => by
    unfold selectFirstRet selectFirst
    exact ⟨rfl, rfl, rfl⟩
  | m :: ms, row => by
    unfold selectFirstRet selectFirst
    have h := evaluateRet_forgets o m row
    generalize EModel.evaluateRet o m row = a at h
    generalize EModel.evaluate o m row = b at h
    obtain ⟨h1, h2, h3⟩ := h
    rcases a with ⟨⟨v, _ | e⟩ | p, r, m'⟩ <;> exact ⟨h1, h2, congrArg (· :: ms) h3⟩
theorem chainSegmentsRet_forgets (o : MapOrd) (i : Nat) (lastOut : Out F) :
    ∀ (ms : List (EModel F)) (row : Row F),
    Forgets (chainSegmentsRet o i lastOut ms row) (chainSegments o i lastOut ms row)
  | [], row => by
    unfold chainSegmentsRet chainSegments
    exact ⟨rfl, rfl, rfl⟩
  | m :: ms, row => by
    unfold chainSegmentsRet chainSegments
    generalize writeAll ((o.at_ (2 * i)).range (lastOut.getD ∅)) row = w
    rcases w with ⟨e | ⟨⟩, row⟩
    · exact ⟨collapse_nilBeside _, rfl, rfl⟩
    simp only
    have h := evaluateRet_forgets (o.at_ (2 * i + 1)) m row
    generalize EModel.evaluateRet (o.at_ (2 * i + 1)) m row = a at h
    generalize EModel.evaluate (o.at_ (2 * i + 1)) m row = b at h
    obtain ⟨h1, h2, h3⟩ := h
    rcases b with ⟨res, r', m''⟩
    rcases a with ⟨⟨v, _ | e⟩ | p, r, m'⟩ <;> simp only [Ret.collapse] at h1 h2 h3 <;>
      subst h1 h2 h3
    · have hh := chainSegmentsRet_forgets o (i + 1) v ms r
      exact ⟨hh.1, hh.2.1, congrArg (m' :: ·) hh.2.2⟩
    · exact ⟨rfl, rfl, rfl⟩
    · exact ⟨rfl, rfl, rfl⟩
theorem sumSegmentsRet_forgets (o : MapOrd) (fn : MiningFunction) (i : Nat) (scoreMap : GoMap F) :
    ∀ (ms : List (EModel F)) (row : Row F),
    early (sumSegmentsRet o fn i scoreMap ms row).1 = (sumSegments o fn i scoreMap ms row).res ∧
      Real (sumSegmentsRet o fn i scoreMap ms row).1 ∧
      (sumSegmentsRet o fn i scoreMap ms row).2.1 = (sumSegments o fn i scoreMap ms row).row ∧
      (sumSegmentsRet o fn i scoreMap ms row).2.2 = (sumSegments o fn i scoreMap ms row).model
  | [], row => by
    unfold sumSegmentsRet sumSegments
    exact ⟨rfl, trivial, rfl, rfl⟩
  | m :: ms, row => by
    unfold sumSegmentsRet sumSegments
    have h := evaluateRet_forgets (o.at_ (2 * i)) m row
    generalize EModel.evaluateRet (o.at_ (2 * i)) m row = a at h
    generalize EModel.evaluate (o.at_ (2 * i)) m row = b at h
    obtain ⟨h1, h2, h3⟩ := h
    rcases b with ⟨res, r', m''⟩
    rcases a with ⟨⟨v, _ | e⟩ | p, r, m'⟩ <;> simp only [Ret.collapse] at h1 h2 h3 <;>
      subst h1 h2 h3
    · have hh := sumSegmentsRet_forgets o fn (i + 1)
        (((o.at_ (2 * i + 1)).range scoreMap).foldl (addScore fn v) scoreMap) ms r
      exact ⟨hh.1, hh.2.1, hh.2.2.1, congrArg (m' :: ·) hh.2.2.2⟩
    · exact ⟨rfl, trivial, rfl, rfl⟩
    · exact ⟨rfl, trivial, rfl, rfl⟩
end

end Collapse

section Beside

/-- Every early return with an error has nil beside it. -/
def NilOnly {β : Type} (a : Early (Out F) β) : Prop := ∀ v e, a = .error (.returned v (some e)) → v = none

theorem linearRet_beside (row : Row F) (nps : List (NumericPredictor F)) (y : F) (v : Out F) (e : Err)
    (h : linearRet row y nps = .error (.returned v (some e))) : v = none ∧ ∃ x, e = .missingTerm x := by
  induction nps generalizing y with
  | nil => exact nomatch h
  | cons np nps ih =>
    unfold linearRet at h
    cases hr : row.get np.name with
    | none =>
      rw [hr] at h
      injection h with h; injection h with h1 h2; injection h2 with h2
      exact ⟨h1.symm, _, h2.symm⟩
    | some term => rw [hr] at h; exact ih _ h

theorem linearAllRet_beside (row : Row F) (ts : List (RegressionTable F)) (v : Out F) (e : Err)
    (h : linearAllRet row ts = .error (.returned v (some e))) : v = none ∧ ∃ x, e = .missingTerm x := by
  induction ts with
  | nil => exact nomatch h
  | cons t ts ih =>
    unfold linearAllRet at h
    cases ha : linearRet row t.intercept t.predictors with
    | error r =>
      rw [ha] at h
      injection h with h
      subst h
      exact linearRet_beside row _ _ v e ha
    | ok y =>
      cases hb : linearAllRet row ts with
      | error r =>
        rw [ha, hb] at h
        injection h with h
        subst h
        exact ih hb
      | ok ys => rw [ha, hb] at h; exact nomatch h

variable [Trans F]

omit [Lib F] in
theorem normalize_error {n : Normalization} {x : F} {f : Fault} (h : normalize n x = .error f) :
    f = .err .unsupportedNormalization := by
  unfold normalize at h
  cases n <;> cases h <;> rfl

theorem binaryTermsRet_beside (n : Normalization) (row : Row F) (out : GoMap (GoVal F))
    (nps : List (NumericPredictor F)) (y : F) (v : Out F) (e : Err)
    (h : binaryTermsRet n row out y nps = .error (.returned v (some e))) :
    (v = none ∧ ∃ x, e = .missingTerm x) ∨ (v = some out ∧ e = .unsupportedNormalization) := by
  induction nps generalizing y with
  | nil => exact nomatch h
  | cons np nps ih =>
    unfold binaryTermsRet at h
    cases hr : row.get np.name with
    | none =>
      rw [hr] at h
      injection h with h; injection h with h1 h2; injection h2 with h2
      exact .inl ⟨h1.symm, _, h2.symm⟩
    | some term =>
      rw [hr] at h
      cases hn : normalize n term.float64 with
      | ok z => simp only [hn] at h; exact ih _ h
      | error f =>
        have hf := normalize_error hn
        subst hf
        simp only [hn] at h
        injection h with h; injection h with h1 h2; injection h2 with h2
        exact .inr ⟨h1.symm, h2.symm⟩

omit [Lib F] in
/-- A method that fails for one term fails for all. -/
theorem normalize_fails {n : Normalization} {x : F} {f : Fault} (h : normalize n x = .error f) (y : F) :
    normalize n y = .error f := by
  unfold normalize at h ⊢
  cases n <;> first | exact h | cases h

/-- A successful loop over predictors has normalised all terms. -/
theorem binaryTermsRet_ok (n : Normalization) (row : Row F) (out : GoMap (GoVal F))
    (nps : List (NumericPredictor F)) (y z : F) (hne : nps ≠ [])
    (h : binaryTermsRet n row out y nps = .ok z) : ∀ x : F, ∃ w, normalize n x = .ok w := by
  cases nps with
  | nil => exact absurd rfl hne
  | cons np nps =>
    unfold binaryTermsRet at h
    cases hr : row.get np.name with
    | none => rw [hr] at h; exact nomatch h
    | some term =>
      rw [hr] at h
      intro x
      cases hx : normalize n x with
      | ok w => exact ⟨w, rfl⟩
      | error f =>
        have := normalize_fails hx term.float64
        have hf := normalize_error hx
        subst hf
        simp only [this] at h
        exact nomatch h

theorem binaryTermsRet_fails (n : Normalization) (row : Row F) (out : GoMap (GoVal F))
    (nps : List (NumericPredictor F)) (y : F) (v : Out F)
    (h : binaryTermsRet n row out y nps = .error (.returned v (some .unsupportedNormalization))) :
    ∀ x : F, normalize n x = fail .unsupportedNormalization := by
  induction nps generalizing y with
  | nil => exact nomatch h
  | cons np nps ih =>
    unfold binaryTermsRet at h
    cases hr : row.get np.name with
    | none =>
      rw [hr] at h
      injection h with h; injection h with h1 h2; injection h2 with h2
      exact nomatch h2
    | some term =>
      rw [hr] at h
      cases hn : normalize n term.float64 with
      | ok z => simp only [hn] at h; exact ih _ h
      | error f =>
        have hf := normalize_error hn
        subst hf
        exact normalize_fails hn

theorem binaryTablesRet_beside (n : Normalization) (outputs : List OutputField) (row : Row F)
    (ts : List (RegressionTable F)) (final : F) (out : GoMap (GoVal F)) (v : Out F) (e : Err)
    (h : binaryTablesRet n outputs row final out ts = .error (.returned v (some e))) :
    (v = none ∧ ∃ x, e = .missingTerm x) ∨
      (e = .unsupportedNormalization ∧ (∀ x : F, normalize n x = fail .unsupportedNormalization) ∧
        ∃ pre t post, ts = pre ++ t :: post ∧ (∀ u ∈ pre, u.predictors = []) ∧
          t.predictors ≠ [] ∧ (binaryTables n outputs row final out pre).map some = .ok v) := by
  induction ts generalizing final out with
  | nil => exact nomatch h
  | cons t ts ih =>
    unfold binaryTablesRet at h
    by_cases hp : t.predictors ≠ []
    · simp only [if_pos hp] at h
      cases ha : binaryTermsRet n row out t.intercept t.predictors with
      | error r =>
        rw [ha] at h
        injection h with h
        subst h
        rcases binaryTermsRet_beside n row out _ _ v e ha with h | ⟨h1, h2⟩
        · exact .inl h
        · subst h1 h2
          exact .inr ⟨rfl, binaryTermsRet_fails n row out _ _ _ ha, [], t, ts, rfl, by simp, hp, rfl⟩
      | ok y =>
        rw [ha] at h
        rcases ih _ _ h with h | ⟨-, h, -⟩
        · exact .inl h
        · obtain ⟨w, hw⟩ := binaryTermsRet_ok n row out _ _ y hp ha Arith.one
          rw [h] at hw
          exact nomatch hw
    · simp only [if_neg hp] at h
      rcases ih _ _ h with h | ⟨he, hn, pre, u, post, h1, h2, h3, h4⟩
      · exact .inl h
      · refine .inr ⟨he, hn, t :: pre, u, post, by rw [h1]; rfl, ?_, h3, ?_⟩
        · intro w hw
          rcases List.mem_cons.1 hw with rfl | hw
          · exact not_not.1 hp
          · exact h2 w hw
        · unfold binaryTables
          simp only [if_neg hp]
          exact h4

omit [Lib F] in
theorem multiclassRet_beside (n : Normalization) (y : List F) (ts : List (String × F))
    (out : GoMap (GoVal F)) (v : Out F) (e : Err)
    (h : multiclassRet n y out ts = .error (.returned v (some e))) :
    v = some out ∧ e = .unsupportedNormalization ∧ n ≠ .softmax ∧ n ≠ .simplemax := by
  induction ts generalizing out with
  | nil => exact nomatch h
  | cons t ts ih =>
    unfold multiclassRet at h
    cases n
    case softmax => exact absurd rfl (ih _ h).2.2.1
    case simplemax => exact absurd rfl (ih _ h).2.2.2
    all_goals
      injection h with h; injection h with h1 h2; injection h2 with h2
      exact ⟨h1.symm, h2.symm, nofun, nofun⟩

/-- C86. What a regression model returns beside an error. -/
theorem C86_regression (d : RegressionDoc F) (row : Row F) (v : Out F) (e : Err)
    (h : d.evaluateRet row = .returned v (some e)) : Spec.Beside d row e v := by
  unfold RegressionDoc.evaluateRet at h
  cases hf : d.functionName with
  | other s =>
    rw [hf] at h
    injection h with h1 h2; injection h2 with h2
    subst h1 h2
    rfl
  | regression =>
    rw [hf] at h
    simp only [RegressionDoc.evalRegressionRet] at h
    rcases ht : d.tables with _ | ⟨t, _ | _⟩
    · rw [ht] at h
      injection h with h1 h2; injection h2 with h2
      subst h1 h2; rfl
    · rw [ht] at h
      rcases ho : d.outputs with _ | ⟨f, _ | _⟩
      · rw [ho] at h
        injection h with h1 h2; injection h2 with h2
        subst h1 h2; rfl
      · rw [ho] at h
        simp only at h
        cases ha : linearRet row t.intercept t.predictors with
        | error r =>
          rw [ha] at h
          simp only [bind, Except.bind, Early.body] at h
          subst h
          obtain ⟨h1, x, h2⟩ := linearRet_beside row _ _ v e ha
          subst h1 h2; rfl
        | ok y =>
          rw [ha] at h
          cases hn : normalize d.normalization y with
          | ok z => simp only [bind, Except.bind, Early.body, hn, orReturn] at h; exact nomatch h
          | error f =>
            have hf' := normalize_error hn
            subst hf'
            simp only [bind, Except.bind, Early.body, hn, orReturn] at h
            injection h with h1 h2; injection h2 with h2
            subst h1 h2
            simp [Spec.Beside, hf]
      · rw [ho] at h
        injection h with h1 h2; injection h2 with h2
        subst h1 h2; rfl
    · rw [ht] at h
      injection h with h1 h2; injection h2 with h2
      subst h1 h2; rfl
  | classification =>
    rw [hf] at h
    simp only at h
    by_cases h2 : d.outputs.length = 2
    · rw [if_pos h2] at h
      unfold RegressionDoc.evalBinaryRet at h
      cases hb : binaryTablesRet d.normalization d.outputs row Arith.one ∅ d.tables with
      | ok w => rw [hb] at h; exact nomatch h
      | error r =>
        rw [hb] at h
        simp only [Early.body] at h
        subst h
        rcases binaryTablesRet_beside _ _ _ _ _ _ v e hb with ⟨h1, x, h2⟩ | ⟨h1, -, pre, t, post, ht, hp, ht', hv⟩
        · subst h1 h2; rfl
        · subst h1
          simp only [Spec.Beside, hf, h2, and_self, if_true]
          refine ⟨pre, t, post, ht, hp, ht', ?_⟩
          simp only [RegressionDoc.evaluate, h2, if_true, RegressionDoc.evalBinary]
          rw [← hv]
          cases binaryTables d.normalization d.outputs row Arith.one ∅ pre <;> rfl
    · rw [if_neg h2] at h
      unfold RegressionDoc.evalMulticlassRet at h
      simp only at h
      cases ha : linearAllRet row d.tables with
      | error r =>
        rw [ha] at h
        simp only [bind, Except.bind, Early.body] at h
        subst h
        obtain ⟨h1, x, h2⟩ := linearAllRet_beside row _ v e ha
        subst h1 h2; rfl
      | ok y =>
        rw [ha] at h
        simp only [bind, Except.bind] at h
        cases hm : multiclassRet d.normalization y ∅
            ((d.tables.map fun t => ((outFieldMap d.outputs)[t.targetCategory]?).getD "").zip y) with
        | ok w => rw [hm] at h; exact nomatch h
        | error r =>
          rw [hm] at h
          simp only [Early.body] at h
          subst h
          obtain ⟨h1, h3, -, -⟩ := multiclassRet_beside _ _ _ _ v e hm
          subst h1 h3
          simp [Spec.Beside, h2]

omit [Arith F] [Lib F] [Trans F] in
theorem nilBeside_none (r : Res (Out F)) (v : Out F) (e : Err)
    (h : nilBeside r = .returned v (some e)) : v = none := by
  rcases r with (f | p) | w
  · injection h with h1 h2; exact h1.symm
  · exact nomatch h
  · exact nomatch h

theorem chainSegmentsRet_nil (o : MapOrd) (i : Nat) (lastOut : Out F) (ms : List (EModel F)) (row : Row F)
    (v : Out F) (e : Err) (h : (chainSegmentsRet o i lastOut ms row).ret = .returned v (some e)) :
    v = none := by
  induction ms generalizing i lastOut row with
  | nil => unfold chainSegmentsRet at h; exact nomatch h
  | cons m ms ih =>
    unfold chainSegmentsRet at h
    generalize writeAll ((o.at_ (2 * i)).range (lastOut.getD ∅)) row = w at h
    rcases w with ⟨f | ⟨⟩, row⟩
    · exact nilBeside_none _ v e h
    simp only at h
    generalize EModel.evaluateRet (o.at_ (2 * i + 1)) m row = a at h
    rcases a with ⟨⟨u, _ | f⟩ | p, r, m'⟩
    · exact ih _ _ _ h
    · injection h with h1 h2; exact h1.symm
    · exact nomatch h

theorem selectFirstRet_nil (o : MapOrd) (ms : List (EModel F)) (row : Row F)
    (v : Out F) (e : Err) (h : (selectFirstRet o ms row).ret = .returned v (some e)) :
    v = none := by
  cases ms with
  | nil => unfold selectFirstRet at h; injection h with h1 h2; exact h1.symm
  | cons m ms =>
    unfold selectFirstRet at h
    generalize EModel.evaluateRet o m row = a at h
    rcases a with ⟨⟨u, _ | f⟩ | p, r, m'⟩
    · exact nomatch h
    · injection h with h1 h2; exact h1.symm
    · exact nomatch h

theorem sumSegmentsRet_nil (o : MapOrd) (fn : MiningFunction) (i : Nat) (sm : GoMap F)
    (ms : List (EModel F)) (row : Row F) (v : Out F) (e : Err)
    (h : (sumSegmentsRet o fn i sm ms row).1 = .error (.returned v (some e))) : v = none := by
  induction ms generalizing i sm row with
  | nil => unfold sumSegmentsRet at h; exact nomatch h
  | cons m ms ih =>
    unfold sumSegmentsRet at h
    generalize EModel.evaluateRet (o.at_ (2 * i)) m row = a at h
    rcases a with ⟨⟨u, _ | f⟩ | p, r, m'⟩
    · exact ih _ _ _ h
    · injection h with h; injection h with h1 h2; exact h1.symm
    · injection h with h; exact nomatch h

omit [Arith F] [Lib F] [Trans F] in
theorem body_map_error {α : Type} {a : Early (Out F) α} {f : α → Out F} {v : Out F} {e : Err}
    (h : Early.body (a.map f) = .returned v (some e)) : a = .error (.returned v (some e)) := by
  rcases a with r | y
  · exact congrArg _ h
  · exact nomatch h

/-- C86. Trees and ensembles return nil beside every error: a row a regression model has half filled
never leaves an ensemble. -/
theorem C86_nil_beside (o : MapOrd) (m : EModel F) (row : Row F) (v : Out F) (e : Err)
    (hm : ∀ d, m ≠ .regression d) (h : (m.evaluateRet o row).ret = .returned v (some e)) : v = none := by
  cases m with
  | regression d => exact absurd rfl (hm d)
  | tree m => unfold EModel.evaluateRet at h; exact nilBeside_none _ v e h
  | mining s ms =>
    unfold EModel.evaluateRet at h
    by_cases hv : ¬ s.validated
    · simp only [if_pos hv] at h; injection h with h1 h2; exact h1.symm
    simp only [if_neg hv] at h
    by_cases hc : ¬ s.compiled
    · simp only [if_pos hc] at h; injection h with h1 h2; exact h1.symm
    simp only [if_neg hc] at h
    generalize imputeLoop ((o.at_ 0).range s.defaultValues) row = a at h
    rcases a with ⟨f | ⟨⟩, row⟩
    · exact nilBeside_none _ v e h
    simp only at h
    generalize handleInput s.head.localTransformations row = b at h
    rcases b with ⟨f | ⟨⟩, row⟩
    · exact nilBeside_none _ v e h
    simp only at h
    cases hmm : s.head.method with
    | average => rw [hmm] at h; exact sumSegmentsRet_nil _ _ _ _ _ _ v e (body_map_error h)
    | sum => rw [hmm] at h; exact sumSegmentsRet_nil _ _ _ _ _ _ v e (body_map_error h)
    | modelChain => rw [hmm] at h; exact chainSegmentsRet_nil _ _ _ _ _ v e h
    | selectFirst => rw [hmm] at h; exact selectFirstRet_nil _ _ _ v e h
    | _ => rw [hmm] at h; injection h with h1 h2; exact h1.symm

/-- C86. Keeping both values changes nothing else: with the row beside an error forgotten, this is the
evaluation of every other theorem. -/
theorem C86_collapse (o : MapOrd) (m : EModel F) (row : Row F) :
    (m.evaluateRet o row).ret.collapse = (m.evaluate o row).res ∧
      (m.evaluateRet o row).row = (m.evaluate o row).row ∧
      (m.evaluateRet o row).model = (m.evaluate o row).model :=
  evaluateRet_forgets o m row

omit [Arith F] [Lib F] [Trans F] in
theorem binaryOut_isEmpty (outputs : List OutputField) (cat : String) (pred : F) (out : GoMap (GoVal F)) :
    binaryOut outputs cat pred out = ∅ ↔ out = ∅ ∧ ∀ o ∈ outputs, cat ≠ o.value := by
  unfold binaryOut
  induction outputs generalizing out with
  | nil => simp
  | cons o os ih =>
    rw [List.foldl_cons, ih]
    by_cases hc : cat = o.value
    · simp [hc]
    · simp [hc]

theorem binaryTables_isEmpty (n : Normalization) (outputs : List OutputField) (row : Row F)
    (ts : List (RegressionTable F)) (final : F) (out out' : GoMap (GoVal F))
    (h : binaryTables n outputs row final out ts = .ok out') :
    out' = ∅ ↔ out = ∅ ∧ ∀ t ∈ ts, ∀ o ∈ outputs, t.targetCategory ≠ o.value := by
  induction ts generalizing final out with
  | nil => injection h with h; subst h; simp
  | cons t ts ih =>
    unfold binaryTables at h
    split at h
    all_goals
      obtain ⟨p, -, h⟩ := bind_eq_ok.1 h
      rw [ih _ _ h, binaryOut_isEmpty]
      simp [and_assoc]

/-- C86. A row that is not empty comes back beside an error exactly when a binary classification with an
unsupported method has, before its first table with predictors, a table for the category of an output. -/
theorem C86_half_filled (d : RegressionDoc F) (row : Row F) (v : Out F) (e : Err)
    (h : d.evaluateRet row = .returned v (some e)) :
    (∃ out, v = some out ∧ out ≠ ∅) ↔
      e = .unsupportedNormalization ∧ d.functionName = .classification ∧ d.outputs.length = 2 ∧
        ∃ t ∈ d.tables.takeWhile (·.predictors.isEmpty), ∃ o ∈ d.outputs, t.targetCategory = o.value := by
  have hb := C86_regression d row v e h
  unfold Spec.Beside at hb
  split at hb
  · subst hb; simp
  · subst hb; simp
  · subst hb; simp
  · subst hb; simp
  · split at hb
    case isFalse hc => subst hb; simp; intro h1 h2; exact absurd ⟨h1, h2⟩ hc
    case isTrue hc =>
      obtain ⟨pre, t, post, h1, h2, h3, h4⟩ := hb
      have htw : d.tables.takeWhile (·.predictors.isEmpty) = pre := by
        rw [h1, List.takeWhile_append_of_pos (by intro u hu; simp [h2 u hu])]
        simp [h3]
      rw [htw]
      simp only [RegressionDoc.evaluate, hc.1, hc.2, if_true, RegressionDoc.evalBinary] at h4
      obtain ⟨out, ho, h4⟩ := bind_eq_ok.1 h4
      injection h4 with h4
      subst h4
      have hemp := binaryTables_isEmpty _ _ _ _ _ _ _ ho
      simp only [Option.some.injEq, exists_eq_left', hc.1, hc.2, true_and, ne_eq, hemp, not_forall, not_not]
      simp
  · exact hb.elim

end Beside

section Examples
open Samples Replay

/-- A binary classification whose method `Validate` accepts, but `normalize` does not; the table without
predictors comes first. -/
def lateTable (n : Normalization) : RegressionDoc F64 where
  functionName := .classification
  normalization := n
  tables := [⟨num "0", "no", []⟩, ⟨num "0.25", "yes", [⟨"x", num "2", 1⟩]⟩]
  outputs := [⟨"py", .probability, "yes"⟩, ⟨"pn", .probability, "no"⟩]
  verification := none

/-- What is returned beside an error. -/
def besideErr : Ret (Out F64) → Option (Out F64 × Err)
  | .returned v (some e) => some (v, e)
  | _ => none

open scoped Samples in
-- The document passes `Validate`; its answers are errors with a probability of one beside them.
example : (lateTable .none).validate.1 = .ok () ∧
    besideErr ((lateTable .none).evaluateRet (some (mk [("x", .int .int 1)]))) =
      some (some (mk [("pn", .f64 (num "1"))]), .unsupportedNormalization) ∧
    besideErr ((lateTable .none).evaluateRet (some ∅)) = some (none, .missingTerm "x") ∧
    besideErr ((lateTable .logit).evaluateRet (some (mk [("x", .int .int 1)]))) = none := by
  decide +kernel

/-- The document as the only segment of an ensemble. -/
def wrapped : ModelElem F64 :=
  .mining { head .selectFirst with functionName := .classification } [seg (.regression (lateTable .none))]

-- The ensemble passes on the error and not the row.
example : (newModel [] wrapped []).1.toOption.map (fun m =>
      besideErr (m.evaluateRet .sorted (some (mk [("x", .int .int 1)]))).ret) =
    some (some (none, .unsupportedNormalization)) := by
  decide +kernel

end Examples

end Gopmml.Props
