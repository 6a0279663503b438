import Verif.Proofs.Blame
import Verif.Props.Verify

/-!
# Property C108: what an error says is so
-/

namespace Gopmml
open Spec

variable {F : Type} [Arith F] [Lib F] [Trans F]

omit [Arith F] [Lib F] [Trans F] in
theorem verifyMaps_fault {fs : List (VerificationField F)} {f : Fault} : ∀ {i o : GoMap String},
    verifyMaps fs i o = .error f →
    ∃ v ∈ fs, (∀ col, v.column ≠ "data:" ++ col) ∧ f = .err (.verifyPrefix v.column) := by
  induction fs with
  | nil => intro i o h; simp [verifyMaps] at h
  | cons v vs ih =>
    intro i o h
    rw [verifyMaps] at h
    split at h
    · rename_i hc
      simp only [fail, Except.error.injEq] at h
      refine ⟨v, by simp, fun col he => ?_, h.symm⟩
      rw [columnName_eq.mpr he] at hc
      simp at hc
    · have : ∃ w ∈ vs, (∀ col, w.column ≠ "data:" ++ col) ∧ f = .err (.verifyPrefix w.column) := by
        split at h
        · exact ih h
        · exact ih h
      obtain ⟨w, hw, h2⟩ := this
      exact ⟨w, by simp [hw], h2⟩

omit [Trans F] in
theorem verifyCompare_fault {out : GoMap String} {output : Out F} {f : Fault} : ∀ {es : List (String × GoVal F)},
    verifyCompare out output es = .error f →
    ∃ kv ∈ es, ∃ n, out[kv.1]? = some n ∧
      ((Row.get output n = none ∧ f = .err (.verifyNotProduced n)) ∨
        ∃ p, Row.get output n = some p ∧ ¬ Close kv.2.float64 p.float64 ∧ f = .err (.verifyMismatch kv.1)) := by
  intro es
  induction es with
  | nil => intro h; simp [verifyCompare] at h
  | cons e es ih =>
    intro h
    obtain ⟨k, v⟩ := e
    have step : (∃ kv ∈ es, ∃ n, out[kv.1]? = some n ∧
        ((Row.get output n = none ∧ f = .err (.verifyNotProduced n)) ∨
          ∃ p, Row.get output n = some p ∧ ¬ Close kv.2.float64 p.float64 ∧ f = .err (.verifyMismatch kv.1))) →
        ∃ kv ∈ (k, v) :: es, ∃ n, out[kv.1]? = some n ∧
          ((Row.get output n = none ∧ f = .err (.verifyNotProduced n)) ∨
            ∃ p, Row.get output n = some p ∧ ¬ Close kv.2.float64 p.float64 ∧ f = .err (.verifyMismatch kv.1)) :=
      fun ⟨kv, h1, h2⟩ => ⟨kv, by simp [h1], h2⟩
    rw [verifyCompare] at h
    split at h
    · exact step (ih h)
    · rename_i n hn
      split at h
      · rename_i hp
        simp only [fail, Except.error.injEq] at h
        exact ⟨(k, v), by simp, n, hn, .inl ⟨hp, h.symm⟩⟩
      · rename_i p hp
        dsimp only at h
        split_ifs at h with hc
        · simp only [fail, Except.error.injEq] at h
          exact ⟨(k, v), by simp, n, hn, .inr ⟨p, hp, by unfold Close; rwa [not_not], h.symm⟩⟩
        · exact step (ih h)

theorem verifyRows_fault {m₀ : EModel F} {mv : ModelVerification F} {inp out : GoMap String}
    (hi : ∀ k : String, k ∈ inp ↔ InputColumn mv k) (ho : ∀ k : String, out[k]? = outputField mv k)
    (o : MapOrd) {f : Fault} : ∀ (rows : List (GoMap (GoVal F))), (∀ r ∈ rows, r ∈ mv.rows) → ∀ (i : Nat) {m : EModel F},
    SameModel m₀ m → (verifyRows o inp out i rows m).1 = .error f → Unverified m₀ mv f := by
  intro rows
  induction rows with
  | nil => intro _ i m _ h; simp [verifyRows] at h
  | cons r rows ih =>
    intro hr i m hs h
    have hst := evaluate_stable m₀ m (o.at_ (3 * i + 1))
      (some (verifyInput inp ((o.at_ (3 * i)).range r))) hs
    have hin : InputRow mv r (verifyInput inp ((o.at_ (3 * i)).range r)) := by
      intro k v
      rw [verifyInput_getElem?]
      by_cases hk : k ∈ inp
      · rw [if_pos hk]; simp [(hi k).mp hk]
      · rw [if_neg hk]; simp only [reduceCtorEq, false_iff, not_and]; exact fun h => absurd ((hi k).mpr h) hk
    rw [verifyRows] at h
    cases he : (m.evaluate (o.at_ (3 * i + 1)) (some (verifyInput inp ((o.at_ (3 * i)).range r)))).res with
    | error e =>
      rw [he] at h
      simp only [Except.error.injEq] at h
      subst h
      exact .fails (hr r (by simp)) hin (hst.1 ▸ he)
    | ok output =>
      rw [he] at h
      simp only at h
      rw [hst.1] at he
      cases hc : verifyCompare out output ((o.at_ (3 * i + 2)).range r) with
      | error e =>
        rw [hc] at h
        simp only [Except.error.injEq] at h
        subst h
        obtain ⟨⟨k, v⟩, hkv, n, hn, hcase⟩ := verifyCompare_fault hc
        have hk := (mem_range_iff _ _ _ _).mp hkv
        rw [ho] at hn
        rcases hcase with ⟨h1, rfl⟩ | ⟨p, h1, h2, rfl⟩
        · exact .missing (hr r (by simp)) hin he hk hn h1
        · exact .differs (hr r (by simp)) hin he hk hn h1 h2
      | ok u =>
        rw [hc] at h
        exact ih (fun x hx => hr x (by simp [hx])) (i + 1) hst.2.2 h

namespace Props

variable {dd : List DataField} {e : ModelElem F} {td td' : TD F} {m : EModel F}

/-- **C108**: whatever stops the evaluation of a constructed model, its reason is written in the
document, or missing from the caller's row: the field named is one the row lacks and a regression
reads, the text named is one that cannot be read as the number or value it has to be, and so on
for every kind of error and panic. -/
theorem C108_evaluation (h : newModel dd e td = (.ok m, td')) (o : MapOrd) (row : Row F) {f : Fault}
    (hf : (m.evaluate o row).res = .error f) : Blamed dd e row f :=
  (newModel_honest h o row).2 f hf

/-- **C108**: the caller's row loses no field, whether the evaluation succeeds or not. -/
theorem C108_row_keeps (h : newModel dd e td = (.ok m, td')) (o : MapOrd) (row : Row F) {k : String} {v : GoVal F}
    (hk : row.get k = some v) : ∃ w, (m.evaluate o row).row.get k = some w := by
  cases hw : (m.evaluate o row).row.get k with
  | none => rw [(newModel_honest h o row).1.1 k hw] at hk; simp at hk
  | some w => exact ⟨w, rfl⟩

/-- **C108**: these errors and panics never come out of evaluating a constructed model. -/
theorem C108_never (h : newModel dd e td = (.ok m, td')) (o : MapOrd) (row : Row F) :
    (m.evaluate o row).res ≠ fail .notValidated ∧ (m.evaluate o row).res ≠ fail .notCompiled ∧
    (m.evaluate o row).res ≠ fail .unsupportedMiningFunction ∧
    (∀ x, (m.evaluate o row).res ≠ fail (.unknownFieldType x)) ∧
    (m.evaluate o row).res ≠ fail .invalidModelType ∧
    (m.evaluate o row).res ≠ fail .unsupportedMultipleModelMethod ∧
    (m.evaluate o row).res ≠ fail .unsupportedOutputFeature ∧
    (∀ n, (m.evaluate o row).res ≠ fail (.segmentGroupSize n)) ∧
    (m.evaluate o row).res ≠ panic .typeAssertion := by
  have key : ∀ f, (m.evaluate o row).res = .error f → Blamed dd e row f :=
    fun f hf => C108_evaluation h o row hf
  refine ⟨fun hf => ?_, fun hf => ?_, fun hf => ?_, fun x hf => ?_, fun hf => ?_, fun hf => ?_, fun hf => ?_,
    fun n hf => ?_, fun hf => ?_⟩ <;> cases key _ hf

/-- **C108**: a missing predicate is only complained about if there is one. -/
theorem C108_no_predicate (h : newModel dd e td = (.ok m, td'))
    (hp : ∀ d, IsIn (.tree d) e → AllPreds d.node) (o : MapOrd) (row : Row F) :
    (m.evaluate o row).res ≠ panic .nilFuncCall := by
  intro hf
  cases C108_evaluation h o row hf with
  | noPredicate h1 h2 h3 =>
    obtain ⟨p, hp⟩ := hp _ h1 _ h2
    rw [hp] at h3
    simp at h3

/-- **C108**: a row that holds every field the regressions read is never told that one is missing. -/
theorem C108_no_missing (h : newModel dd e td = (.ok m, td')) (o : MapOrd) {row : Row F}
    (hr : ∀ d, IsIn (.regression d) e → ∀ n ∈ tableFields d, row.get n ≠ none) (n : String) :
    (m.evaluate o row).res ≠ fail (.missingTerm n) := by
  intro hf
  cases C108_evaluation h o row hf with
  | missingTerm h1 h2 h3 => exact hr _ h1 _ h2 h3

/-- **C108**: a document and a row without any of the reasons get an answer. -/
theorem C108_faultless (h : newModel dd e td = (.ok m, td')) (o : MapOrd) {row : Row F} (hn : ∀ f, ¬ Blamed dd e row f) :
    ∃ out, (m.evaluate o row).res = .ok out := by
  cases hres : (m.evaluate o row).res with
  | error f => exact absurd (C108_evaluation h o row hres) (hn f)
  | ok out => exact ⟨out, rfl⟩

omit [Trans F] in
/-- **C108**: whatever NewModel complains about is in the document: the field it does not know is
tested by a tree and declared nowhere around it, the constant it cannot read stands in a test of a
field that has that type, and so on. -/
theorem C108_construction {f : Fault} (h : newModel dd e td = (.error f, td')) :
    ∃ err, f = .err err ∧ Refused dd td e err :=
  (newModel_refused e).1 f h

/-- **C108**: whatever Verify complains about is so: the column has no prefix, or there is a row of
the table that the model does not answer, answers without the field named, or answers with another
number. -/
theorem C108_verify (h : newModel dd e td = (.ok m, td')) {mv : ModelVerification F}
    (hv : verificationOf e = some mv) (o : MapOrd) {f : Fault} (hf : (m.verify o).1 = .error f) :
    Unverified m mv f := by
  rw [verify_eq, constructed_verification h, hv, verifyModel] at hf
  cases hm : verifyMaps mv.fields ∅ ∅ with
  | error g =>
    rw [hm] at hf
    simp only [Except.error.injEq] at hf
    subst hf
    obtain ⟨v, h1, h2, rfl⟩ := verifyMaps_fault hm
    exact .column h1 h2
  | ok p =>
    obtain ⟨inp, out⟩ := p
    rw [hm] at hf
    obtain ⟨h1, h2, h3⟩ := verifyMaps_some hm
    exact verifyRows_fault (by intro k; rw [h2]; simp [InputColumn]) (by intro k; rw [h3]; simp [outputField]) o
      mv.rows (fun r hr => hr) 0 (newModel_same dd e h) hf

section
open Samples Replay

/-- A tree with one derived field. -/
def derived108 (x : Expr F64) : ModelElem F64 :=
  .tree { regTree "1" "10" with localTransformations := [⟨"z", .double, .continuous, x⟩] }

def lookup108 (default : Option String) (dt : DataType) : Expr F64 :=
  .mapValues { fieldColumnPairs := [⟨"c", "data:input"⟩], inlineTables := [], defaultValue := default, dataType := dt }

/-- The model, hidden in an ensemble in an ensemble. -/
def hidden (e : ModelElem F64) : ModelElem F64 :=
  .mining { head .modelChain with targets := [], miningFields := [] }
    [seg (.tree (regTree "1" "2")),
      seg (.mining { head .sum with miningFields := [] } [seg (.tree (regTree "3" "4")), seg e])]

def line108 (fn : MiningFunction) (n : Normalization) (tables outputs : Nat) : ModelElem F64 :=
  .regression {
    functionName := fn
    normalization := n
    tables := List.replicate tables ⟨num "1", "", [⟨"y", num "2", 1⟩]⟩
    outputs := List.replicate outputs ⟨"p", .empty, ""⟩
    verification := none }

def given : List (String × GoVal F64) := [("x", .int .int 7)]

-- C108: every kind of error of an evaluation does occur, here two ensembles deep.
example :
    eval .sorted (hidden (line108 .regression .exp 1 1)) given = some (fail (.missingTerm "y")) ∧
    eval .sorted (hidden (line108 (.other "") .exp 1 1)) given = some (fail .unrecognizedRegressionFunction) ∧
    eval .sorted (hidden (line108 .regression .exp 2 1)) given = some (fail (.tableCount 2)) ∧
    eval .sorted (hidden (line108 .regression .exp 1 0)) given = some (fail (.outputCount 0)) ∧
    eval .sorted (hidden (line108 .regression .none 1 1)) (("y", .nil) :: given) =
      some (fail .unsupportedNormalization) := by
  decide +kernel

example :
    eval .sorted (hidden (derived108 (.const .double "one"))) given = some (fail (.parse "one")) ∧
    eval .sorted (hidden (derived108 (.const .string "one"))) given = some (fail .unsupportedDataType) ∧
    eval .sorted (hidden (derived108 (.apply "sum" [lookup108 (some "1.5") .integer]))) given = some (fail (.parse "1.5")) ∧
    eval .sorted (hidden (derived108 (lookup108 (some "1.5") (.other "date")))) given = some (fail .invalidDataType) ∧
    eval .sorted (hidden (derived108 (lookup108 none .string))) given = some (fail .unexpectedExpression) := by
  decide +kernel

example :
    eval .sorted (hidden (derived108 (.apply "-" [.fieldRef "x"]))) given = some (fail (.arity "-" 1)) ∧
    eval .sorted (hidden (derived108 (.apply "max" [.fieldRef "x"]))) given = some (fail (.unsupportedApply "max")) ∧
    eval .sorted (hidden (derived108 (.other "Discretize"))) given = some (fail .unsupportedTransformation) ∧
    eval .sorted (hidden (.mining (head .selectFirst) [])) given = some (fail .noSegments) ∧
    eval .sorted (hidden (.tree (regTree "1" "ten"))) given = some (fail (.parse "ten")) ∧
    eval .sorted (hidden (.tree { regTree "1" "10" with
      noTrueChildStrategy := .returnNullPrediction
      node := .mk "" "" "0" (num "0") [] [.mk "" "" "1" (num "0") [] [] (some .false_)] (some .true_) })) given =
      some (panic .indexOutOfRange) ∧
    eval .sorted (hidden (.tree { regTree "1" "10" with
      node := .mk "" "" "0" (num "0") [] [.mk "" "" "1" (num "0") [] [] none] (some .true_) })) given =
      some (panic .nilFuncCall) := by
  decide +kernel

/-- What NewModel complains about. -/
def complaint (dd : List DataField) (e : ModelElem F64) : Option Fault :=
  match (newModel dd e []).1 with
  | .error f => some f
  | .ok _ => none

-- C108: and so does every kind of error of a construction.
example :
    complaint Samples.dd (hidden (.tree (regTree "1" "2"))) = none ∧
    complaint Samples.dd (hidden (.other "NeuralNetwork")) = some (.err .invalidModelType) ∧
    complaint Samples.dd (hidden (.tree { regTree "1" "2" with functionName := .other "" })) =
      some (.err .unsupportedMiningFunction) ∧
    complaint [] (hidden (line108 .regression .exp 1 1)) = some (.err (.unknownFieldType "x")) ∧
    complaint [⟨"x", .boolean, []⟩] (hidden (.other "")) = some (.err (.parse "5")) ∧
    complaint [⟨"x", .other "date", []⟩] (hidden (.other "")) = some (.err .invalidDataType) ∧
    complaint Samples.dd (hidden (.mining (head (.other "max")) [])) = some (.err .unsupportedMultipleModelMethod) ∧
    complaint Samples.dd (hidden (.mining (head .sum) [.mk "" [] []])) = some (.err (.segmentGroupSize 0)) ∧
    complaint Samples.dd (hidden (.mining { head .sum with outputs := [⟨"p", .other "predictedValue", ""⟩] } [])) =
      some (.err .unsupportedOutputFeature) := by
  decide +kernel

/-- A tree with a verification table. -/
def checked (hi : String) (fs : List (VerificationField F64)) : ModelElem F64 :=
  .tree { regTree "1" hi with verification := some { table "7" "10" with fields := fs } }

-- C108: and every kind of error of a verification.
example :
    verify .sorted (checked "10" [⟨"x", "x", none⟩]) = some (fail (.verifyPrefix "x")) ∧
    verify .sorted (checked "ten" [⟨"x", "data:x", none⟩]) = some (fail (.parse "ten")) ∧
    verify .sorted (checked "10" [⟨"x", "data:x", none⟩, ⟨"result", "data:expect", some (num "0.01")⟩]) =
      some (fail (.verifyNotProduced "result")) ∧
    verify .sorted (verified "7" "10.0002") = some (fail (.verifyMismatch "expect")) := by
  decide +kernel

/-- Two trees and a regression on `y`, added up. -/
def small : ModelElem F64 :=
  .mining { head .sum with miningFields := [] }
    [seg (.tree (regTree "3" "4")), seg (.tree (regTree "1" "2")), seg (line108 .regression .exp 1 1)]

theorem small_isIn (e' : ModelElem F64) : IsIn e' small ↔
    e' = small ∨ e' = .tree (regTree "3" "4") ∨ e' = .tree (regTree "1" "2") ∨ e' = line108 .regression .exp 1 1 := by
  constructor
  · rintro ⟨lts, h⟩
    cases h with
    | self => exact .inl rfl
    | segment hm h =>
      simp only [seg, List.mem_cons, SegDoc.mk.injEq, List.cons.injEq, and_true, List.not_mem_nil, or_false] at hm
      rcases hm with ⟨-, -, rfl⟩ | ⟨-, -, rfl⟩ | ⟨-, -, rfl⟩ <;> cases h <;> simp
  · rintro (rfl | rfl | rfl | rfl)
    · exact ⟨[], .self⟩
    · exact ⟨_, .segment (by simp [seg]; exact .inl ⟨rfl, rfl⟩) .self⟩
    · exact ⟨_, .segment (by simp [seg]; exact .inr (.inl ⟨rfl, rfl⟩)) .self⟩
    · exact ⟨_, .segment (by simp [seg]; exact .inr (.inr ⟨rfl, rfl⟩)) .self⟩

-- C108: a document that meets the premises, and what the theorem says of it: on rows, the only
-- error is that `y` is missing, and it is only reported when it is.
example : ∃ m td', newModel Samples.dd small [] = (.ok m, td') ∧
    (∀ d, IsIn (.tree d) small → AllPreds d.node) ∧
    ∀ o (row : GoMap (GoVal F64)) f, (m.evaluate o (some row)).res = .error f →
      f = .err (.missingTerm "y") ∧ row["y"]? = none := by
  have hok : (newModel Samples.dd small []).1.isOk = true := by decide +kernel
  rcases hn : newModel Samples.dd small [] with ⟨g | m, td'⟩
  · rw [hn] at hok; simp [Except.isOk, Except.toBool] at hok
  have hp : ∀ d, IsIn (.tree d) small → AllPreds d.node := by
    intro d hd
    have : ∀ lo hi, AllPreds (regTree lo hi).node := by
      intro lo hi n hn
      have : everyNode (fun n => n.pred.isSome) (regTree lo hi).node = true := rfl
      exact Option.isSome_iff_exists.mp (everyNode_sub _ this hn)
    rw [small_isIn] at hd
    rcases hd with hd | hd | hd | hd <;> cases hd <;> exact this _ _
  refine ⟨m, td', rfl, hp, fun o row f hf => ?_⟩
  have hw : ∀ x, ¬ Occurs x small := by
    rintro x ⟨df, ⟨e', he, hd⟩, -⟩
    rw [small_isIn] at he
    rcases he with rfl | rfl | rfl | rfl <;> simp [small, line108, ownDerived, head, regTree] at hd
  have hreg : ∀ d, IsIn (.regression d) small → .regression d = line108 .regression .exp 1 1 := by
    intro d hd
    rw [small_isIn] at hd
    rcases hd with hd | hd | hd | hd <;> cases hd
    rfl
  have hmin : ∀ h segs, IsIn (.mining h segs) small → .mining h segs = small := by
    intro h segs hd
    rw [small_isIn] at hd
    rcases hd with hd | hd | hd | hd <;> cases hd
    rfl
  have htree : ∀ d, IsIn (.tree d) small → d = regTree "3" "4" ∨ d = regTree "1" "2" := by
    intro d hd
    rw [small_isIn] at hd
    rcases hd with hd | hd | hd | hd <;> cases hd
    · exact .inl rfl
    · exact .inr rfl
  cases C108_evaluation hn o _ hf with
  | missingTerm h1 h2 h3 =>
    cases hreg _ h1
    simp [tableFields] at h2
    subst h2
    exact ⟨rfl, h3⟩
  | regressionFunction h1 h2 => cases hreg _ h1; simp at h2
  | tables h1 h2 h3 => cases hreg _ h1; simp at h3
  | outputs h1 h2 h3 => cases hreg _ h1; simp at h3
  | normalization h1 h2 => cases hreg _ h1; simp [strangeNormalization, linkKnown] at h2
  | constant h1 h2 => exact absurd h1 (hw _)
  | constantType h1 h2 => exact absurd h1 (hw _)
  | default h1 h2 h3 h4 => exact absurd h1 (hw _)
  | defaultType h1 h2 h3 => exact absurd h1 (hw _)
  | noInput h1 h2 h3 => exact absurd h1 (hw _)
  | arity h1 h2 h3 => exact absurd h1 (hw _)
  | unknownFunction h1 h2 h3 => exact absurd h1 (hw _)
  | unknownExpression h1 => exact absurd h1 (hw _)
  | noSegments h1 h2 => have := hmin _ _ h1; simp [small] at this
  | label h1 h2 h3 h4 =>
    unfold MayReport at h3
    rcases htree _ h1 with rfl | rfl
    · rw [if_pos (.inl rfl)] at h3
      obtain ⟨n, hn, ht⟩ := h3
      have h5 : everyNode (reportsNumber Samples.dd (regTree "3" "4")) (regTree "3" "4").node = true := by decide +kernel
      have h6 := everyNode_sub _ h5 hn
      have h7 : hasSureChild n = false := by
        have : everyNode (fun n => !hasSureChild n) (regTree "3" "4").node = true := by decide +kernel
        simpa using everyNode_sub _ this hn
      simp [reportsNumber, ht, h7, h4] at h6
    · rw [if_pos (.inl rfl)] at h3
      obtain ⟨n, hn, ht⟩ := h3
      have h5 : everyNode (reportsNumber Samples.dd (regTree "1" "2")) (regTree "1" "2").node = true := by decide +kernel
      have h6 := everyNode_sub _ h5 hn
      have h7 : hasSureChild n = false := by
        have : everyNode (fun n => !hasSureChild n) (regTree "1" "2").node = true := by decide +kernel
        simpa using everyNode_sub _ this hn
      simp [reportsNumber, ht, h7, h4] at h6
  | noLabel h1 h2 h3 =>
    rcases htree _ h1 with rfl | rfl <;> exact absurd h3 (by decide +kernel)
  | noPredicate h1 h2 h3 =>
    obtain ⟨p, hp⟩ := hp _ h1 _ h2
    rw [hp] at h3
    simp at h3
  | noRow h => simp at h

end

end Props

end Gopmml
