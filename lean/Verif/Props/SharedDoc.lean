import Verif.Proofs.SharedWorld
import Verif.Props.Shared

/-!
# C89: building and evaluating at the same time, from one document
-/

namespace Gopmml.Props
open Spec Replay Samples

section
variable {F : Type} [Arith F] [Trans F] [Lib F] {ι : Type} [DecidableEq ι]

/-- **C89**: when nothing else runs, the steps of a call of `NewModel` are those of `newModel`; and when the
constants in the document are those of the evaluator, the steps of a call of `Evaluate` are those of
`EModel.evaluate`. -/
theorem C89_alone (td : TD F) (σ : Consts F) (c : Cell) :
    (∀ (dd : List DataField) (e : ModelElem F),
      ((e.docProg c dd).run td σ).1 = (newModel dd e td).1 ∧
        ((e.docProg c dd).run td σ).2.1 = (newModel dd e td).2) ∧
      ∀ (m : EModel F) (o : MapOrd) (row : Row F), (∀ x ∈ sitesModel c m, σ x.1 = x.2.raw) →
        (EModel.lookProg c o m row).run td σ =
          (((EModel.evaluate o m row).res, (EModel.evaluate o m row).row), td, σ) :=
  ⟨fun dd e => docProg_run dd e c td σ, fun m o row h => lookProg_run m c o row td h⟩

/-- **C89**: goroutines may build models of one document, again and again, and evaluate everything that
has been built, in any order and at the same time. If no field has two types, every call of `Evaluate` that
returns does what it would do had the model been built alone, from an untouched document: with any dictionary
`td'` that gives the fields the same types. Whatever the constants in the document were at the beginning. -/
theorem C89_any_execution {ty : String → DataType} {dd : List DataField} {es : Nat → ModelElem F} {td : TD F}
    (hw : ∀ n, WellTyped ty dd td (es n)) {σ : Consts F} {w : World F ι} (hr : WorldReach dd es (.init td σ) w)
    {a : Answered F} (ha : a ∈ w.answered) {td' td'' : TD F} (ht : ∀ f ∈ td', f.dataType = ty f.name)
    {m : EModel F} (hm : newModel dd (es a.model) td' = (.ok m, td'')) :
    a.res = (EModel.evaluate a.ord m a.row).res ∧ a.after = (EModel.evaluate a.ord m a.row).row := by
  have hok := world_reach (hw 0).dd (fun n => (hw n).doc) (hw 0).td hr
  obtain ⟨m', h1, h2, h3⟩ := hok.answered a ha
  have h4 := newModel_builtFrom (hw 0).dd (hw a.model).doc ht hm
  obtain ⟨h5, h6⟩ := built_alike (hw 0).dd h1 h4 a.ord a.row
  exact ⟨h2.trans h5, h3.trans h6⟩

/-- **C89**: in particular, two calls with the same model, row and map order answer the same, and leave the
same row behind, in any two executions. -/
theorem C89_repeatable {ty : String → DataType} {dd : List DataField} {es : Nat → ModelElem F} {td td' : TD F}
    (hw : ∀ n, WellTyped ty dd td (es n)) (ht : ∀ f ∈ td', f.dataType = ty f.name) {σ σ' : Consts F}
    {w w' : World F ι} (hr : WorldReach dd es (.init td σ) w) (hr' : WorldReach dd es (.init td' σ') w')
    {a b : Answered F} (ha : a ∈ w.answered) (hb : b ∈ w'.answered) (hm : a.model = b.model) (ho : a.ord = b.ord)
    (hrow : a.row = b.row) : a = b := by
  obtain ⟨m, h1, h2, h3⟩ := (world_reach (hw 0).dd (fun n => (hw n).doc) (hw 0).td hr).answered a ha
  obtain ⟨m', h4, h5, h6⟩ := (world_reach (hw 0).dd (fun n => (hw n).doc) ht hr').answered b hb
  rw [← hm] at h4
  rw [← ho, ← hrow] at h5 h6
  obtain ⟨h7, h8⟩ := built_alike (hw 0).dd h1 h4 a.ord a.row
  obtain ⟨an, ao, ar, aa, aa'⟩ := a
  obtain ⟨bn, bo, br, ba, ba'⟩ := b
  simp only at hm ho hrow h2 h3 h5 h6 h7 h8
  rw [Answered.mk.injEq]
  exact ⟨hm, ho, hrow, h2.trans (h7.trans h5.symm), h3.trans (h8.trans h6.symm)⟩

/-- **C89**: every evaluator built in such an execution is one that answers like the evaluator built alone. -/
theorem C89_evaluators {ty : String → DataType} {dd : List DataField} {es : Nat → ModelElem F} {td : TD F}
    (hw : ∀ n, WellTyped ty dd td (es n)) {σ : Consts F} {w : World F ι} (hr : WorldReach dd es (.init td σ) w)
    {n : Nat} {m : EModel F} (hb : (n, m) ∈ w.built) {td' td'' : TD F} (ht : ∀ f ∈ td', f.dataType = ty f.name)
    {m' : EModel F} (hm : newModel dd (es n) td' = (.ok m', td'')) (o : MapOrd) (row : Row F) :
    (EModel.evaluate o m row).res = (EModel.evaluate o m' row).res ∧
      (EModel.evaluate o m row).row = (EModel.evaluate o m' row).row :=
  built_alike (hw 0).dd ((world_reach (hw 0).dd (fun n => (hw n).doc) (hw 0).td hr).built _ hb).1
    (newModel_builtFrom (hw 0).dd (hw n).doc ht hm) o row

end

/-! ## Executions -/

/-- One call; evaluators are numbered from the last one that was built. -/
inductive Request (F : Type) where
  | newModel (n : Nat)
  | evaluate (k : Nat) (row : Row F)

section
variable {F : Type} [Arith F] [Trans F] [Lib F]

/-- Calls one after the other. -/
def serial (dd : List DataField) (es : Nat → ModelElem F) : List (Request F) → World F Unit → Option (World F Unit)
  | [], w => some w
  | .newModel n :: cs, w =>
    match ((es n).docProg [n] dd).run w.dict w.consts with
    | (.ok m, td, σ) => serial dd es cs { w with dict := td, consts := σ, built := (n, m) :: w.built }
    | (.error _, _, _) => none
  | .evaluate k row :: cs, w =>
    match w.built[k]? with
    | some (n, m) =>
      match (EModel.lookProg [n] .sorted m row).run w.dict w.consts with
      | ((a, row'), td, σ) =>
        serial dd es cs { w with
          dict := td, consts := σ, answered := ⟨n, .sorted, row, a, row'⟩ :: w.answered }
    | none => none

/-- **C89**: one call after the other is a possible execution. -/
theorem C89_serial (dd : List DataField) (es : Nat → ModelElem F) (cs : List (Request F)) :
    ∀ {w w' : World F Unit}, w.workers () = .idle → serial dd es cs w = some w' → WorldReach dd es w w' := by
  induction cs with
  | nil => intro w w' _ h; simp only [serial, Option.some.injEq] at h; rw [← h]; exact .refl
  | cons c cs ih =>
    intro w w' hi h
    cases c with
    | newModel n =>
      rw [serial] at h
      rcases hr : ((es n).docProg [n] dd).run w.dict w.consts with ⟨_ | m, td, σ⟩
      · rw [hr] at h; cases h
      · rw [hr] at h
        exact world_trans (reach_build hi hr) (ih hi h)
    | evaluate k row =>
      rw [serial] at h
      cases hk : w.built[k]? with
      | none => rw [hk] at h; cases h
      | some x =>
        obtain ⟨n, m⟩ := x
        rw [hk] at h
        simp only at h
        rcases hr : (EModel.lookProg [n] .sorted m row).run w.dict w.consts with ⟨⟨a, row'⟩, td, σ⟩
        rw [hr] at h
        exact world_trans (reach_evaluate hi (List.mem_of_getElem? hk) hr) (ih hi h)

/-- The answers, last first. -/
def answers (dd : List DataField) (e : ModelElem F) (cs : List (Request F)) : Option (List (Res (Out F))) :=
  (serial dd (fun _ => e) cs (.init [] fun _ => .nil)).map fun w => w.answered.map (·.res)

end

section
open scoped Samples

/-- **C89**: the condition is needed. When a field has two types (`clash .double`), the answer of an evaluator
is another one, a panic, after the document has been built a second time. -/
theorem C89_two_types : ∃ w : World F64 Unit,
    WorldReach clashDD (fun _ => clash .double) (.init [] fun _ => .nil) w ∧
      w.answered.map (fun a => (a.model, a.res)) =
        [(0, panic .typeAssertion), (0, .ok (some (mk [("score", .f64 (num "1"))])))] ∧
      ∃ row, ∀ a ∈ w.answered, a.row = row := by
  have h : (serial clashDD (fun _ => clash .double)
      [.newModel 0, .evaluate 0 (some (mk [("n", .int .int64 5)])), .newModel 0, .evaluate 1 (some (mk [("n", .int .int64 5)]))]
      (.init [] fun _ => .nil)).map (fun w => (w.answered.map (fun a => (a.model, a.res)),
        w.answered.map (·.row))) =
      some ([(0, panic .typeAssertion), (0, .ok (some (mk [("score", .f64 (num "1"))])))],
        [some (mk [("n", .int .int64 5)]), some (mk [("n", .int .int64 5)])]) := by
    decide +kernel
  obtain ⟨w, hw, h⟩ := Option.map_eq_some_iff.mp h
  rw [Prod.mk.injEq] at h
  refine ⟨w, C89_serial _ _ _ rfl hw, h.1, some (mk [("n", .int .int64 5)]), fun a ha => ?_⟩
  have : a.row ∈ w.answered.map (·.row) := List.mem_map_of_mem ha
  rw [h.2] at this
  simpa using this

-- C89: with one type (the hypotheses hold: see C61) all answers are the same.
example : answers clashDD (clash .integer)
    [.newModel 0, .evaluate 0 (some (mk [("n", .int .int64 5)])), .newModel 0, .evaluate 1 (some (mk [("n", .int .int64 5)])),
      .evaluate 0 (some (mk [("n", .int .int64 5)]))] =
    some [.ok (some (mk [("score", .f64 (num "1"))])), .ok (some (mk [("score", .f64 (num "1"))])),
      .ok (some (mk [("score", .f64 (num "1"))]))] := by
  decide +kernel

end

end Gopmml.Props
