import Verif.Model.SharedRow
import Verif.Spec.SharedRow
import Verif.Proofs.Document

/-!
# Calls as programs over a shared row
-/

namespace Gopmml

variable {F α β : Type}

namespace RowProg

theorem run_bind (p : RowProg F α) (f : α → RowProg F β) (row : Row F) :
    (p.bind f).run row = (f (p.run row).1).run (p.run row).2 := by
  induction p generalizing row with
  | done a => rfl
  | look k ih => exact ih row row
  | write key v k ih => exact ih _

theorem writes_bind (p : RowProg F α) (f : α → RowProg F β) (row : Row F) :
    (p.bind f).writes row = p.writes row ++ (f (p.run row).1).writes (p.run row).2 := by
  induction p generalizing row with
  | done a => rfl
  | look k ih => exact ih row row
  | write key v k ih => simp only [bind, writes, run, List.cons_append, ih]

theorem run_of_quiet {p : RowProg F α} {row : Row F} (h : p.writes row = []) : (p.run row).2 = row := by
  induction p generalizing row with
  | done a => rfl
  | look k ih => exact ih row h
  | write key v k ih => simp [writes] at h

theorem run_andThen (p : RowProg F (Res α)) (f : α → RowProg F (Res β)) (row : Row F) :
    (p.andThen f).run row = match (p.run row).1 with
      | .error e => (.error e, (p.run row).2)
      | .ok a => (f a).run (p.run row).2 := by
  rw [andThen, run_bind]
  cases (p.run row).1 <;> rfl

theorem writes_andThen (p : RowProg F (Res α)) (f : α → RowProg F (Res β)) (row : Row F) :
    (p.andThen f).writes row = p.writes row ++ match (p.run row).1 with
      | .error _ => []
      | .ok a => (f a).writes (p.run row).2 := by
  rw [andThen, writes_bind]
  cases (p.run row).1 <;> rfl

theorem run_set (key : String) (v : GoVal F) (k : RowProg F (Res α)) (row : Row F) :
    (RowProg.set key v k).run row = match row.set key v with
      | .error e => (.error e, row)
      | .ok row' => k.run row' := by
  cases row <;> rfl

end RowProg

theorem writeProg_run (es : List (String × GoVal F)) (row : Row F) : (writeProg es).run row = writeAll es row := by
  induction es generalizing row with
  | nil => rfl
  | cons e es ih =>
    obtain ⟨k, v⟩ := e
    rw [writeProg, RowProg.run_set, writeAll]
    cases row.set k v with
    | error e => rfl
    | ok row' => exact ih row'

theorem imputeProg_run (es : List (String × GoVal F)) (row : Row F) :
    (imputeProg es).run row = imputeLoop es row := by
  induction es generalizing row with
  | nil => rfl
  | cons e es ih =>
    obtain ⟨k, v⟩ := e
    rw [imputeProg, RowProg.run, imputeLoop]
    cases row.getD k with
    | nil =>
      simp only
      rw [RowProg.run_set]
      cases row.set k v with
      | error e => rfl
      | ok row' => exact ih row'
    | _ => exact ih row

variable [Arith F] [Lib F]

theorem inputProg_run (dfs : List (DerivedField F)) (row : Row F) :
    (inputProg dfs).run row = handleInput dfs row := by
  induction dfs generalizing row with
  | nil => rfl
  | cons df dfs ih =>
    rw [inputProg, RowProg.run, handleInput]
    cases handleExpression row df.expr with
    | error e => rfl
    | ok v =>
      simp only
      rw [RowProg.run_set]
      cases row.set df.name (storeValue df.opType v) with
      | error e => rfl
      | ok row' => exact ih row'

theorem treeRowProg_run (o : MapOrd) (m : TreeModel F) (row : Row F) :
    (m.rowProg o).run row = ((m.evaluate o row).res, (m.evaluate o row).row) := by
  unfold TreeModel.rowProg TreeModel.evaluate
  by_cases hv : m.validated = true
  swap
  · rw [if_pos hv, if_pos hv]; rfl
  by_cases hc : m.compiled = true
  swap
  · rw [if_neg (not_not.mpr hv), if_pos hc, if_neg (not_not.mpr hv), if_pos hc]; rfl
  rw [if_neg (not_not.mpr hv), if_neg (not_not.mpr hc), if_neg (not_not.mpr hv), if_neg (not_not.mpr hc)]
  rw [RowProg.run_andThen, inputProg_run]
  rcases handleInput m.model.localTransformations row with ⟨_ | ⟨⟨⟩⟩, row'⟩
  · rfl
  · simp only [RowProg.run]
    rcases evalNode m.ctx o row' m.root with _ | ⟨scores, result⟩ <;> rfl

variable [Trans F]

mutual
/-- Run alone, a program is the evaluation function. -/
theorem rowProg_run : (m : EModel F) → (o : MapOrd) → (row : Row F) →
    (EModel.rowProg o m).run row = ((EModel.evaluate o m row).res, (EModel.evaluate o m row).row)
  | .tree m, o, row => by rw [EModel.rowProg, EModel.evaluate]; exact treeRowProg_run o m row
  | .regression d, o, row => by rw [EModel.rowProg, EModel.evaluate]; rfl
  | .mining s ms, o, row => by
    rw [EModel.rowProg, EModel.evaluate]
    by_cases hv : s.validated = true
    swap
    · rw [if_pos hv, if_pos hv]; rfl
    by_cases hc : s.compiled = true
    swap
    · rw [if_neg (not_not.mpr hv), if_pos hc, if_neg (not_not.mpr hv), if_pos hc]; rfl
    rw [if_neg (not_not.mpr hv), if_neg (not_not.mpr hc), if_neg (not_not.mpr hv), if_neg (not_not.mpr hc)]
    rw [RowProg.run_andThen, imputeProg_run]
    rcases imputeLoop ((o.at_ 0).range s.defaultValues) row with ⟨_ | ⟨⟨⟩⟩, row1⟩
    · rfl
    simp only
    rw [RowProg.run_andThen, inputProg_run]
    rcases handleInput s.head.localTransformations row1 with ⟨_ | ⟨⟨⟩⟩, row2⟩
    · rfl
    simp only
    cases s.head.method with
    | average =>
      simp only
      rw [RowProg.run_andThen, sumRowProg_run ms]
      cases (sumSegments (o.at_ 1) s.head.functionName 0 (initScores s) ms row2).res <;> rfl
    | sum =>
      simp only
      rw [RowProg.run_andThen, sumRowProg_run ms]
      cases (sumSegments (o.at_ 1) s.head.functionName 0 (initScores s) ms row2).res <;> rfl
    | modelChain => simp only; rw [chainRowProg_run ms]
    | selectFirst => simp only; rw [firstRowProg_run ms]
    | _ => rfl
theorem firstRowProg_run : (ms : List (EModel F)) → (o : MapOrd) → (row : Row F) →
    (firstRowProg o ms).run row = ((selectFirst o ms row).res, (selectFirst o ms row).row)
  | [], o, row => by simp only [firstRowProg, selectFirst]; rfl
  | m :: ms, o, row => by simp only [firstRowProg, selectFirst]; rw [rowProg_run m]
theorem chainRowProg_run : (ms : List (EModel F)) → (o : MapOrd) → (i : Nat) → (last : Out F) → (row : Row F) →
    (chainRowProg o i last ms).run row = ((chainSegments o i last ms row).res, (chainSegments o i last ms row).row)
  | [], o, i, last, row => by simp only [chainRowProg, chainSegments]; rfl
  | m :: ms, o, i, last, row => by
    rw [chainRowProg, chainSegments, RowProg.run_andThen, writeProg_run]
    rcases writeAll ((o.at_ (2 * i)).range (last.getD ∅)) row with ⟨_ | ⟨⟨⟩⟩, row1⟩
    · rfl
    simp only
    rw [RowProg.run_andThen, rowProg_run m]
    cases (EModel.evaluate (o.at_ (2 * i + 1)) m row1).res with
    | error e => rfl
    | ok out => simp only; rw [chainRowProg_run ms]
theorem sumRowProg_run : (ms : List (EModel F)) → (o : MapOrd) → (fn : MiningFunction) → (i : Nat) → (sm : GoMap F) →
    (row : Row F) →
    (sumRowProg o fn i sm ms).run row = ((sumSegments o fn i sm ms row).res, (sumSegments o fn i sm ms row).row)
  | [], o, fn, i, sm, row => by simp only [sumRowProg, sumSegments]; rfl
  | m :: ms, o, fn, i, sm, row => by
    rw [sumRowProg, sumSegments, RowProg.run_andThen, rowProg_run m]
    cases (EModel.evaluate (o.at_ (2 * i)) m row).res with
    | error e => rfl
    | ok out => simp only; rw [sumRowProg_run ms]
end

/-! ## Goroutines -/

section
omit [Arith F] [Lib F] [Trans F]
variable {ι : Type} [DecidableEq ι]

theorem RowReach.trans {s t u : RowSys ι F α} (h : RowReach s t) (h' : RowReach t u) : RowReach s u := by
  induction h' with
  | refl => exact h
  | step _ hs ih => exact .step ih hs

/-- What is left of a quiet call. -/
def RowThread.prog : RowThread F α → RowProg F α
  | .between p => p
  | .inside p => p

theorem setThread_eq (s : RowSys ι F α) (i j : ι) (g : RowThread F α) :
    (s.setThread i g).threads j = if j = i then g else s.threads j := by
  simp [RowSys.setThread, Function.update_apply]

/-- Calls that write nothing when alone write nothing together. -/
theorem quiet_reach {row : Row F} {ps : ι → RowProg F α} (hq : ∀ i, (ps i).writes row = []) {s : RowSys ι F α}
    (hr : RowReach (RowSys.init row ps) s) :
    s.row = row ∧ ∀ i, (s.threads i).prog.writes row = [] ∧ (s.threads i).prog.run row = (ps i).run row := by
  induction hr with
  | refl => exact ⟨rfl, fun i => ⟨hq i, rfl⟩⟩
  | @step t u hr hs ih =>
    obtain ⟨h1, h2⟩ := ih
    cases hs with
    | @enter i p hp hd =>
      refine ⟨h1, fun j => ?_⟩
      rw [setThread_eq]
      split_ifs with hj
      · subst hj
        have := h2 j
        rw [hp] at this
        exact this
      · exact h2 j
    | @leaveLook i k hp =>
      refine ⟨h1, fun j => ?_⟩
      rw [setThread_eq]
      split_ifs with hj
      · subst hj
        have := h2 j
        rw [hp] at this
        rw [h1]
        exact this
      · exact h2 j
    | @leaveWrite i key v k hp =>
      have := (h2 i).1
      rw [hp] at this
      simp [RowThread.prog, RowProg.writes] at this

/-- A call that writes can come to its first write without anything having been written. -/
theorem to_first_write {i : ι} : (p : RowProg F α) → ∀ (s : RowSys ι F α), p.writes s.row ≠ [] →
    s.threads i = .between p → ∃ key v k, RowReach s (s.setThread i (.inside (.write key v k)))
  | .done a, s, h, _ => absurd rfl h
  | .look k, s, h, hi => by
    have e1 : RowReach s (s.setThread i (.inside (.look k))) := .step .refl (.enter hi (by simp))
    have e2 : RowReach s ((s.setThread i (.inside (.look k))).setThread i (.between (k s.row))) :=
      .step e1 (.leaveLook (s := s.setThread i (.inside (.look k))) (by rw [setThread_eq, if_pos rfl]))
    obtain ⟨key, v, k', h3⟩ := to_first_write (k s.row) ((s.setThread i (.inside (.look k))).setThread i (.between (k s.row)))
      h (by rw [setThread_eq, if_pos rfl])
    refine ⟨key, v, k', e2.trans ?_⟩
    simpa [RowSys.setThread, Function.update_idem] using h3
  | .write key v k, s, h, hi => ⟨key, v, k, .step .refl (.enter hi (by simp))⟩

end
end Gopmml
