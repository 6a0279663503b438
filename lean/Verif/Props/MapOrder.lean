import Verif.Proofs.Order
import Verif.Model.Samples

/-!
# Independence of map iteration order (C25)
-/

namespace Gopmml.Props
open Gopmml Spec

variable {F : Type}

/-- No tree inside uses weightedConfidence or aggregateNodes. -/
inductive NoMixing : EModel F → Prop
  | tree {m : TreeModel F} : m.model.missingValueStrategy ≠ .weightedConfidence →
      m.model.missingValueStrategy ≠ .aggregateNodes → NoMixing (.tree m)
  | regression (d : RegressionDoc F) : NoMixing (.regression d)
  | mining {s : MiningState F} {ms : List (EModel F)} : (∀ m ∈ ms, NoMixing m) → NoMixing (.mining s ms)

variable [Arith F] [Lib F]

theorem tree_order {m : TreeModel F} (h1 : m.model.missingValueStrategy ≠ .weightedConfidence)
    (h2 : m.model.missingValueStrategy ≠ .aggregateNodes) (o o' : MapOrd) (row : Row F) :
    m.evaluate o row = m.evaluate o' row := by
  have : ∀ row n, evalNode m.ctx o row n = evalNode m.ctx o' row n := by
    intro row n
    have hs : m.ctx.strategy = m.model.missingValueStrategy := rfl
    unfold evalNode
    rw [hs]
    cases hm : m.model.missingValueStrategy <;> first | rfl | exact absurd hm h1 | exact absurd hm h2
  unfold TreeModel.evaluate
  simp only [this]

variable [Trans F]

theorem chain_order (ms : List (EModel F)) (ih : ∀ m ∈ ms, ∀ o o' row,
      EModel.evaluate o m row = EModel.evaluate o' m row) :
    ∀ o o' i out row, chainSegments o i out ms row = chainSegments o' i out ms row := by
  induction ms with
  | nil => intro o o' i out row; simp only [chainSegments]
  | cons m ms ihs =>
    intro o o' i out row
    simp only [chainSegments]
    rw [writeAll_order (o.at_ (2 * i)) (o'.at_ (2 * i))]
    rcases writeAll ((o'.at_ (2 * i)).range (out.getD ∅)) row with ⟨e | ⟨⟨⟩⟩, row1⟩
    · rfl
    · simp only
      rw [ih m (by simp) (o.at_ (2 * i + 1)) (o'.at_ (2 * i + 1))]
      cases (EModel.evaluate (o'.at_ (2 * i + 1)) m row1).res with
      | error e => rfl
      | ok out' => simp only [ihs (fun a ha => ih a (by simp [ha])) o o']

theorem sum_order (ms : List (EModel F)) (ih : ∀ m ∈ ms, ∀ o o' row,
      EModel.evaluate o m row = EModel.evaluate o' m row) :
    ∀ o o' fn i sm row, sumSegments o fn i sm ms row = sumSegments o' fn i sm ms row := by
  induction ms with
  | nil => intro o o' fn i sm row; simp only [sumSegments]
  | cons m ms ihs =>
    intro o o' fn i sm row
    simp only [sumSegments]
    rw [ih m (by simp) (o.at_ (2 * i)) (o'.at_ (2 * i))]
    cases (EModel.evaluate (o'.at_ (2 * i)) m row).res with
    | error e => rfl
    | ok out' =>
      simp only
      rw [addScore_order (o.at_ (2 * i + 1)) (o'.at_ (2 * i + 1)),
        ihs (fun a ha => ih a (by simp [ha])) o o']

/-- **C25**: in any state, a model without weightedConfidence and aggregateNodes trees, nested to
any depth, returns the same value or error, leaves the same row and the same evaluator whatever
order maps are visited in. -/
theorem C25_order {m : EModel F} (h : NoMixing m) :
    ∀ o o' row, EModel.evaluate o m row = EModel.evaluate o' m row := by
  induction m using EModel.ind with
  | ht m =>
    intro o o' row
    cases h with
    | tree h1 h2 => simp only [EModel.evaluate, tree_order h1 h2 o o']
  | hr d => intro o o' row; simp only [EModel.evaluate]
  | hm s ms ih =>
    intro o o' row
    cases h with
    | mining h =>
    have ih' : ∀ m ∈ ms, ∀ o o' row, EModel.evaluate o m row = EModel.evaluate o' m row :=
      fun m hm => ih m hm (h m hm)
    simp only [EModel.evaluate]
    rw [imputeLoop_order (o.at_ 0) (o'.at_ 0)]
    rcases imputeLoop ((o'.at_ 0).range s.defaultValues) row with ⟨e | ⟨⟨⟩⟩, row1⟩
    · rfl
    · simp only
      rcases handleInput s.head.localTransformations row1 with ⟨e | ⟨⟨⟩⟩, row2⟩
      · rfl
      · simp only
        rw [sum_order ms ih' (o.at_ 1) (o'.at_ 1), chain_order ms ih' (o.at_ 1) (o'.at_ 1)]
        have hf : sumFinish (o.at_ 2) s = sumFinish (o'.at_ 2) s := by
          funext sm; exact sumFinish_order _ _ s sm
        have ha : ∀ out : GoMap (GoVal F), averageLoop s.segments.length ((o.at_ 3).range out) out =
            averageLoop s.segments.length ((o'.at_ 3).range out) out :=
          averageLoop_order _ _ s.segments.length
        have hsel : selectFirst (o.at_ 1) ms row2 = selectFirst (o'.at_ 1) ms row2 := by
          cases ms with
          | nil => simp only [selectFirst]
          | cons m ms => simp only [selectFirst, ih' m (by simp) (o.at_ 1) (o'.at_ 1)]
        simp only [ha, hf, hsel]

/-- No tree of the document uses weightedConfidence or aggregateNodes. -/
inductive NoMixingDoc : ModelElem F → Prop
  | tree {d : TreeDoc F} : d.missingValueStrategy ≠ .weightedConfidence →
      d.missingValueStrategy ≠ .aggregateNodes → NoMixingDoc (.tree d)
  | regression (d : RegressionDoc F) : NoMixingDoc (.regression d)
  | mining {h : MiningHead F} {segs : List (SegDoc F)} :
      (∀ id ps es e, SegDoc.mk id ps es ∈ segs → e ∈ es → NoMixingDoc e) → NoMixingDoc (.mining h segs)
  | other (k : String) : NoMixingDoc (.other k)

omit [Trans F] in
mutual
theorem newModel_noMixing (dd : List DataField) : (e : ModelElem F) → NoMixingDoc e → {td td' : TD F} →
    {m : EModel F} → newModel dd e td = (.ok m, td') → NoMixing m
  | .tree d, hn, td, td', m, h => by
    cases hn with
    | tree h1 h2 =>
    rw [newModel] at h
    rcases ht : newTreeModel dd td d with ⟨_ | t, td1⟩ <;> rw [ht] at h
    · simp at h
    · simp at h; obtain ⟨rfl, -⟩ := h
      have hm := (newTreeModel_ok ht).2.2.2.2.2.1
      exact .tree (by rw [hm]; exact h1) (by rw [hm]; exact h2)
  | .regression d, _, td, td', m, h => by
    simp [newModel] at h; obtain ⟨rfl, -⟩ := h; exact .regression d
  | .mining hd segs, hn, td, td', m, h => by
    cases hn with
    | mining hn =>
    rw [newModel] at h
    rcases hv : (MiningState.init dd hd segs).validate with ⟨_ | ⟨⟨⟩⟩, s⟩ <;> rw [hv] at h
    · simp at h
    · simp only at h
      rcases hc : compileSegments dd segs (td ++ s.head.localTransformations) with ⟨_ | ⟨⟨⟩⟩, ms, td2⟩ <;>
        rw [hc] at h
      · simp at h
      · simp at h; obtain ⟨rfl, -⟩ := h
        exact .mining (compileSegments_noMixing dd segs hn hc)
  | .other k, _, td, td', m, h => by simp [newModel] at h
theorem compileSegments_noMixing (dd : List DataField) : (segs : List (SegDoc F)) →
    (∀ id ps es e, SegDoc.mk id ps es ∈ segs → e ∈ es → NoMixingDoc e) → {td td' : TD F} →
    {r : Res Unit} → {ms : List (EModel F)} →
    compileSegments dd segs td = (r, ms, td') → ∀ m ∈ ms, NoMixing m
  | [], _, td, td', r, ms, h => by simp [compileSegments] at h; obtain ⟨-, rfl, -⟩ := h; simp
  | .mk id ps [] :: segs, _, td, td', r, ms, h => by
    simp [compileSegments] at h; obtain ⟨-, rfl, -⟩ := h; simp
  | .mk id ps [e] :: segs, hn, td, td', r, ms, h => by
    rw [compileSegments] at h
    rcases hm : newModel dd e td with ⟨_ | m, td1⟩ <;> rw [hm] at h
    · simp at h; obtain ⟨-, rfl, -⟩ := h; simp
    · simp at h; obtain ⟨-, rfl, -⟩ := h
      exact List.forall_mem_cons.mpr ⟨newModel_noMixing dd e (hn id ps [e] e (by simp) (by simp)) hm,
        compileSegments_noMixing dd segs (fun i p es x hx => hn i p es x (by simp [hx])) rfl⟩
  | .mk id ps (e :: e' :: es) :: segs, _, td, td', r, ms, h => by
    simp [compileSegments] at h; obtain ⟨-, rfl, -⟩ := h; simp
end

/-- **C25** (documents): what a model built from a document without those strategies does is
independent of map order. -/
theorem C25_order_document {dd : List DataField} {e : ModelElem F} {td td' : TD F} {m : EModel F}
    (hn : NoMixingDoc e) (h : newModel dd e td = (.ok m, td')) (o o' : MapOrd) (row : Row F) :
    EModel.evaluate o m row = EModel.evaluate o' m row :=
  C25_order (newModel_noMixing dd e hn h) o o' row

section Examples
open Samples Replay

-- C25: the nested sample satisfies the hypotheses.
example : NoMixingDoc nested ∧ (newModel Samples.dd nested []).1.isOk := by
  refine ⟨?_, by decide +kernel⟩
  have ht : ∀ lo hi, NoMixingDoc (.tree (regTree lo hi)) := fun lo hi =>
    .tree (by simp [regTree]) (by simp [regTree])
  refine .mining ?_
  intro id ps es e hs he
  simp only [seg, List.mem_cons, List.not_mem_nil, or_false] at hs
  rcases hs with hs | hs <;> (injection hs with _ _ hs; subst hs; simp at he; subst he)
  · refine .mining ?_
    intro id ps es e hs he
    simp only [seg, List.mem_cons, List.not_mem_nil, or_false] at hs
    rcases hs with hs | hs | hs <;> (injection hs with _ _ hs; subst hs; simp at he; subst he; exact ht _ _)
  · exact ht _ _

/-- Two children with the same record count, labels "a" and "b", both unknown. -/
def tieTree (fn : MiningFunction) (s : MissingValueStrategy) : TreeDoc F64 where
  functionName := fn
  missingValuePenalty := num "1"
  missingValueStrategy := s
  noTrueChildStrategy := .other ""
  localTransformations := []
  miningFields := [active "x", ⟨"y", .target, "", "", none⟩]
  verification := none
  node := .mk "r" "" "1" (num "2") [dist "1" "1" "1", dist "2" "1" "1"] [
    .mk "a" "" "1" (num "1") [dist "1" "1" "1"] [] (some (sp "x" .lessThan "5")),
    .mk "b" "" "2" (num "1") [dist "2" "1" "1"] [] (some (sp "x" .greaterOrEqual "5"))] (some .true_)

/-- **C25** (finding): when two labels tie, the reported label depends on the map order. -/
theorem C25_tie_depends_on_order (s : MissingValueStrategy)
    (hs : s = .weightedConfidence ∨ s = .aggregateNodes) :
    ∃ m td', newModel Samples.dd (.tree (tieTree .classification s)) [] = (.ok m, td') ∧
      ∃ r r', (EModel.evaluate .sorted m (some (mk []))).res = .ok (some r) ∧
        (EModel.evaluate .reversed m (some (mk []))).res = .ok (some r') ∧
        r["y"]? = some (.str "1") ∧ r'["y"]? = some (.str "2") := by
  have key : ∀ s : MissingValueStrategy, s = .weightedConfidence ∨ s = .aggregateNodes →
      (match newModel Samples.dd (.tree (tieTree .classification s)) [] with
      | (.ok m, _) =>
        match (EModel.evaluate .sorted m (some (mk []))).res, (EModel.evaluate .reversed m (some (mk []))).res with
        | .ok (some r), .ok (some r') => decide (r["y"]? = some (.str "1") ∧ r'["y"]? = some (.str "2"))
        | _, _ => false
      | _ => false) = true := by
    rintro s (rfl | rfl) <;> decide +kernel
  have := key s hs
  rcases hm : newModel Samples.dd (.tree (tieTree .classification s)) [] with ⟨_ | m, td'⟩ <;> rw [hm] at this
  · simp at this
  · simp only at this
    rcases h1 : (EModel.evaluate .sorted m (some (mk []))).res with _ | _ | r <;> rw [h1] at this
    · simp at this
    · simp at this
    · rcases h2 : (EModel.evaluate .reversed m (some (mk []))).res with _ | _ | r' <;> rw [h2] at this
      · simp at this
      · simp at this
      · simp only [decide_eq_true_eq] at this
        exact ⟨m, td', rfl, r, r', h1, h2, this.1, this.2⟩

/-- **C25** (finding): a regression tree under these strategies reports the value of whichever
label the map yields first. -/
theorem C25_regression_depends_on_order (s : MissingValueStrategy)
    (hs : s = .weightedConfidence ∨ s = .aggregateNodes) :
    (match newModel Samples.dd (.tree (tieTree .regression s)) [] with
      | (.ok m, _) => decide ((EModel.evaluate .sorted m (some (mk []))).res =
            .ok (some (mk [("score", .f64 (num "1"))])) ∧
          (EModel.evaluate .reversed m (some (mk []))).res =
            .ok (some (mk [("score", .f64 (num "2"))])))
      | _ => false) = true := by
  rcases hs with rfl | rfl <;> decide +kernel

end Examples

end Gopmml.Props
