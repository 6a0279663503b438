import Verif.Proofs.TreeEval
import Verif.Proofs.Induct
import Verif.Model.Samples

/-!
# History independence and life cycle (C26, C28)
-/

namespace Gopmml
open Spec

variable {F : Type}

/-- Two models that differ only in the (correct) contents of their key caches. -/
inductive SameModel : EModel F → EModel F → Prop
  | tree {m m' : TreeModel F} : KeysOk m.outKeys → KeysOk m'.outKeys →
      m' = { m with outKeys := m'.outKeys } → SameModel (.tree m) (.tree m')
  | regression (d : RegressionDoc F) : SameModel (.regression d) (.regression d)
  | mining {s : MiningState F} {ms ms' : List (EModel F)} : List.Forall₂ SameModel ms ms' →
      SameModel (.mining s ms) (.mining s ms')

variable [Arith F] [Lib F]

theorem tree_sameModel {m m' : TreeModel F} (hk : KeysOk m.outKeys) (hk' : KeysOk m'.outKeys)
    (hm : m' = { m with outKeys := m'.outKeys }) (o : MapOrd) (row : Row F) :
    (m'.evaluate o row).res = (m.evaluate o row).res ∧
    (m'.evaluate o row).row = (m.evaluate o row).row ∧
    SameModel (.tree m) (.tree (m'.evaluate o row).model) := by
  have hv : m'.validated = m.validated := by rw [hm]
  have hc : m'.compiled = m.compiled := by rw [hm]
  have hx : m'.ctx = m.ctx := by rw [hm]; rfl
  have hd : m'.model = m.model := by rw [hm]
  have hr : m'.root = m.root := by rw [hm]
  have ht : m'.targetField = m.targetField := by rw [hm]
  by_cases hval : m.validated = true
  · by_cases hcom : m.compiled = true
    · obtain ⟨a1, a2, -⟩ := evaluate_eq hval hcom hk o row
      obtain ⟨b1, b2, ks, hks, b3⟩ := evaluate_eq (hv.trans hval) (hc.trans hcom) hk' o row
      refine ⟨?_, ?_, ?_⟩
      · rw [b2, a2, hx, hd, hr, ht]
      · rw [b1, a1, hd]
      · rw [b3]
        refine .tree hk hks ?_
        rw [hm]
    · have e1 : m.evaluate o row = ⟨fail .notCompiled, row, m⟩ := by
        unfold TreeModel.evaluate; rw [if_neg (by simp [hval]), if_pos hcom]
      have e2 : m'.evaluate o row = ⟨fail .notCompiled, row, m'⟩ := by
        unfold TreeModel.evaluate; rw [if_neg (by simp [hv, hval]), if_pos (by rw [hc]; exact hcom)]
      rw [e1, e2]
      exact ⟨rfl, rfl, .tree hk hk' hm⟩
  · have e1 : m.evaluate o row = ⟨fail .notValidated, row, m⟩ := by
      unfold TreeModel.evaluate; rw [if_pos hval]
    have e2 : m'.evaluate o row = ⟨fail .notValidated, row, m'⟩ := by
      unfold TreeModel.evaluate; rw [if_pos (by rw [hv]; exact hval)]
    rw [e1, e2]
    exact ⟨rfl, rfl, .tree hk hk' hm⟩

variable [Trans F]

/-- What `evaluate` must satisfy on `m`. -/
def Stable (m : EModel F) : Prop := ∀ m' o row, SameModel m m' →
  (EModel.evaluate o m' row).res = (EModel.evaluate o m row).res ∧
  (EModel.evaluate o m' row).row = (EModel.evaluate o m row).row ∧
  SameModel m (EModel.evaluate o m' row).model

theorem chain_stable (ms : List (EModel F)) (ih : ∀ m ∈ ms, Stable m) :
    ∀ ms' o i out row, List.Forall₂ SameModel ms ms' →
      (chainSegments o i out ms' row).res = (chainSegments o i out ms row).res ∧
      (chainSegments o i out ms' row).row = (chainSegments o i out ms row).row ∧
      List.Forall₂ SameModel ms (chainSegments o i out ms' row).model := by
  induction ms with
  | nil => rintro _ o i out row ⟨⟩; simp [chainSegments]
  | cons m ms ihs =>
    rintro _ o i out row (_ | ⟨h, hs⟩)
    rename_i m' ms'
    simp only [chainSegments]
    rcases writeAll ((o.at_ (2 * i)).range (out.getD ∅)) row with ⟨e | ⟨⟨⟩⟩, row1⟩
    · exact ⟨rfl, rfl, .cons h hs⟩
    · obtain ⟨h1, h2, h3⟩ := ih m (by simp) m' (o.at_ (2 * i + 1)) row1 h
      simp only [h1, h2]
      cases (EModel.evaluate (o.at_ (2 * i + 1)) m row1).res with
      | error e => exact ⟨rfl, rfl, .cons h3 hs⟩
      | ok out' =>
        obtain ⟨g1, g2, g3⟩ := ihs (fun a ha => ih a (by simp [ha])) ms' o (i + 1) out'
          (EModel.evaluate (o.at_ (2 * i + 1)) m row1).row hs
        exact ⟨g1, g2, .cons h3 g3⟩

theorem sum_stable (ms : List (EModel F)) (ih : ∀ m ∈ ms, Stable m) :
    ∀ ms' o fn i sm row, List.Forall₂ SameModel ms ms' →
      (sumSegments o fn i sm ms' row).res = (sumSegments o fn i sm ms row).res ∧
      (sumSegments o fn i sm ms' row).row = (sumSegments o fn i sm ms row).row ∧
      List.Forall₂ SameModel ms (sumSegments o fn i sm ms' row).model := by
  induction ms with
  | nil => rintro _ o fn i sm row ⟨⟩; simp [sumSegments]
  | cons m ms ihs =>
    rintro _ o fn i sm row (_ | ⟨h, hs⟩)
    rename_i m' ms'
    simp only [sumSegments]
    obtain ⟨h1, h2, h3⟩ := ih m (by simp) m' (o.at_ (2 * i)) row h
    simp only [h1, h2]
    cases (EModel.evaluate (o.at_ (2 * i)) m row).res with
    | error e => exact ⟨rfl, rfl, .cons h3 hs⟩
    | ok out' =>
      obtain ⟨g1, g2, g3⟩ := ihs (fun a ha => ih a (by simp [ha])) ms' o fn (i + 1)
        (((o.at_ (2 * i + 1)).range sm).foldl (addScore fn out') sm)
        (EModel.evaluate (o.at_ (2 * i)) m row).row hs
      exact ⟨g1, g2, .cons h3 g3⟩

theorem evaluate_stable (m : EModel F) : Stable m := by
  induction m using EModel.ind with
  | ht m =>
    rintro _ o row (⟨hk, hk', hm⟩)
    simp only [EModel.evaluate]
    exact tree_sameModel hk hk' hm o row
  | hr d => rintro _ o row ⟨⟩; simp only [EModel.evaluate]; exact ⟨trivial, trivial, .regression d⟩
  | hm s ms ih =>
    rintro _ o row (_ | _ | hs)
    rename_i ms'
    simp only [EModel.evaluate]
    by_cases hv : s.validated = true
    · by_cases hc : s.compiled = true
      · rw [if_neg (by simp [hv]), if_neg (by simp [hc]), if_neg (by simp [hv]), if_neg (by simp [hc])]
        rcases imputeLoop ((o.at_ 0).range s.defaultValues) row with ⟨e | ⟨⟨⟩⟩, row1⟩
        · exact ⟨rfl, rfl, .mining hs⟩
        · simp only
          rcases handleInput s.head.localTransformations row1 with ⟨e | ⟨⟨⟩⟩, row2⟩
          · exact ⟨rfl, rfl, .mining hs⟩
          · simp only
            cases s.head.method with
            | average =>
              obtain ⟨g1, g2, g3⟩ := sum_stable ms ih ms' (o.at_ 1) s.head.functionName 0 (initScores s) row2 hs
              exact ⟨by simp only [g1], g2, .mining g3⟩
            | sum =>
              obtain ⟨g1, g2, g3⟩ := sum_stable ms ih ms' (o.at_ 1) s.head.functionName 0 (initScores s) row2 hs
              exact ⟨by simp only [g1], g2, .mining g3⟩
            | modelChain =>
              obtain ⟨g1, g2, g3⟩ := chain_stable ms ih ms' (o.at_ 1) 0 (some ∅) row2 hs
              exact ⟨g1, g2, .mining g3⟩
            | selectFirst =>
              cases hs with
              | nil => simp only [selectFirst]; exact ⟨trivial, trivial, .mining .nil⟩
              | cons h hs =>
                rename_i m m' ms ms'
                obtain ⟨g1, g2, g3⟩ := ih m (by simp) m' (o.at_ 1) row2 h
                simp only [selectFirst]
                exact ⟨g1, g2, .mining (.cons g3 hs)⟩
            | empty => exact ⟨rfl, rfl, .mining hs⟩
            | other t => exact ⟨rfl, rfl, .mining hs⟩
      · rw [if_neg (by simp [hv]), if_pos hc, if_neg (by simp [hv]), if_pos hc]
        exact ⟨rfl, rfl, .mining hs⟩
    · rw [if_pos hv, if_pos hv]
      exact ⟨rfl, rfl, .mining hs⟩

omit [Trans F] in
mutual
/-- Constructed models have empty caches, at every depth. -/
theorem newModel_same (dd : List DataField) : (e : ModelElem F) → {td td' : TD F} → {m : EModel F} →
    newModel dd e td = (.ok m, td') → SameModel m m
  | .tree d, td, td', m, h => by
    rw [newModel] at h
    rcases ht : newTreeModel dd td d with ⟨_ | t, td1⟩ <;> rw [ht] at h
    · simp at h
    · simp at h; obtain ⟨rfl, -⟩ := h
      have hk := (newTreeModel_ok ht).2.2.2.2.1
      have : KeysOk t.outKeys := by rw [hk]; exact keysOk_empty
      exact .tree this this rfl
  | .regression d, td, td', m, h => by
    simp [newModel] at h; obtain ⟨rfl, -⟩ := h; exact .regression d
  | .mining hd segs, td, td', m, h => by
    rw [newModel] at h
    rcases hv : (MiningState.init dd hd segs).validate with ⟨_ | ⟨⟨⟩⟩, s⟩ <;> rw [hv] at h
    · simp at h
    · simp only at h
      rcases hc : compileSegments dd segs (td ++ s.head.localTransformations) with ⟨_ | ⟨⟨⟩⟩, ms, td2⟩ <;>
        rw [hc] at h
      · simp at h
      · simp at h; obtain ⟨rfl, -⟩ := h
        exact .mining (compileSegments_same dd segs hc)
  | .other k, td, td', m, h => by simp [newModel] at h
theorem compileSegments_same (dd : List DataField) : (segs : List (SegDoc F)) → {td td' : TD F} →
    {r : Res Unit} → {ms : List (EModel F)} →
    compileSegments dd segs td = (r, ms, td') → List.Forall₂ SameModel ms ms
  | [], td, td', r, ms, h => by simp [compileSegments] at h; obtain ⟨-, rfl, -⟩ := h; exact .nil
  | .mk id ps [] :: segs, td, td', r, ms, h => by
    simp [compileSegments] at h; obtain ⟨-, rfl, -⟩ := h; exact .nil
  | .mk id ps [e] :: segs, td, td', r, ms, h => by
    rw [compileSegments] at h
    rcases hm : newModel dd e td with ⟨_ | m, td1⟩ <;> rw [hm] at h
    · simp at h; obtain ⟨-, rfl, -⟩ := h; exact .nil
    · simp at h; obtain ⟨-, rfl, -⟩ := h
      exact .cons (newModel_same dd e hm) (compileSegments_same dd segs rfl)
  | .mk id ps (e :: e' :: es) :: segs, td, td', r, ms, h => by
    simp [compileSegments] at h; obtain ⟨-, rfl, -⟩ := h; exact .nil
end

end Gopmml

namespace Gopmml.Props
open Gopmml Spec

variable {F : Type} [Arith F] [Lib F] [Trans F]

/-- The model after a sequence of Evaluate calls, each with its own row and its own map orders. -/
def afterCalls (m : EModel F) (hist : List (MapOrd × Row F)) : EModel F :=
  hist.foldl (fun m c => (EModel.evaluate c.1 m c.2).model) m

/-- **C26**: after any history of Evaluate calls (successful or not), a constructed model returns
on any row what the fresh model returns, and does to the row what the fresh model does. -/
theorem C26_history {dd : List DataField} {e : ModelElem F} {td td' : TD F} {m : EModel F}
    (h : newModel dd e td = (.ok m, td')) (hist : List (MapOrd × Row F)) (o : MapOrd) (row : Row F) :
    (EModel.evaluate o (afterCalls m hist) row).res = (EModel.evaluate o m row).res ∧
    (EModel.evaluate o (afterCalls m hist) row).row = (EModel.evaluate o m row).row := by
  have key : ∀ hist m', SameModel m m' → SameModel m (afterCalls m' hist) := by
    intro hist
    induction hist with
    | nil => intro m' h; exact h
    | cons c hist ih =>
      intro m' h
      exact ih _ (evaluate_stable m m' c.1 c.2 h).2.2
  have := evaluate_stable m _ o row (key hist m (newModel_same dd e h))
  exact ⟨this.1, this.2.1⟩

/-- **C28**: a tree that was not validated. -/
theorem C28_tree_not_validated {m : TreeModel F} (h : m.validated = false) (o : MapOrd) (row : Row F) :
    EModel.evaluate o (.tree m) row = ⟨fail .notValidated, row, .tree m⟩ := by
  simp [EModel.evaluate, TreeModel.evaluate, h]

/-- **C28**: a tree that was validated but not compiled. -/
theorem C28_tree_not_compiled {m : TreeModel F} (hv : m.validated = true) (h : m.compiled = false)
    (o : MapOrd) (row : Row F) :
    EModel.evaluate o (.tree m) row = ⟨fail .notCompiled, row, .tree m⟩ := by
  simp [EModel.evaluate, TreeModel.evaluate, h, hv]

/-- **C28**: a mining model that was not validated. -/
theorem C28_mining_not_validated {s : MiningState F} (h : s.validated = false) (ms : List (EModel F))
    (o : MapOrd) (row : Row F) :
    EModel.evaluate o (.mining s ms) row = ⟨fail .notValidated, row, .mining s ms⟩ := by
  simp [EModel.evaluate, h]

/-- **C28**: a mining model that was validated but not compiled. -/
theorem C28_mining_not_compiled {s : MiningState F} (hv : s.validated = true) (h : s.compiled = false)
    (ms : List (EModel F)) (o : MapOrd) (row : Row F) :
    EModel.evaluate o (.mining s ms) row = ⟨fail .notCompiled, row, .mining s ms⟩ := by
  simp [EModel.evaluate, h, hv]

/-- Every tree and mining model inside is validated and compiled. -/
inductive Ready : EModel F → Prop
  | tree {m : TreeModel F} : m.validated = true → m.compiled = true → Ready (.tree m)
  | regression (d : RegressionDoc F) : Ready (.regression d)
  | mining {s : MiningState F} {ms : List (EModel F)} : s.validated = true → s.compiled = true →
      (∀ m ∈ ms, Ready m) → Ready (.mining s ms)

omit [Trans F] in
mutual
theorem newModel_ready (dd : List DataField) : (e : ModelElem F) → {td td' : TD F} → {m : EModel F} →
    newModel dd e td = (.ok m, td') → Ready m
  | .tree d, td, td', m, h => by
    rw [newModel] at h
    rcases ht : newTreeModel dd td d with ⟨_ | t, td1⟩ <;> rw [ht] at h
    · simp at h
    · simp at h; obtain ⟨rfl, -⟩ := h
      exact .tree (newTreeModel_ok ht).2.2.1 (newTreeModel_ok ht).2.2.2.1
  | .regression d, td, td', m, h => by
    simp [newModel] at h; obtain ⟨rfl, -⟩ := h; exact .regression d
  | .mining hd segs, td, td', m, h => by
    rw [newModel] at h
    rcases hv : (MiningState.init dd hd segs).validate with ⟨_ | ⟨⟨⟩⟩, s⟩ <;> rw [hv] at h
    · simp at h
    · simp only at h
      rcases hc : compileSegments dd segs (td ++ s.head.localTransformations) with ⟨_ | ⟨⟨⟩⟩, ms, td2⟩ <;>
        rw [hc] at h
      · simp at h
      · simp at h; obtain ⟨rfl, -⟩ := h
        refine .mining ?_ rfl (compileSegments_ready dd segs hc)
        unfold MiningState.validate at hv
        simp only at hv
        split_ifs at hv <;> simp at hv <;> (rw [← hv]; rfl)
  | .other k, td, td', m, h => by simp [newModel] at h
theorem compileSegments_ready (dd : List DataField) : (segs : List (SegDoc F)) → {td td' : TD F} →
    {r : Res Unit} → {ms : List (EModel F)} →
    compileSegments dd segs td = (r, ms, td') → ∀ m ∈ ms, Ready m
  | [], td, td', r, ms, h => by simp [compileSegments] at h; obtain ⟨-, rfl, -⟩ := h; simp
  | .mk id ps [] :: segs, td, td', r, ms, h => by
    simp [compileSegments] at h; obtain ⟨-, rfl, -⟩ := h; simp
  | .mk id ps [e] :: segs, td, td', r, ms, h => by
    rw [compileSegments] at h
    rcases hm : newModel dd e td with ⟨_ | m, td1⟩ <;> rw [hm] at h
    · simp at h; obtain ⟨-, rfl, -⟩ := h; simp
    · simp at h; obtain ⟨-, rfl, -⟩ := h
      exact List.forall_mem_cons.mpr ⟨newModel_ready dd e hm, compileSegments_ready dd segs rfl⟩
  | .mk id ps (e :: e' :: es) :: segs, td, td', r, ms, h => by
    simp [compileSegments] at h; obtain ⟨-, rfl, -⟩ := h; simp
end

omit [Trans F] in
/-- **C28**: models built by NewModel are validated and compiled, at every depth. -/
theorem C28_constructed_ready {dd : List DataField} {e : ModelElem F} {td td' : TD F} {m : EModel F}
    (h : newModel dd e td = (.ok m, td')) : Ready m := newModel_ready dd e h

section Examples
open Samples Replay

-- C26: the nested sample after two calls (one with a missing field, one with map order reversed),
-- and a classification tree whose cache is filled by the calls.
example : (newModel Samples.dd nested []).1.isOk ∧
    (match newModel Samples.dd nested [] with
      | (.ok m, _) => decide ((EModel.evaluate .sorted (afterCalls m [(.sorted, some (mk [])),
          (.reversed, some (mk [("x", .int .int 9)]))]) (some (mk [("x", .int .int 7)]))).res =
            .ok (some (mk [("score", .f64 (num "200"))])))
      | _ => false) = true := by decide +kernel
example :
    (match newModel Replay.dd (.tree (Replay.doc .weightedConfidence "1" Replay.golfCounts)) [] with
      | (.ok m, _) =>
        match m, afterCalls m [(.sorted, some (mk [("outlook", .str "sunny")]))] with
        | .tree t, .tree t' => decide (t.outKeys.size = 0 ∧ t'.outKeys.size = 3)
        | _, _ => false
      | _ => false) = true := by decide +kernel

-- C28: a tree before Validate, one after Validate only, and one after both.
example :
    let t := TreeModel.init Samples.dd (regTree "1" "2")
    t.validated = false ∧ (t.validate.2.validated = true ∧ t.validate.2.compiled = false) ∧
    (t.validate.2.compile []).2.1.compiled = true := by decide +kernel
example :
    let s := MiningState.init Samples.dd (head .sum) []
    s.validated = false ∧ s.validate.2.validated = true ∧ s.validate.2.compiled = false := by
  decide +kernel

end Examples

end Gopmml.Props
