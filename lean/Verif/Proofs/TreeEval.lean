import Verif.Proofs.Strategies

/-!
# Evaluate on constructed trees
-/

namespace Gopmml
open Spec

variable {F : Type}

/-- The key cache only holds right keys. -/
def KeysOk (ks : GoMap String) : Prop := ∀ v k, ks[v]? = some k → k = "probability(" ++ v ++ ")"

theorem keysOk_empty : KeysOk ∅ := by intro v k h; simp at h

theorem outLoop_eq (scores : List (ScoreDist F)) (m : GoMap (GoVal F)) (ks : GoMap String)
    (hk : KeysOk ks) :
    (scores.foldl outStep (m, ks)).1 =
      scores.foldl (fun m s => m.insert ("probability(" ++ s.value ++ ")") (.f64 s.probability)) m ∧
    KeysOk (scores.foldl outStep (m, ks)).2 := by
  induction scores generalizing m ks with
  | nil => exact ⟨rfl, hk⟩
  | cons s l ih =>
    simp only [List.foldl_cons]
    cases hs : ks[s.value]? with
    | some k =>
      have hst : outStep (m, ks) s = (m.insert k (.f64 s.probability), ks) := by
        simp [outStep, hs]
      rw [hst, hk _ _ hs]
      exact ih _ _ hk
    | none =>
      have hst : outStep (m, ks) s = (m.insert (probabilityKey s.value) (.f64 s.probability),
          ks.insert s.value (probabilityKey s.value)) := by
        simp [outStep, hs]
      rw [hst]
      have hk' : KeysOk (ks.insert s.value (probabilityKey s.value)) := by
        intro v k hv
        rw [GoMap.getElem?_insert] at hv
        split_ifs at hv with h
        · subst h; simp at hv; exact hv.symm
        · exact hk v k hv
      exact ih _ _ hk'

variable [Arith F] [Lib F]

theorem output_eq {m : TreeModel F} (hk : KeysOk m.outKeys) (a : Ans F) :
    (m.output a.1 a.2).1 = report m.model.functionName m.targetField a ∧
    KeysOk (m.output a.1 a.2).2 := by
  obtain ⟨scores, r⟩ := a
  unfold TreeModel.output report
  by_cases hr : r = .t
  · simp only [hr, if_true]
    cases m.model.functionName with
    | classification =>
      have := outLoop_eq scores ((∅ : GoMap (GoVal F)).insert m.targetField
        (.str (pickBest scores).value)) m.outKeys hk
      exact ⟨by simp [this.1, classRow], this.2⟩
    | regression =>
      cases scores with
      | nil => exact ⟨by simp, hk⟩
      | cons s l =>
        cases h : Lib.parseFloat (F := F) s.value <;> simp [h, hk]
    | other s => exact ⟨by simp, hk⟩
  · simp [hr, hk]

/-- Evaluate, for a validated and compiled tree with a correct cache. -/
theorem evaluate_eq {m : TreeModel F} (hv : m.validated = true) (hc : m.compiled = true)
    (hk : KeysOk m.outKeys) (o : MapOrd) (row : Row F) :
    (m.evaluate o row).row = (handleInput m.model.localTransformations row).2 ∧
    (m.evaluate o row).res =
      (match handleInput m.model.localTransformations row with
       | (.error e, _) => .error e
       | (.ok (), row') =>
         match evalNode m.ctx o row' m.root with
         | .error e => .error e
         | .ok a => report m.model.functionName m.targetField a) ∧
    ∃ ks, KeysOk ks ∧ (m.evaluate o row).model = { m with outKeys := ks } := by
  unfold TreeModel.evaluate
  rw [if_neg (by simp [hv]), if_neg (by simp [hc])]
  rcases handleInput m.model.localTransformations row with ⟨_ | ⟨⟨⟩⟩, row'⟩
  · exact ⟨rfl, rfl, m.outKeys, hk, rfl⟩
  · simp only
    cases evalNode m.ctx o row' m.root with
    | error e => exact ⟨rfl, rfl, m.outKeys, hk, rfl⟩
    | ok a => exact ⟨rfl, (output_eq hk a).1, _, (output_eq hk a).2, rfl⟩

/-- Evaluate on a freshly constructed tree. -/
theorem constructed_evaluate {dd : List DataField} {td td' : TD F} {d : TreeDoc F} {m : TreeModel F}
    (h : newTreeModel dd td d = (.ok m, td')) {row row' : Row F}
    (hi : handleInput d.localTransformations row = (.ok (), row')) (o : MapOrd) :
    (m.evaluate o row).res =
      (match evalNode (docCtx dd td d) o row' m.root with
       | .error e => .error e
       | .ok a => report d.functionName (targetOf d.miningFields) a) := by
  obtain ⟨-, -, hv, hc, hk, hm, ht, hx, -⟩ := newTreeModel_ok h
  have := (evaluate_eq hv hc (by rw [hk]; exact keysOk_empty) o row).2.1
  rw [this, hm, ht, hx]
  simp only [hi]

theorem report_ne_none {fn : MiningFunction} {target : String} {dist : List (ScoreDist F)} :
    report fn target (dist, .t) ≠ .ok none := by
  unfold report
  simp only [ne_eq, not_true_eq_false, if_false]
  cases fn with
  | classification => simp
  | regression =>
    cases dist with
    | nil => simp
    | cons s l => cases h : Lib.parseFloat (F := F) s.value <;> simp [h]
  | other s => simp

end Gopmml
