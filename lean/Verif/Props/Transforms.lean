import Verif.Props.Counts
import Verif.Proofs.Order

/-!
# Property C29 for whole models: what happens before the model proper
-/

namespace Gopmml.Props
open Gopmml Spec

variable {F : Type} [Arith F] [Lib F] [Trans F]

/-- **C29** (trees): a tree first computes its derived fields. If that fails, its answer is that error;
otherwise it does exactly what the same tree without derived fields does with the row they leave. -/
theorem C29_tree {dd : List DataField} {d : TreeDoc F} {td td' : TD F} {m : EModel F}
    (h : newModel dd (.tree d) td = (.ok m, td')) :
    ∃ m0, newModel dd (.tree { d with localTransformations := [] }) td' = (.ok m0, td') ∧
      ∀ o row, (∀ e row', handleInput d.localTransformations row = (.error e, row') →
          (EModel.evaluate o m row).res = .error e ∧ (EModel.evaluate o m row).row = row') ∧
        ∀ row', handleInput d.localTransformations row = (.ok (), row') →
          (EModel.evaluate o m row).res = (EModel.evaluate o m0 row').res ∧
          (EModel.evaluate o m row).row = (EModel.evaluate o m0 row').row := by
  rw [newModel] at h
  rcases hn : newTreeModel dd td d with ⟨_ | t, tdx⟩ <;> rw [hn] at h
  · simp at h
  simp only [Prod.mk.injEq, Except.ok.injEq] at h
  obtain ⟨rfl, rfl⟩ := h
  obtain ⟨hf, rfl, hv, hc, hk, hm, ht, hctx, hroot⟩ := newTreeModel_ok hn
  have h0 := newTreeModel_good (dd := dd) (td := td ++ d.localTransformations)
    (d := { d with localTransformations := [] }) (by rcases hf with h | h <;> simp [h])
  have hty : treeTypes dd (td ++ d.localTransformations) { d with localTransformations := [] } =
      treeTypes dd td d := by simp [treeTypes]
  rw [hty] at h0
  change match newNode (treeTypes dd td d) d.node with | .error e => _ | .ok _ => _ at h0
  rw [hroot] at h0
  obtain ⟨t0, h0⟩ := h0
  rw [List.append_nil] at h0
  obtain ⟨-, -, hv0, hc0, hk0, hm0, ht0, hctx0, hroot0⟩ := newTreeModel_ok h0
  rw [hty] at hroot0
  change newNode (treeTypes dd td d) d.node = _ at hroot0
  rw [hroot, Except.ok.injEq] at hroot0
  have hctx' : docCtx dd (td ++ d.localTransformations) { d with localTransformations := [] } = docCtx dd td d := by
    simp [docCtx, hty]
  refine ⟨.tree t0, by simp only [newModel, h0], fun o row => ?_⟩
  simp only [EModel.evaluate]
  obtain ⟨a1, a2, -⟩ := evaluate_eq hv hc (by rw [hk]; exact keysOk_empty) o row
  rw [hm] at a1 a2
  simp only at a1 a2
  constructor
  · intro e row' he
    rw [he] at a1 a2
    exact ⟨a2, a1⟩
  · intro row' he
    obtain ⟨b1, b2, -⟩ := evaluate_eq hv0 hc0 (by rw [hk0]; exact keysOk_empty) o row'
    rw [he] at a1 a2
    rw [a1, a2, b1, b2, hm0, hctx, hctx0, hctx', ← hroot0, ht, ht0]
    exact ⟨rfl, rfl⟩

/-- **C29** (ensembles): an ensemble first fills in missing values, then computes its derived fields, and
then does exactly what the same ensemble without both does with the row they leave. -/
theorem C29_ensemble {dd : List DataField} {h : MiningHead F} {segs : List (SegDoc F)} {td td' : TD F} {m : EModel F}
    (hM : newModel dd (.mining h segs) td = (.ok m, td')) :
    ∃ m0, newModel dd (.mining { h with
          localTransformations := []
          miningFields := h.miningFields.map fun f => { f with missingValueReplacement := none } } segs)
        (td ++ h.localTransformations) = (.ok m0, td') ∧
      ∀ (o : MapOrd) row row1, imputeLoop ((o.at_ 0).range (buildDefaults h.miningFields)) row = (.ok (), row1) →
        (∀ e row', handleInput h.localTransformations row1 = (.error e, row') →
          (EModel.evaluate o m row).res = .error e ∧ (EModel.evaluate o m row).row = row') ∧
        ∀ row', handleInput h.localTransformations row1 = (.ok (), row') →
          (EModel.evaluate o m row).res = (EModel.evaluate o m0 row').res ∧
          (EModel.evaluate o m row).row = (EModel.evaluate o m0 row').row := by
  have hnone : buildDefaults (F := F) (h.miningFields.map fun f => { f with missingValueReplacement := none }) = ∅ := by
    unfold buildDefaults
    rw [List.foldl_map]
    simp
  obtain ⟨s, ms, rfl, hv, hc, hdd, hh, hs, hdf, ho, ht, hcs⟩ := newMining_ok hM
  have h0 : ∃ m0, newModel dd (.mining { h with
          localTransformations := []
          miningFields := h.miningFields.map fun f => { f with missingValueReplacement := none } } segs)
        (td ++ h.localTransformations) = (.ok m0, td') := by
    have hok : SupportedMethod h.method ∧ SupportedOutputs h.outputs := by
      rw [newModel] at hM
      rcases mining_validate (MiningState.init dd h segs) with ⟨h1, h2, -⟩ | ⟨-, e, s', h3⟩
      · exact ⟨h1, h2⟩
      · rw [h3] at hM; simp at hM
    rw [newModel]
    rcases mining_validate (MiningState.init dd { h with
          localTransformations := []
          miningFields := h.miningFields.map fun f => { f with missingValueReplacement := none } } segs) with
      ⟨-, -, h3⟩ | ⟨h1, -⟩
    · rw [h3]
      simp only [MiningState.init, List.append_nil, hcs]
      exact ⟨_, rfl⟩
    · exact absurd hok h1
  obtain ⟨m0, h0⟩ := h0
  obtain ⟨s0, ms0, rfl, hv0, hc0, hdd0, hh0, hs0, hdf0, ho0, ht0, hcs0⟩ := newMining_ok h0
  simp only [List.append_nil] at hcs0
  rw [hcs] at hcs0
  simp only [Prod.mk.injEq, true_and, and_true] at hcs0
  subst hcs0
  refine ⟨_, h0, fun o row row1 hi => ?_⟩
  simp only [hnone] at hdf0
  have hi0 : ∀ row', imputeLoop ((o.at_ 0).range s0.defaultValues) row' = (.ok (), row') := by
    intro row'
    have : (o.at_ 0).range s0.defaultValues = [] := by
      rw [hdf0]
      refine (range_nil_iff .sorted _ _).mp (List.eq_nil_iff_forall_not_mem.mpr ?_)
      rintro ⟨k, v⟩ hp
      have : ((∅ : GoMap (GoVal F))[k]?) = some v := Std.ExtTreeMap.mem_toList_iff_getElem?_eq_some.mp hp
      simp at this
    rw [this]; rfl
  constructor
  · intro e row' he
    simp only [EModel.evaluate, hv, hc, not_true_eq_false, if_false, hdf, hi, hh, he]
    exact ⟨trivial, trivial⟩
  · intro row' he
    have e1 : initScores s0 = initScores s := by simp [initScores, ho, ho0, ht, ht0]
    have e2 : ∀ o sm, sumFinish o s0 sm = sumFinish o s sm := by
      intro o sm
      simp [sumFinish, ht, ht0]
    simp only [EModel.evaluate, hv, hc, hv0, hc0, not_true_eq_false, if_false, hi0, hdf, hi, hh, hh0, he, handleInput,
      e1, e2, hs, hs0]
    cases effectiveMethod h.method <;> exact ⟨rfl, rfl⟩

section Examples
open Samples Replay

/-- z = x * x; the tree asks for z. -/
def squareTree : TreeDoc F64 := { regTree "1" "2" with
  localTransformations := [⟨"z", .double, .continuous, .apply "*" [.fieldRef "x", .fieldRef "x"]⟩]
  node := .mk "" "" "0" (num "0") [] [
    .mk "" "" "1" (num "0") [] [] (some (sp "z" .lessThan "5")),
    .mk "" "" "2" (num "0") [] [] (some (sp "z" .greaterOrEqual "5"))] (some .true_) }

-- A tree that needs its derived field, alone and behind an ensemble that computes it.
example : (newModel Samples.dd (.tree squareTree) []).1.isOk = true ∧
    eval .sorted (.tree squareTree) [("x", .f64 (num "2"))] =
      some (.ok (some (mk [("score", .f64 (num "1"))]))) ∧
    eval .sorted (.tree squareTree) [("x", .f64 (num "3"))] =
      some (.ok (some (mk [("score", .f64 (num "2"))]))) ∧
    eval .sorted (.mining { head .selectFirst with localTransformations := squareTree.localTransformations }
        [seg (.tree { squareTree with localTransformations := [] })]) [] =
      some (.ok (some (mk [("score", .f64 (num "2"))]))) := by
  decide +kernel

end Examples

end Gopmml.Props
