import Verif.Proofs.Shared
import Verif.Proofs.SameFor
import Verif.Props.Ensemble
import Verif.Props.Frame

/-!
# Property C61: evaluators that share a document
-/

namespace Gopmml
open Spec

variable {F : Type} [Arith F] [Lib F]

omit [Arith F] [Lib F] in
theorem buildTypes_typed {ty : String → DataType} {dd : List DataField} {td : TD F}
    (hd : ∀ f ∈ dd, f.dataType = ty f.name) (ht : ∀ f ∈ td, f.dataType = ty f.name) (x : String) (dt : DataType) :
    (buildTypes dd td)[x]? = some dt ↔
      dt = ty x ∧ ((∃ f ∈ dd, f.name = x) ∨ ∃ f ∈ td, f.name = x) := by
  rw [buildTypes_getElem?]
  unfold declaredType
  cases h : (td.filter (fun f => f.name = x)).getLast? with
  | some f =>
    have hf := List.mem_filter.mp (List.mem_of_getLast? h)
    simp only [decide_eq_true_eq] at hf
    simp only [Option.some.injEq]
    rw [ht f hf.1, hf.2]
    exact ⟨fun h => ⟨h.symm, .inr ⟨f, hf⟩⟩, fun h => h.1.symm⟩
  | none =>
    have hn : ¬ ∃ f ∈ td, f.name = x := by
      rintro ⟨f, hf, hx⟩
      rw [List.getLast?_eq_none_iff] at h
      have : f ∈ td.filter (fun f => f.name = x) := List.mem_filter.mpr ⟨hf, by simpa using hx⟩
      rw [h] at this
      simp at this
    cases h2 : (dd.filter (fun f => f.name = x)).getLast? with
    | some f =>
      have hf := List.mem_filter.mp (List.mem_of_getLast? h2)
      simp only [decide_eq_true_eq] at hf
      simp only [Option.map_some, Option.some.injEq]
      rw [hd f hf.1, hf.2]
      exact ⟨fun h => ⟨h.symm, .inl ⟨f, hf⟩⟩, fun h => h.1.symm⟩
    | none =>
      have hn2 : ¬ ∃ f ∈ dd, f.name = x := by
        rintro ⟨f, hf, hx⟩
        rw [List.getLast?_eq_none_iff] at h2
        have : f ∈ dd.filter (fun f => f.name = x) := List.mem_filter.mpr ⟨hf, by simpa using hx⟩
        rw [h2] at this
        simp at this
      simp [hn, hn2]

omit [Arith F] [Lib F] in
theorem buildTypes_extends {ty : String → DataType} {dd : List DataField} {td td2 : TD F}
    (hd : ∀ f ∈ dd, f.dataType = ty f.name) (ht : ∀ f ∈ td, f.dataType = ty f.name)
    (ht2 : ∀ f ∈ td2, f.dataType = ty f.name) (hs : td ⊆ td2) :
    Extends (buildTypes dd td) (buildTypes dd td2) := by
  intro x dt h
  rw [buildTypes_typed hd ht] at h
  rw [buildTypes_typed hd ht2]
  obtain ⟨h1, h2 | ⟨f, hf, h2⟩⟩ := h
  · exact ⟨h1, .inl h2⟩
  · exact ⟨h1, .inr ⟨f, hs hf, h2⟩⟩

variable [Trans F]

/-- The models answer alike, and do the same to the row. -/
def SameAnswers (m m2 : EModel F) : Prop := ∀ o row,
  (EModel.evaluate o m row).res = (EModel.evaluate o m2 row).res ∧
  (EModel.evaluate o m row).row = (EModel.evaluate o m2 row).row

theorem sameFor_true {m m2 : EModel F} : SameFor (fun _ => True) m m2 ↔ SameAnswers m m2 :=
  ⟨fun h o row => h o trivial row, fun h o _ row => h o row⟩

theorem mining_same {ms ms2 : List (EModel F)} (s : MiningState F) (h : List.Forall₂ SameAnswers ms ms2) :
    SameAnswers (.mining s ms) (.mining s ms2) :=
  sameFor_true.mp (mining_for (fun _ _ _ => trivial) s (segs := s.segments) rfl
    (h.imp fun _ _ h => sameFor_true.mpr h))

omit [Trans F] in
/-- A tree compiled under types that extend the old ones. -/
theorem tree_same {dd : List DataField} {td td' td2 : TD F} {d : TreeDoc F} {t : TreeModel F}
    (h : newTreeModel dd td d = (.ok t, td'))
    (hx : Extends (treeTypes dd td d) (treeTypes dd td2 d)) :
    ∃ t2, newTreeModel dd td2 d = (.ok t2, td2 ++ d.localTransformations) ∧
      syncNode (storeNode (treeTypes dd td2 d) d.node) t.root = t.root ∧
      ∀ o row, (t.evaluate o row).res = (t2.evaluate o row).res ∧
        (t.evaluate o row).row = (t2.evaluate o row).row := by
  obtain ⟨hf, -, hv, hc, hk, hm, ht, hctx, hn⟩ := newTreeModel_ok h
  have hn2 := newNode_extends hx d.node hn
  have hacc : ∃ t2 tdx, newTreeModel dd td2 d = (.ok t2, tdx) := by
    unfold newTreeModel TreeModel.init TreeModel.validate
    have hf' : ¬ (d.functionName ≠ .classification ∧ d.functionName ≠ .regression) := by
      rcases hf with h | h <;> simp [h]
    simp only [hf', if_false, TreeModel.compile, hn2]
    exact ⟨_, _, rfl⟩
  obtain ⟨t2, tdx, h2⟩ := hacc
  obtain ⟨-, rfl, hv2, hc2, hk2, hm2, ht2, hctx2, hn2'⟩ := newTreeModel_ok h2
  rw [hn2, Except.ok.injEq] at hn2'
  refine ⟨t2, h2, sync_store d.node hn2, fun o row => ?_⟩
  have hK : KeysOk t.outKeys := by rw [hk]; exact keysOk_empty
  have hK2 : KeysOk t2.outKeys := by rw [hk2]; exact keysOk_empty
  obtain ⟨a1, a2, -⟩ := evaluate_eq hv hc hK o row
  obtain ⟨b1, b2, -⟩ := evaluate_eq hv2 hc2 hK2 o row
  rw [a1, a2, b1, b2, hctx, hctx2, hm, hm2, ht, ht2, ← hn2']
  refine ⟨?_, rfl⟩
  rcases handleInput d.localTransformations row with ⟨_ | _, row1⟩
  · rfl
  · have : evalNode (docCtx dd td d) o row1 t.root = evalNode (docCtx dd td2 d) o row1 t.root :=
      evalNode_congr (ty := treeTypes dd td2 d) o (by
        intro r hr
        obtain ⟨k, -, hkr⟩ := csub_origin d.node hn r hr
        obtain ⟨id, dc, score, rc, dists, nodes, pred⟩ := k
        obtain ⟨cs, pred', -, hp, rfl⟩ := newNode_ok hkr
        cases pred with
        | none => subst hp; rfl
        | some p =>
          obtain ⟨p', hc, rfl⟩ := hp
          exact (runTest_extends hx row1 hc).symm)
    simp only [this]

mutual
theorem rebuild {ty : String → DataType} {dd : List DataField} (hd : ∀ f ∈ dd, f.dataType = ty f.name) :
    (e : ModelElem F) → ∀ {td td' td2 : TD F} {m : EModel F}, newModel dd e td = (.ok m, td') →
    (∀ f, DerivedIn f e → f.dataType = ty f.name) → (∀ f ∈ td, f.dataType = ty f.name) →
    (∀ f ∈ td2, f.dataType = ty f.name) → td ⊆ td2 →
    ∃ m2 td2', newModel dd e td2 = (.ok m2, td2') ∧ SameAnswers m m2 ∧
      EModel.sync (storeElem dd e td2) m = m ∧
      (∀ f ∈ td', f.dataType = ty f.name) ∧ (∀ f ∈ td2', f.dataType = ty f.name) ∧ td' ⊆ td2'
  | .tree d, td, td', td2, m, h, he, ht, ht2, hs => by
    rw [newModel] at h
    rcases hn : newTreeModel dd td d with ⟨_ | t, tdx⟩ <;> rw [hn] at h
    · simp at h
    · simp at h; obtain ⟨rfl, rfl⟩ := h
      have hl : ∀ f ∈ d.localTransformations, f.dataType = ty f.name := fun f hf => he f (.tree hf)
      have a1 : ∀ f ∈ td ++ d.localTransformations, f.dataType = ty f.name := by
        intro f hf; rcases List.mem_append.mp hf with h | h
        · exact ht f h
        · exact hl f h
      have a2 : ∀ f ∈ td2 ++ d.localTransformations, f.dataType = ty f.name := by
        intro f hf; rcases List.mem_append.mp hf with h | h
        · exact ht2 f h
        · exact hl f h
      have a3 : td ++ d.localTransformations ⊆ td2 ++ d.localTransformations := by
        intro f hf; rcases List.mem_append.mp hf with h | h
        · exact List.mem_append.mpr (.inl (hs h))
        · exact List.mem_append.mpr (.inr h)
      obtain ⟨t2, h2, h3, h4⟩ := tree_same hn (buildTypes_extends hd a1 a2 a3)
      obtain ⟨hf, htd, -⟩ := newTreeModel_ok hn
      refine ⟨.tree t2, _, by simp only [newModel, h2], fun o row => ?_, ?_, ?_, a2, ?_⟩
      · simp only [EModel.evaluate]; exact h4 o row
      · have hv : ((TreeModel.init dd d).validate).1 = .ok () := by
          unfold TreeModel.init TreeModel.validate
          rw [if_neg (by rcases hf with h | h <;> simp [h])]
        rcases hval : (TreeModel.init dd d).validate with ⟨r, s⟩
        rw [hval] at hv
        simp only at hv
        subst hv
        simp only [storeElem, hval, EModel.sync, h3]
      · rw [htd]; exact a1
      · rw [htd]; exact a3
  | .regression d, td, td', td2, m, h, he, ht, ht2, hs => by
    simp [newModel] at h; obtain ⟨rfl, rfl⟩ := h
    refine ⟨.regression d, td2, by simp [newModel], fun o row => ⟨rfl, rfl⟩, by simp [EModel.sync],
      ht, ht2, hs⟩
  | .mining hh segs, td, td', td2, m, h, he, ht, ht2, hs => by
    rw [newModel] at h
    rcases hval : (MiningState.init dd hh segs).validate with ⟨_ | ⟨⟨⟩⟩, s⟩ <;> rw [hval] at h
    · simp at h
    · have hhead : s.head.localTransformations = hh.localTransformations := by
        unfold MiningState.validate at hval
        simp only at hval
        split_ifs at hval <;> simp [MiningState.init] at hval <;> subst hval <;> rfl
      simp only [hhead] at h
      have hl : ∀ f ∈ hh.localTransformations, f.dataType = ty f.name := fun f hf => he f (.mining hf)
      have a1 : ∀ f ∈ td ++ hh.localTransformations, f.dataType = ty f.name := by
        intro f hf; rcases List.mem_append.mp hf with h | h
        · exact ht f h
        · exact hl f h
      have a2 : ∀ f ∈ td2 ++ hh.localTransformations, f.dataType = ty f.name := by
        intro f hf; rcases List.mem_append.mp hf with h | h
        · exact ht2 f h
        · exact hl f h
      have a3 : td ++ hh.localTransformations ⊆ td2 ++ hh.localTransformations := by
        intro f hf; rcases List.mem_append.mp hf with h | h
        · exact List.mem_append.mpr (.inl (hs h))
        · exact List.mem_append.mpr (.inr h)
      rcases hc : compileSegments dd segs (td ++ hh.localTransformations) with ⟨_ | ⟨⟨⟩⟩, ms, tdx⟩ <;>
        rw [hc] at h
      · simp at h
      · simp at h
        obtain ⟨rfl, rfl⟩ := h
        obtain ⟨ms2, td2', hc2, hf2, hsync, b1, b2, b3⟩ := rebuildSegs hd segs hc
          (fun id ps es e hmem hmem' f hf => he f (.segment hmem hmem' hf)) a1 a2 a3
        refine ⟨.mining _ ms2, td2', ?_, mining_same _ hf2, ?_, b1, b2, b3⟩
        · simp only [newModel, hval, hhead, hc2]
        · simp only [storeElem, hval, EModel.sync]
          have := hsync (storeSegs dd segs (td2 ++ hh.localTransformations)) []
          simp only [List.append_nil] at this
          rw [this]
          simp [syncSegs]
  | .other k, td, td', td2, m, h, he, ht, ht2, hs => by simp [newModel] at h
theorem rebuildSegs {ty : String → DataType} {dd : List DataField} (hd : ∀ f ∈ dd, f.dataType = ty f.name) :
    (segs : List (SegDoc F)) → ∀ {td td' td2 : TD F} {ms : List (EModel F)},
    compileSegments dd segs td = (.ok (), ms, td') →
    (∀ id ps es e, SegDoc.mk id ps es ∈ segs → e ∈ es → ∀ f, DerivedIn f e → f.dataType = ty f.name) →
    (∀ f ∈ td, f.dataType = ty f.name) → (∀ f ∈ td2, f.dataType = ty f.name) → td ⊆ td2 →
    ∃ ms2 td2', compileSegments dd segs td2 = (.ok (), ms2, td2') ∧ List.Forall₂ SameAnswers ms ms2 ∧
      (∀ all rest, syncSegs all (storeSegs dd segs td2) (ms ++ rest) = ms ++ syncSegs all [] rest) ∧
      (∀ f ∈ td', f.dataType = ty f.name) ∧ (∀ f ∈ td2', f.dataType = ty f.name) ∧ td' ⊆ td2'
  | [], td, td', td2, ms, h, he, ht, ht2, hs => by
    simp [compileSegments] at h; obtain ⟨rfl, rfl⟩ := h
    exact ⟨[], td2, by simp [compileSegments], .nil, fun all rest => by simp [storeSegs], ht, ht2, hs⟩
  | .mk id ps [] :: segs, td, td', td2, ms, h, he, ht, ht2, hs => by simp [compileSegments] at h
  | .mk id ps (e :: e' :: es) :: segs, td, td', td2, ms, h, he, ht, ht2, hs => by simp [compileSegments] at h
  | .mk id ps [e] :: segs, td, td', td2, ms, h, he, ht, ht2, hs => by
    rw [compileSegments] at h
    rcases hn : newModel dd e td with ⟨_ | m, td1⟩ <;> rw [hn] at h
    · simp at h
    · simp at h
      obtain ⟨h1, rfl, rfl⟩ := h
      obtain ⟨m2, td21, g1, g2, g3, g4, g5, g6⟩ := rebuild hd e hn
        (he id ps [e] e (by simp) (by simp)) ht ht2 hs
      obtain ⟨ms2, td2', k1, k2, k3, k4, k5, k6⟩ := rebuildSegs hd segs (Prod.ext h1 rfl)
        (fun id ps es e hm => he id ps es e (by simp [hm])) g4 g5 g6
      refine ⟨m2 :: ms2, td2', ?_, .cons g2 k2, fun all rest => ?_, k4, k5, k6⟩
      · simp only [compileSegments, g1, k1]
      · simp only [storeSegs, g1, List.cons_append, syncSegs, g3, k3]
end

end Gopmml

namespace Gopmml.Props
open Gopmml Spec

variable {F : Type} [Arith F] [Lib F] [Trans F]

/-- **C61**: if no field is declared with two types, a document can be built again with any larger
dictionary (as after building it once already, and other documents in between): the new evaluator
answers exactly like the first, and the first is not disturbed although both use the constants
stored in the shared document. -/
theorem C61_rebuild {ty : String → DataType} {dd : List DataField} {e : ModelElem F} {td td' td2 : TD F}
    {m : EModel F} (h : newModel dd e td = (.ok m, td')) (hw : WellTyped ty dd td2 e) (hs : td ⊆ td2) :
    ∃ m2 td2', newModel dd e td2 = (.ok m2, td2') ∧
      (∀ o row, (EModel.evaluate o m2 row).res = (EModel.evaluate o m row).res ∧
        (EModel.evaluate o m2 row).row = (EModel.evaluate o m row).row) ∧
      EModel.sync (storeElem dd e td2) m = m := by
  obtain ⟨m2, td2', h1, h2, h3, -⟩ := rebuild hw.dd e h hw.doc (fun f hf => hw.td f (hs hf)) hw.td hs
  exact ⟨m2, td2', h1, fun o row => ⟨(h2 o row).1.symm, (h2 o row).2.symm⟩, h3⟩

/-- **C61** (and C44): under the same condition recompiling an ensemble leaves its evaluators as
they are and adds a second round of evaluators that answer like them. -/
theorem C61_recompile {ty : String → DataType} {dd : List DataField} {h : MiningHead F} {segs : List (SegDoc F)}
    {td td' td2 : TD F} {M : EModel F} (hM : newModel dd (.mining h segs) td = (.ok M, td'))
    (hw : WellTyped ty dd td2 (.mining h segs)) (hs : td ⊆ td2) :
    ∃ s ms ms2 td3, M = .mining s ms ∧ M.compile td2 = (.ok (), .mining s (ms ++ ms2), td3) ∧
      List.Forall₂ SameAnswers ms ms2 := by
  obtain ⟨s, ms, rfl, -, -, -, -, -, -, -, -, hc⟩ := newMining_ok hM
  have app : ∀ td : TD F, (∀ f ∈ td, f.dataType = ty f.name) →
      ∀ f ∈ td ++ h.localTransformations, f.dataType = ty f.name := by
    intro td ht f hf
    rcases List.mem_append.mp hf with hf | hf
    · exact ht f hf
    · exact hw.doc f (.mining hf)
  obtain ⟨ms2, td3, h1, h2, h3, -⟩ := rebuildSegs (td2 := td2 ++ h.localTransformations) hw.dd segs hc
    (fun id ps es e hm he f hf => hw.doc f (.segment hm he hf))
    (app td fun f hf => hw.td f (hs hf)) (app td2 hw.td)
    (fun f hf => by
      rcases List.mem_append.mp hf with hf | hf
      · exact List.mem_append.mpr (.inl (hs hf))
      · exact List.mem_append.mpr (.inr hf))
  obtain ⟨s', ms', he, -, hcomp⟩ := C44_recompile hM (compileSegments_models segs h1)
  simp only [EModel.mining.injEq] at he
  obtain ⟨rfl, rfl⟩ := he
  refine ⟨s, ms, ms2, td3, rfl, ?_, h2⟩
  have := h3 (storeSegs dd segs (td2 ++ h.localTransformations)) []
  simp only [List.append_nil, syncSegs] at this
  rw [hcomp, this]

section
open Samples Replay

/-- Segment 1 tests the data field "n"; segment 2 derives a field of the same name. -/
def clash (ty : DataType) : ModelElem F64 :=
  .mining { head .selectFirst with miningFields := [], targets := [] } [
    seg (.tree { regTree "1" "10" with
      node := .mk "" "" "0" (num "0") [] [
        .mk "" "" "1" (num "0") [] [] (some (sp "n" .equal "5")),
        .mk "" "" "2" (num "0") [] [] (some (sp "n" .lessThan "5"))] (some .true_) }),
    seg (.tree { regTree "1" "10" with
      localTransformations := [⟨"n", ty, .continuous, .fieldRef "x"⟩] })]

def clashDD : List DataField := [⟨"n", .integer, []⟩, ⟨"x", .double, []⟩]

/-- Build once, then once more from the same document with the dictionary the first left behind. -/
def twice (e : ModelElem F64) (row : List (String × GoVal F64)) : Option (List (Res (Out F64))) :=
  match newModel clashDD e [] with
  | (.ok m, td) =>
    match newModel clashDD e td with
    | (.ok m2, _) =>
      some [(EModel.evaluate .sorted m (some (mk row))).res,
        (EModel.evaluate .sorted m2 (some (mk row))).res,
        (EModel.evaluate .sorted (m.sync (storeElem clashDD e td)) (some (mk row))).res]
    | _ => none
  | _ => none

/-- **C61**: the condition is needed.  When "n" is declared integer by the data dictionary and
double by a local transformation of another segment, the second evaluator answers otherwise than the
first, and after building it the first panics. -/
theorem C61_two_types :
    twice (clash .double) [("n", .int .int64 5)] =
      some [.ok (some (mk [("score", .f64 (num "1"))])), .ok (some (mk [("score", .f64 (num "0"))])),
        panic .typeAssertion] := by
  decide +kernel

-- C61: with one type the hypotheses hold, and all three answers are the same.
example : WellTyped (fun x => if x = "n" then .integer else .double) clashDD [] (clash .integer) where
  dd := by simp [clashDD]
  td := by simp
  doc := by
    intro f hf
    unfold clash seg at hf
    cases hf with
    | mining hf => simp [Samples.head] at hf
    | segment hs he hf =>
      simp only [List.mem_cons, List.not_mem_nil, or_false, SegDoc.mk.injEq] at hs
      rcases hs with ⟨-, -, rfl⟩ | ⟨-, -, rfl⟩ <;> simp only [List.mem_singleton] at he <;> subst he <;>
        cases hf with
        | tree hf => simp [regTree] at hf; try (subst hf; rfl)
example : twice (clash .integer) [("n", .int .int64 5)] =
    some [.ok (some (mk [("score", .f64 (num "1"))])), .ok (some (mk [("score", .f64 (num "1"))])),
      .ok (some (mk [("score", .f64 (num "1"))]))] := by
  decide +kernel

end

end Gopmml.Props
