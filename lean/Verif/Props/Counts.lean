import Verif.Proofs.Counts
import Verif.Proofs.Real
import Verif.Props.Shared
import Verif.Props.MapOrder
import Verif.Model.Samples

/-!
# Property C67: record counts
-/

namespace Gopmml
open Spec

variable {F : Type} {Q : F → F → Prop}

theorem pickBest_rel [Arith F] {l l' : List (ScoreDist F)} (h : List.Forall₂ (ScoreRel Q) l l') :
    (pickBest l).value = (pickBest l').value := by
  have key : ∀ {b b' : ScoreDist F}, b.value = b'.value ∧ b.probability = b'.probability →
      ∀ {l l' : List (ScoreDist F)}, List.Forall₂ (ScoreRel Q) l l' →
      (l.foldl (fun b s => if Arith.lt b.probability s.probability then s else b) b).value =
      (l'.foldl (fun b s => if Arith.lt b.probability s.probability then s else b) b').value ∧
      (l.foldl (fun b s => if Arith.lt b.probability s.probability then s else b) b).probability =
      (l'.foldl (fun b s => if Arith.lt b.probability s.probability then s else b) b').probability := by
    intro b b' hb l l' h
    refine foldl_rel (S := fun b b' : ScoreDist F => b.value = b'.value ∧ b.probability = b'.probability)
      (fun c d s s' hcd hs => ?_) h hb
    rw [hcd.2, hs.probability]
    split_ifs
    · exact ⟨hs.value, hs.probability⟩
    · exact hcd
  exact (key ⟨rfl, rfl⟩ h).1

theorem report_rel [Arith F] [Lib F] {fn : MiningFunction} {target : String} {a a' : NodeRes F} (h : AnsRel Q a a') :
    report fn target a = report fn target a' := by
  obtain ⟨l, r⟩ := a
  obtain ⟨l', r'⟩ := a'
  obtain ⟨h, rfl : r = r'⟩ := h
  replace h : List.Forall₂ (ScoreRel Q) l l' := h
  have hc : ∀ label : String, classRow target label l = classRow target label l' := by
    intro label
    unfold classRow
    refine foldl_rel (S := Eq) (fun c d s s' hcd hs => ?_) h rfl
    rw [hcd, hs.value, hs.probability]
  unfold report
  split_ifs
  · rfl
  · cases fn with
    | classification => simp only [pickBest_rel h, hc]
    | regression =>
      cases h with
      | nil => rfl
      | cons h _ => simp only [h.value]
    | other s => rfl

theorem newTreeModel_bad [Arith F] [Lib F] {dd : List DataField} {td : TD F} {d : TreeDoc F}
    (hf : d.functionName ≠ .classification ∧ d.functionName ≠ .regression) :
    newTreeModel dd td d = (fail .unsupportedMiningFunction, td) := by
  unfold newTreeModel TreeModel.init TreeModel.validate
  rw [if_pos hf]

theorem newTreeModel_good [Arith F] [Lib F] {dd : List DataField} {td : TD F} {d : TreeDoc F}
    (hf : ¬ (d.functionName ≠ .classification ∧ d.functionName ≠ .regression)) :
    match newNode (treeTypes dd td d) d.node with
    | .error e => newTreeModel dd td d = (.error e, td ++ d.localTransformations)
    | .ok _ => ∃ t, newTreeModel dd td d = (.ok t, td ++ d.localTransformations) := by
  unfold newTreeModel TreeModel.init TreeModel.validate
  rw [if_neg hf]
  simp only [TreeModel.compile]
  unfold treeTypes
  cases newNode (buildTypes dd (td ++ d.localTransformations)) d.node with
  | error e => rfl
  | ok r => exact ⟨_, rfl⟩

variable [Arith F] [Lib F] [Trans F]

/-- Construction and evaluation of a tree with other record counts. -/
theorem tree_recounted {P : MapOrd → Prop} (hq : Q Arith.zero Arith.zero) {dd : List DataField} {d : TreeDoc F}
    {n' : Node F} (h : RecountedNode Q d.node n') (td : TD F)
    (hm : d.missingValueStrategy ≠ .weightedConfidence ∧ d.missingValueStrategy ≠ .aggregateNodes ∨
      Proportional Q ∧ ∀ o, P o → o.Natural) :
    ResRel (SameFor P) (newModel dd (.tree d) td).1 (newModel dd (.tree { d with node := n' }) td).1 ∧
    (newModel dd (.tree d) td).2 = (newModel dd (.tree { d with node := n' }) td).2 := by
  have hn := newNode_rel (types := treeTypes dd td d) d.node h
  by_cases hf : d.functionName = .classification ∨ d.functionName = .regression
  swap
  · have hf' : d.functionName ≠ .classification ∧ d.functionName ≠ .regression := by
      rw [not_or] at hf; exact hf
    simp only [newModel, newTreeModel_bad hf', newTreeModel_bad (d := { d with node := n' }) hf']
    exact ⟨.error _, trivial⟩
  · have hf' : ¬ (d.functionName ≠ .classification ∧ d.functionName ≠ .regression) := by
      rcases hf with h | h <;> simp [h]
    have key : ∀ n, newNode (treeTypes dd td d) d.node = n → ∀ n2, newNode (treeTypes dd td d) n' = n2 →
        ResRel (CNodeRel Q) n n2 → ResRel (SameFor P) (newModel dd (.tree d) td).1
          (newModel dd (.tree { d with node := n' }) td).1 ∧
        (newModel dd (.tree d) td).2 = (newModel dd (.tree { d with node := n' }) td).2 := by
      intro n hn1 n2 hn2 hr
      have h1 := newTreeModel_good (dd := dd) (td := td) hf'
      have h2 := newTreeModel_good (dd := dd) (td := td) (d := { d with node := n' }) hf'
      change match newNode (treeTypes dd td d) n' with | .error e => _ | .ok _ => _ at h2
      rw [hn1] at h1
      rw [hn2] at h2
      cases hr with
      | error e =>
        simp only at h1 h2
        simp only [newModel, h1, h2]
        exact ⟨.error _, trivial⟩
      | ok hc =>
        obtain ⟨t, h1⟩ := h1
        obtain ⟨t2, h2⟩ := h2
        obtain ⟨-, -, hv, hcm, hk, hmod, ht, hctx, hroot⟩ := newTreeModel_ok h1
        obtain ⟨-, -, hv2, hcm2, hk2, hmod2, ht2, hctx2, hroot2⟩ := newTreeModel_ok h2
        simp only [newModel, h1, h2]
        refine ⟨.ok fun o ho row => ?_, trivial⟩
        simp only [EModel.evaluate]
        obtain ⟨a1, a2, -⟩ := evaluate_eq hv hcm (by rw [hk]; exact keysOk_empty) o row
        obtain ⟨b1, b2, -⟩ := evaluate_eq hv2 hcm2 (by rw [hk2]; exact keysOk_empty) o row
        rw [a1, a2, b1, b2, hctx, hctx2, hmod, hmod2, ht, ht2]
        refine ⟨?_, rfl⟩
        rw [hn1, Except.ok.injEq] at hroot
        change newNode (treeTypes dd td d) n' = _ at hroot2
        rw [hn2, Except.ok.injEq] at hroot2
        subst hroot hroot2
        rcases handleInput d.localTransformations row with ⟨_ | _, row1⟩
        · rfl
        · have := evalNode_rel (c := docCtx dd td d) (o := o) (row := row1) hq
            (by rcases hm with hm | hm
                · exact .inl hm
                · exact .inr ⟨hm.1, hm.2 o ho⟩) hc
          change (match evalNode (docCtx dd td d) o row1 t.root with
            | .error e => _ | .ok a => _) = (match evalNode (docCtx dd td d) o row1 t2.root with
            | .error e => _ | .ok a => _)
          revert this
          generalize evalNode (docCtx dd td d) o row1 t.root = x
          generalize evalNode (docCtx dd td d) o row1 t2.root = y
          intro this
          cases this with
          | error e => rfl
          | ok h => exact report_rel h
    exact key _ rfl _ rfl hn

mutual
theorem recounted_newModel {P : MapOrd → Prop} (hP : ∀ o i, P o → P (o.at_ i)) (hq : Q Arith.zero Arith.zero)
    {dd : List DataField} : (e : ModelElem F) → ∀ {e'} (td : TD F), Recounted Q e e' →
    (Props.NoMixingDoc e ∨ Proportional Q ∧ ∀ o, P o → o.Natural) →
    ResRel (SameFor P) (newModel dd e td).1 (newModel dd e' td).1 ∧ (newModel dd e td).2 = (newModel dd e' td).2
  | .tree d, _, td, h, hm => by
    cases h with
    | tree h =>
      refine tree_recounted hq h td ?_
      rcases hm with hm | hm
      · cases hm with
        | tree h1 h2 => exact .inl ⟨h1, h2⟩
      · exact .inr hm
  | .regression d, _, td, h, hm => by
    cases h
    simp only [newModel]
    exact ⟨.ok fun o _ row => ⟨rfl, rfl⟩, trivial⟩
  | .other k, _, td, h, hm => by
    cases h
    simp only [newModel]
    exact ⟨.error _, trivial⟩
  | .mining hd segs, _, td, h, hm => by
    cases h with
    | @mining _ _ segs' h =>
    have hv' : (MiningState.init dd hd segs').validate = (((MiningState.init dd hd segs).validate).1,
        { ((MiningState.init dd hd segs).validate).2 with segments := segs' }) := by
      unfold MiningState.validate MiningState.init
      simp only
      split_ifs <;> rfl
    have hseg : ((MiningState.init dd hd segs).validate).2.segments = segs := by
      unfold MiningState.validate MiningState.init
      simp only
      split_ifs <;> rfl
    rw [newModel, newModel, hv']
    rcases hv : (MiningState.init dd hd segs).validate with ⟨_ | ⟨⟨⟩⟩, s⟩
    · exact ⟨.error _, rfl⟩
    · rw [hv] at hseg
      simp only at hseg ⊢
      obtain ⟨h1, h2, h3⟩ := recounted_segments hP hq segs (td ++ s.head.localTransformations) h
        (by rcases hm with hm | hm
            · cases hm with
              | mining hm => exact .inl hm
            · exact .inr hm)
      rcases hc : compileSegments dd segs (td ++ s.head.localTransformations) with ⟨r, ms, td1⟩
      rcases hc' : compileSegments dd segs' (td ++ s.head.localTransformations) with ⟨r', ms', td1'⟩
      rw [hc, hc'] at h1 h2 h3
      simp only at h1 h2 h3
      subst h1 h3
      cases r with
      | error e => exact ⟨.error _, rfl⟩
      | ok u =>
        refine ⟨.ok ?_, rfl⟩
        exact mining_for hP _ (by simp only [MiningState.prepare, hseg]; exact h.length_eq.symm) h2
theorem recounted_segments {P : MapOrd → Prop} (hP : ∀ o i, P o → P (o.at_ i)) (hq : Q Arith.zero Arith.zero)
    {dd : List DataField} : (segs : List (SegDoc F)) → ∀ {segs'} (td : TD F),
    List.Forall₂ (RecountedSeg Q) segs segs' →
    ((∀ id ps es e, SegDoc.mk id ps es ∈ segs → e ∈ es → Props.NoMixingDoc e) ∨
      Proportional Q ∧ ∀ o, P o → o.Natural) →
    (compileSegments dd segs td).1 = (compileSegments dd segs' td).1 ∧
    List.Forall₂ (SameFor P) (compileSegments dd segs td).2.1 (compileSegments dd segs' td).2.1 ∧
    (compileSegments dd segs td).2.2 = (compileSegments dd segs' td).2.2
  | [], _, td, h, hm => by
    cases h
    simp only [compileSegments]
    exact ⟨trivial, .nil, trivial⟩
  | .mk id ps [] :: segs, _, td, h, hm => by
    cases h with
    | cons h1 h2 =>
      cases h1 with
      | mk h1 =>
        cases h1
        simp only [compileSegments]
        exact ⟨trivial, .nil, trivial⟩
  | .mk id ps (e :: e2 :: es) :: segs, _, td, h, hm => by
    cases h with
    | cons h1 h2 =>
      cases h1 with
      | mk h1 =>
        cases h1 with
        | cons a h1 =>
          cases h1 with
          | cons b h1 =>
            simp only [compileSegments, List.length_cons, h1.length_eq]
            exact ⟨trivial, .nil, trivial⟩
  | .mk id ps [e] :: segs, _, td, h, hm => by
    cases h with
    | cons h1 h2 =>
      cases h1 with
      | mk h1 =>
        cases h1 with
        | @cons _ e' _ _ a h1 =>
          cases h1
          obtain ⟨g1, g2⟩ := recounted_newModel hP hq (dd := dd) e td a
            (by rcases hm with hm | hm
                · exact .inl (hm id ps [e] e (by simp) (by simp))
                · exact .inr hm)
          rw [compileSegments, compileSegments]
          rcases hc : newModel dd e td with ⟨r, td1⟩
          rcases hc' : newModel dd e' td with ⟨r', td1'⟩
          rw [hc, hc'] at g1 g2
          simp only at g1 g2
          subst g2
          cases g1 with
          | error e => exact ⟨rfl, .nil, rfl⟩
          | ok g =>
            obtain ⟨k1, k2, k3⟩ := recounted_segments hP hq segs td1 h2
              (by rcases hm with hm | hm
                  · exact .inl fun id ps es e hmem => hm id ps es e (by simp [hmem])
                  · exact .inr hm)
            exact ⟨k1, .cons g k2, k3⟩
end

omit [Arith F] [Lib F] [Trans F] in
theorem natural_sorted : MapOrd.sorted.Natural := fun _ _ _ _ _ => rfl

omit [Arith F] [Lib F] [Trans F] in
theorem natural_reversed : MapOrd.reversed.Natural := fun _ _ _ _ _ => List.map_reverse.symm

section
variable {k : ℝ}

theorem shares_scaled (hk : k ≠ 0) (ds : List (ScoreDistribution ℝ)) :
    shares ds = shares (ds.map fun s => { s with recordCount := k * s.recordCount }) := by
  have hs : Spec.sum ((ds.map fun s => { s with recordCount := k * s.recordCount }).map (·.recordCount)) =
      k * Spec.sum (ds.map (·.recordCount)) := by
    rw [Real'.sum_eq, Real'.sum_eq, List.map_map, ← List.sum_map_mul_left]
    simp [Function.comp_def]
  unfold shares
  rw [hs, List.map_map]
  refine List.map_congr_left fun s _ => ?_
  simp only [Function.comp_apply, Real'.div_eq]
  rw [mul_div_mul_left _ _ hk]

mutual
theorem recountNode_scaled (hk : k ≠ 0) : (n : Node ℝ) →
    RecountedNode (fun a b => b = k * a) n (recountNode (k * ·) n)
  | .mk id dc score rc ds ns p => by
    rw [recountNode]
    refine .mk rfl (shares_scaled hk ds) ?_ (recountNodes_scaled hk ns)
    rw [List.forall₂_map_right_iff]
    exact List.forall₂_same.mpr fun _ _ => rfl
theorem recountNodes_scaled (hk : k ≠ 0) : (ns : List (Node ℝ)) →
    List.Forall₂ (RecountedNode (fun a b => b = k * a)) ns (recountNodes (k * ·) ns)
  | [] => .nil
  | n :: ns => .cons (recountNode_scaled hk n) (recountNodes_scaled hk ns)
end

mutual
theorem recount_scaled (hk : k ≠ 0) : (e : ModelElem ℝ) → Recounted (fun a b => b = k * a) e (recount (k * ·) e)
  | .tree d => .tree (recountNode_scaled hk d.node)
  | .regression _ => .regression
  | .mining _ segs => .mining (recountSegs_scaled hk segs)
  | .other _ => .other
theorem recountSegs_scaled (hk : k ≠ 0) : (segs : List (SegDoc ℝ)) →
    List.Forall₂ (RecountedSeg (fun a b => b = k * a)) segs (recountSegs (k * ·) segs)
  | [] => .nil
  | .mk _ _ es :: segs => .cons (.mk (recounts_scaled hk es)) (recountSegs_scaled hk segs)
theorem recounts_scaled (hk : k ≠ 0) : (es : List (ModelElem ℝ)) →
    List.Forall₂ (Recounted (fun a b => b = k * a)) es (recounts (k * ·) es)
  | [] => .nil
  | e :: es => .cons (recount_scaled hk e) (recounts_scaled hk es)
end

theorem proportional_scaled (hk : k ≠ 0) : Proportional (fun a b : ℝ => b = k * a) where
  zero := by simp [Real'.zero_eq]
  add := by rintro a _ b _ rfl rfl; simp only [Real'.add_eq]; ring
  div := by rintro a _ b _ rfl rfl; simp only [Real'.div_eq]; rw [mul_div_mul_left _ _ hk]
end

end Gopmml

namespace Gopmml.Props
open Gopmml Spec

variable {F : Type} [Arith F] [Lib F] [Trans F]

/-- **C67**: where no tree of a document uses weightedConfidence or aggregateNodes, the record counts
matter only through the shares that stand in for confidences and probabilities not given. Documents
that differ in other record counts are accepted or rejected alike, and answer alike. Any arithmetic. -/
theorem C67_ignored {dd : List DataField} {e e' : ModelElem F} (h : Recounted (fun _ _ => True) e e')
    (hm : NoMixingDoc e) (td : TD F) :
    (∀ f td', newModel dd e td = (.error f, td') ↔ newModel dd e' td = (.error f, td')) ∧
    ∀ m td', newModel dd e td = (.ok m, td') → ∃ m', newModel dd e' td = (.ok m', td') ∧
      ∀ o row, (EModel.evaluate o m' row).res = (EModel.evaluate o m row).res ∧
        (EModel.evaluate o m' row).row = (EModel.evaluate o m row).row := by
  obtain ⟨h1, h2⟩ := recounted_newModel (P := fun _ => True) (fun _ _ _ => trivial) trivial (dd := dd) e td h (.inl hm)
  rcases hc : newModel dd e td with ⟨r, td1⟩
  rcases hc' : newModel dd e' td with ⟨r', td1'⟩
  rw [hc, hc'] at h1 h2
  simp only at h1 h2
  subst h2
  cases h1 with
  | error f => exact ⟨fun f td' => by simp, fun m td' h => by simp at h⟩
  | ok h =>
    refine ⟨fun f td' => by simp, fun m td' hm => ?_⟩
    simp only [Prod.mk.injEq, Except.ok.injEq] at hm
    obtain ⟨rfl, rfl⟩ := hm
    exact ⟨_, rfl, fun o row => ⟨(h o trivial row).1.symm, (h o trivial row).2.symm⟩⟩

/-- **C67** (all strategies): in exact arithmetic multiplying every record count of a document by the
same factor changes nothing, provided the order in which a map is iterated does not depend on what is
stored in it (with equal probabilities the label reported depends on that order). -/
theorem C67_scaled [Lib ℝ] {k : ℝ} (hk : k ≠ 0) {dd : List DataField} (e : ModelElem ℝ) (td : TD ℝ) :
    (∀ f td', newModel dd e td = (.error f, td') ↔ newModel dd (recount (k * ·) e) td = (.error f, td')) ∧
    ∀ m td', newModel dd e td = (.ok m, td') → ∃ m', newModel dd (recount (k * ·) e) td = (.ok m', td') ∧
      ∀ o : MapOrd, o.Natural → ∀ row, (EModel.evaluate o m' row).res = (EModel.evaluate o m row).res ∧
        (EModel.evaluate o m' row).row = (EModel.evaluate o m row).row := by
  obtain ⟨h1, h2⟩ := recounted_newModel (P := MapOrd.Natural) (fun _ i h => h.at_ i)
    (proportional_scaled hk).zero (dd := dd) e td (recount_scaled hk e) (.inr ⟨proportional_scaled hk, fun _ h => h⟩)
  rcases hc : newModel dd e td with ⟨r, td1⟩
  rcases hc' : newModel dd (recount (k * ·) e) td with ⟨r', td1'⟩
  rw [hc, hc'] at h1 h2
  simp only at h1 h2
  subst h2
  cases h1 with
  | error f => exact ⟨fun f td' => by simp, fun m td' h => by simp at h⟩
  | ok h =>
    refine ⟨fun f td' => by simp, fun m td' hm => ?_⟩
    simp only [Prod.mk.injEq, Except.ok.injEq] at hm
    obtain ⟨rfl, rfl⟩ := hm
    exact ⟨_, rfl, fun o ho row => ⟨(h o ho row).1.symm, (h o ho row).2.symm⟩⟩

/-! Examples. -/
namespace CountsExample
open Samples Replay

/-- Three times as many records. -/
def tripled : N := recountNode (Arith.mul (num "3")) golfCounts

theorem tripled_rel : RecountedNode (fun _ _ => True) golfCounts tripled :=
  .mk trivial (by decide +kernel) (.cons trivial (.cons trivial (.cons trivial .nil)))
    (.cons (.mk trivial (by decide +kernel) (.cons trivial (.cons trivial (.cons trivial .nil)))
      (.cons (.mk trivial (by decide +kernel) (.cons trivial (.cons trivial (.cons trivial .nil))) .nil)
      (.cons (.mk trivial (by decide +kernel) (.cons trivial (.cons trivial (.cons trivial .nil))) .nil) .nil)))
    (.cons (.mk trivial (by decide +kernel) (.cons trivial (.cons trivial (.cons trivial .nil))) .nil) .nil))

/-- The tree of tree_test.go inside an ensemble: the hypotheses of `C67_ignored`, and an answer. -/
example : Recounted (fun _ _ => True)
      (.mining (head .selectFirst) [seg (.tree (doc .defaultChild "0.8" golfCounts))])
      (.mining (head .selectFirst) [seg (.tree (doc .defaultChild "0.8" tripled))]) ∧
    NoMixingDoc (.mining (head .selectFirst) [seg (.tree (doc .defaultChild "0.8" golfCounts))]) ∧
    (newModel Replay.dd (.mining (head .selectFirst) [seg (.tree (doc .defaultChild "0.8" golfCounts))]) []).1.isOk ∧
    lookup (run (doc .defaultChild "0.8" tripled) [("outlook", .str "sunny")]) "whatIdo" = some (.str "will play") := by
  refine ⟨.mining (.cons (.mk (.cons (.tree tripled_rel) .nil)) .nil), .mining ?_, ?_⟩
  · intro id ps es e hs he
    simp only [seg, List.mem_singleton, SegDoc.mk.injEq] at hs
    obtain ⟨-, -, rfl⟩ := hs
    rw [List.mem_singleton] at he
    subst he
    exact .tree (by decide) (by decide)
  · decide +kernel

/-- The condition of `C67_ignored` is needed: with another count for one node only, aggregateNodes
and weightedConfidence give other answers, although all shares are the same. -/
def lopsided : N :=
  match golfCounts with
  | .mk id dc score rc ds [a, .mk id' dc' score' _ ds' ns' p'] p =>
    .mk id dc score rc ds [a, .mk id' dc' score' (num "5000")
      (ds'.map fun s => { s with recordCount := Arith.mul (num "100") s.recordCount }) ns' p'] p
  | n => n

example : RecountedNode (fun _ _ => True) golfCounts lopsided ∧
    (∀ s ∈ [MissingValueStrategy.aggregateNodes, .weightedConfidence],
      lookup (run (doc s "0.8" golfCounts) []) "whatIdo" =
        some (.str "will play") ∧
      lookup (run (doc s "0.8" lopsided) []) "whatIdo" =
        some (.str "may play")) := by
  refine ⟨?_, by decide +kernel⟩
  exact .mk trivial (by decide +kernel) (.cons trivial (.cons trivial (.cons trivial .nil)))
    (.cons (.mk trivial (by decide +kernel) (.cons trivial (.cons trivial (.cons trivial .nil)))
      (.cons (.mk trivial (by decide +kernel) (.cons trivial (.cons trivial (.cons trivial .nil))) .nil)
      (.cons (.mk trivial (by decide +kernel) (.cons trivial (.cons trivial (.cons trivial .nil))) .nil) .nil)))
    (.cons (.mk trivial (by decide +kernel) (.cons trivial (.cons trivial (.cons trivial .nil))) .nil) .nil))

/-- Orders that depend on the keys only. -/
example : MapOrd.sorted.Natural ∧ MapOrd.reversed.Natural := ⟨natural_sorted, natural_reversed⟩

end CountsExample

/-- **C67** (float64): with rounding, scaling the counts may change an answer: a tenth of every count
of the tree of tree_test.go gives another number under aggregateNodes and weightedConfidence. -/
theorem C67_rounding :
    ∀ s ∈ [MissingValueStrategy.aggregateNodes, .weightedConfidence],
      Replay.run (Replay.doc s "0.8" Replay.golfCounts)
        [("temperature", .int .int 45), ("humidity", .int .int 60)] ≠
      Replay.run (Replay.doc s "0.8" (recountNode (Arith.mul (Replay.num "0.1")) Replay.golfCounts))
        [("temperature", .int .int 45), ("humidity", .int .int 60)] := by
  decide +kernel

end Gopmml.Props
