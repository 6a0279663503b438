import Verif.Spec.Reorder
import Verif.Proofs.Reworked

/-!
# Derived fields in another order
-/

namespace Gopmml
open Spec

variable {F : Type}

/-- Neighbours that have nothing to do with each other, exchanged any number of times. -/
inductive Swapped (L : List (DerivedField F)) : List (DerivedField F) → Prop
  | refl : Swapped L L
  | swap {pre post a b} : Swapped L (pre ++ a :: b :: post) → Unrelated a b → Swapped L (pre ++ b :: a :: post)

theorem Swapped.trans {L L' L'' : List (DerivedField F)} (h : Swapped L L') (h' : Swapped L' L'') :
    Swapped L L'' := by
  induction h' with
  | refl => exact h
  | swap _ hu ih => exact .swap ih hu

theorem Swapped.cons {L L' : List (DerivedField F)} (a : DerivedField F) (h : Swapped L L') :
    Swapped (a :: L) (a :: L') := by
  induction h with
  | refl => exact .refl
  | @swap pre post x y _ hu ih => exact .swap (pre := a :: pre) ih hu

theorem Spec.Unrelated.symm {a b : DerivedField F} (h : Unrelated a b) : Unrelated b a :=
  ⟨h.1.symm, h.2.2, h.2.1⟩

theorem swapped_front {a : DerivedField F} (pre post : List (DerivedField F)) (h : ∀ x ∈ pre, Unrelated x a) :
    Swapped (pre ++ a :: post) (a :: (pre ++ post)) := by
  induction pre with
  | nil => exact .refl
  | cons x pre ih =>
    have h1 := (ih fun y hy => h y (by simp [hy])).cons x
    exact .swap (pre := []) h1 (h x (by simp))

theorem reordered_swapped : ∀ (L' L : List (DerivedField F)), ReorderedFields L L' → Swapped L L'
  | [], L, h => by
    rw [h.perm.eq_nil]
    exact .refl
  | a :: T, L, h => by
    have hn' : (a :: T).Nodup := h.perm.nodup_iff.mp h.once
    have ha : a ∈ L := h.perm.mem_iff.mpr (by simp)
    obtain ⟨pre, post, rfl⟩ := List.append_of_mem ha
    have hn := h.once
    have hmid : (pre ++ a :: post).Perm (a :: (pre ++ post)) := List.perm_middle
    have hn2 : (a :: (pre ++ post)).Nodup := hmid.nodup_iff.mp hn
    rw [List.nodup_cons] at hn' hn2
    have hsub : (pre ++ post).Sublist (pre ++ a :: post) :=
      (List.Sublist.refl pre).append (List.sublist_cons_self a post)
    have hfront : ∀ x ∈ pre, Unrelated x a := by
      intro x hx
      by_contra hu
      have hxa : x ≠ a := by
        rintro rfl
        exact hn2.1 (by simp [hx])
      have hs : [x, a].Sublist (pre ++ a :: post) := by
        have : [x, a] = [x] ++ [a] := rfl
        rw [this]
        exact (List.singleton_sublist.mpr hx).append (List.singleton_sublist.mpr (by simp))
      have := h.keeps x a hu hs
      cases this with
      | cons _ h => exact hn'.1 (h.subset (by simp))
      | cons_cons _ h => exact hxa rfl
    refine (swapped_front pre post hfront).trans (Swapped.cons a (reordered_swapped T (pre ++ post) ?_))
    refine ⟨(hmid.symm.trans h.perm).cons_inv, hn2.2, fun x y hu hs => ?_⟩
    have := h.keeps x y hu (hs.trans hsub)
    cases this with
    | cons _ h => exact h
    | cons_cons _ h' => exact absurd (hs.subset (by simp)) hn2.1

theorem swapped_types {L L' : List (DerivedField F)} (h : Swapped L L') :
    TypesOff (fun _ => False) L L' := by
  intro f _
  induction h with
  | refl => rfl
  | @swap pre post a b _ hu ih =>
    rw [ih]
    simp only [List.filter_append, List.map_append]
    congr 2
    by_cases ha : a.name = f
    · have hb : b.name ≠ f := fun hb => hu.1 (ha.trans hb.symm)
      simp [ha, hb]
    · by_cases hb : b.name = f <;> simp [ha, hb]

variable [Arith F] [Lib F]

theorem handleInput_swap {a b : DerivedField F} (hu : Unrelated a b) (post : List (DerivedField F)) (row row' : Row F) :
    handleInput (a :: b :: post) row = (.ok (), row') → handleInput (b :: a :: post) row = (.ok (), row') := by
  intro h
  rw [handleInput] at h
  cases hva : handleExpression row a.expr with
  | error e => rw [hva] at h; simp at h
  | ok va =>
    rw [hva] at h
    simp only at h
    cases row with
    | none => simp [Row.set, panic] at h
    | some r =>
      simp only [Row.set, handleInput] at h
      have hb : handleExpression (some (r.insert a.name (storeValue a.opType va))) b.expr =
          handleExpression (some r) b.expr := by
        refine Props.C35_expression_frame b.expr fun f hf => ?_
        have : a.name ≠ f := fun e => hu.2.1 (e ▸ hf)
        simp [Row.get, GoMap.getElem?_insert, this]
      rw [hb] at h
      cases hvb : handleExpression (some r) b.expr with
      | error e => rw [hvb] at h; simp at h
      | ok vb =>
        rw [hvb] at h
        simp only at h
        have ha : handleExpression (some (r.insert b.name (storeValue b.opType vb))) a.expr =
            handleExpression (some r) a.expr := by
          refine Props.C35_expression_frame a.expr fun f hf => ?_
          have : b.name ≠ f := fun e => hu.2.2 (e ▸ hf)
          simp [Row.get, GoMap.getElem?_insert, this]
        have hc : (r.insert b.name (storeValue b.opType vb)).insert a.name (storeValue a.opType va) =
            (r.insert a.name (storeValue a.opType va)).insert b.name (storeValue b.opType vb) := by
          apply Std.ExtTreeMap.ext_getElem?
          intro k
          simp only [GoMap.getElem?_insert]
          by_cases h1 : a.name = k
          · have : b.name ≠ k := fun e => hu.1 (h1.trans e.symm)
            simp [h1, this]
          · simp [h1]
        simp only [handleInput, hvb, Row.set, ha, hva, hc]
        exact h

theorem handleInput_swapped {L L' : List (DerivedField F)} (h : Swapped L L') (row row' : Row F) :
    handleInput L row = (.ok (), row') ↔ handleInput L' row = (.ok (), row') := by
  induction h with
  | refl => exact Iff.rfl
  | @swap pre post a b _ hu ih =>
    rw [ih, Props.handleInput_append, Props.handleInput_append]
    rcases handleInput pre row with ⟨_ | ⟨⟨⟩⟩, row1⟩
    · exact Iff.rfl
    · exact ⟨handleInput_swap hu post row1 row', handleInput_swap hu.symm post row1 row'⟩

/-- Both succeed with the same row, or both fail. -/
theorem handleInput_reordered {L L' : List (DerivedField F)} (h : Swapped L L') (row : Row F) :
    (∃ row', handleInput L row = (.ok (), row') ∧ handleInput L' row = (.ok (), row')) ∨
    ∃ f f' row1 row2, handleInput L row = (.error f, row1) ∧ handleInput L' row = (.error f', row2) := by
  have hs := handleInput_swapped h row
  rcases h1 : handleInput L row with ⟨f | ⟨⟨⟩⟩, row1⟩
  · rcases h2 : handleInput L' row with ⟨f' | ⟨⟨⟩⟩, row2⟩
    · exact .inr ⟨f, f', row1, row2, rfl, rfl⟩
    · have := (hs row2).mpr h2
      rw [h1] at this; simp at this
  · exact .inl ⟨row1, rfl, (hs row1).mp h1⟩

variable [Trans F]

/-- The models give the same answer and the same row, or both fail. -/
def AlikeOrFail (m m' : EModel F) : Prop := ∀ o row,
  ((EModel.evaluate o m row).res = (EModel.evaluate o m' row).res ∧
    (EModel.evaluate o m row).row = (EModel.evaluate o m' row).row) ∨
  ∃ f f', (EModel.evaluate o m row).res = .error f ∧ (EModel.evaluate o m' row).res = .error f'

theorem tree_reordered {dd : List DataField} {d : TreeDoc F} {L : List (DerivedField F)}
    (hl : Swapped d.localTransformations L) {td td2 : TD F} (ht : TypesOff (fun _ => False) td td2) :
    ResRel AlikeOrFail (newModel dd (.tree d) td).1 (newModel dd (.tree { d with localTransformations := L }) td2).1 ∧
    TypesOff (fun _ => False) (newModel dd (.tree d) td).2
      (newModel dd (.tree { d with localTransformations := L }) td2).2 := by
  have ht' := ht.append (l := d.localTransformations) (l' := L) (swapped_types hl)
  have hty : ∀ f ∈ nodeFields d.node, (treeTypes dd td d)[f]? =
      (treeTypes dd td2 { d with localTransformations := L })[f]? := fun f _ => ht'.declared dd not_false
  have hnn := newNode_off d.node hty
  simp only [newModel]
  by_cases hfn : d.functionName ≠ .classification ∧ d.functionName ≠ .regression
  · rw [newTreeModel_bad hfn, newTreeModel_bad (d := { d with localTransformations := L }) hfn]
    exact ⟨.error _, ht⟩
  have g1 := newTreeModel_good (dd := dd) (td := td) hfn
  have g2 := newTreeModel_good (dd := dd) (td := td2) (d := { d with localTransformations := L }) hfn
  simp only at g2
  rw [← hnn] at g2
  cases hn : newNode (treeTypes dd td d) d.node with
  | error e =>
    rw [hn] at g1 g2
    simp only at g1 g2
    rw [g1, g2]
    exact ⟨.error _, ht'⟩
  | ok root =>
    rw [hn] at g1 g2
    obtain ⟨t, g1⟩ := g1
    obtain ⟨t2, g2⟩ := g2
    obtain ⟨-, -, hv, hcm, hk, hmod, htt, hctx, hroot⟩ := newTreeModel_ok g1
    obtain ⟨-, -, hv2, hcm2, hk2, hmod2, htt2, hctx2, hroot2⟩ := newTreeModel_ok g2
    rw [g1, g2]
    refine ⟨.ok fun o row => ?_, ht'⟩
    simp only [EModel.evaluate]
    obtain ⟨a1, a2, -⟩ := evaluate_eq hv hcm (by rw [hk]; exact keysOk_empty) o row
    obtain ⟨b1, b2, -⟩ := evaluate_eq hv2 hcm2 (by rw [hk2]; exact keysOk_empty) o row
    rw [a1, a2, b1, b2, hctx, hctx2, hmod, hmod2, htt, htt2]
    change newNode (treeTypes dd td2 { d with localTransformations := L }) d.node = _ at hroot2
    rw [← hnn, hn, Except.ok.injEq] at hroot2
    rw [hn, Except.ok.injEq] at hroot
    subst hroot
    rw [← hroot2]
    dsimp only
    rcases handleInput_reordered hl row with ⟨row1, p1, p2⟩ | ⟨f, f', row1, row2, p1, p2⟩
    · left
      rw [p1, p2]
      refine ⟨?_, rfl⟩
      have hs : SameTests (docCtx dd td d) (treeTypes dd td2 { d with localTransformations := L }) row1 row1
          t.root := by
        intro c hsub
        obtain ⟨k, hk, hkr⟩ := csub_origin d.node hn c hsub
        obtain ⟨id, dc, score, rc, dists, nodes, pred⟩ := k
        obtain ⟨cs, pred', -, hp, rfl⟩ := newNode_ok hkr
        cases pred with
        | none => subst hp; rfl
        | some p =>
          obtain ⟨p', hcp, rfl⟩ := hp
          refine runTest_off fun f hff => ?_
          rw [compile_fields p hcp] at hff
          exact ⟨hty f (nodeFields_sub hk rfl hff), rfl⟩
      have := evalNode_congr o hs
      simp only [this]
      rfl
    · right
      rw [p1, p2]
      exact ⟨f, f', rfl, rfl⟩

theorem sumSegments_orFail {ms ms2 : List (EModel F)} (h : List.Forall₂ AlikeOrFail ms ms2) :
    ∀ o fn i sm row, ((sumSegments o fn i sm ms row).res = (sumSegments o fn i sm ms2 row).res ∧
      (sumSegments o fn i sm ms row).row = (sumSegments o fn i sm ms2 row).row) ∨
      ∃ f f', (sumSegments o fn i sm ms row).res = .error f ∧ (sumSegments o fn i sm ms2 row).res = .error f' := by
  induction h with
  | nil => intros; left; simp only [sumSegments]; exact ⟨trivial, trivial⟩
  | cons h _ ih =>
    rename_i m m2 ms ms2 _
    intro o fn i sm row
    simp only [sumSegments]
    rcases h (o.at_ (2 * i)) row with ⟨h1, h2⟩ | ⟨f, f', h1, h2⟩
    · rw [h1, h2]
      cases (EModel.evaluate (o.at_ (2 * i)) m2 row).res with
      | error e => exact .inl ⟨rfl, rfl⟩
      | ok out => exact ih _ _ _ _ _
    · rw [h1, h2]
      exact .inr ⟨f, f', rfl, rfl⟩

theorem chainSegments_orFail {ms ms2 : List (EModel F)} (h : List.Forall₂ AlikeOrFail ms ms2) :
    ∀ o i last row, ((chainSegments o i last ms row).res = (chainSegments o i last ms2 row).res ∧
      (chainSegments o i last ms row).row = (chainSegments o i last ms2 row).row) ∨
      ∃ f f', (chainSegments o i last ms row).res = .error f ∧ (chainSegments o i last ms2 row).res = .error f' := by
  induction h with
  | nil => intros; left; simp only [chainSegments]; exact ⟨trivial, trivial⟩
  | cons h _ ih =>
    rename_i m m2 ms ms2 _
    intro o i last row
    simp only [chainSegments]
    rcases writeAll ((o.at_ (2 * i)).range (last.getD ∅)) row with ⟨_ | _, row1⟩
    · exact .inl ⟨rfl, rfl⟩
    dsimp only
    rcases h (o.at_ (2 * i + 1)) row1 with ⟨h1, h2⟩ | ⟨f, f', h1, h2⟩
    · rw [h1, h2]
      cases (EModel.evaluate (o.at_ (2 * i + 1)) m2 row1).res with
      | error e => exact .inl ⟨rfl, rfl⟩
      | ok out => exact ih _ _ _ _
    · rw [h1, h2]
      exact .inr ⟨f, f', rfl, rfl⟩

theorem mining_orFail {ms ms2 : List (EModel F)} (s : MiningState F) {segs : List (SegDoc F)}
    {L : List (DerivedField F)} (hl : segs.length = s.segments.length)
    (hL : Swapped s.head.localTransformations L) (h : List.Forall₂ AlikeOrFail ms ms2) :
    AlikeOrFail (.mining s ms)
      (.mining { s with segments := segs, head := { s.head with localTransformations := L } } ms2) := by
  intro o row
  simp only [EModel.evaluate]
  by_cases hv : s.validated = true
  swap
  · rw [if_pos hv, if_pos hv]; exact .inl ⟨rfl, rfl⟩
  by_cases hc : s.compiled = true
  swap
  · simp only [hv, not_true_eq_false, if_false]
    rw [if_pos hc, if_pos hc]; exact .inl ⟨rfl, rfl⟩
  simp only [hv, hc, not_true_eq_false, if_false, hl]
  rcases imputeLoop ((o.at_ 0).range s.defaultValues) row with ⟨_ | ⟨⟨⟩⟩, row1⟩
  · exact .inl ⟨rfl, rfl⟩
  dsimp only
  rcases handleInput_reordered hL row1 with ⟨row2, p1, p2⟩ | ⟨f, f', _, _, p1, p2⟩
  swap
  · rw [p1, p2]
    exact .inr ⟨f, f', rfl, rfl⟩
  rw [p1, p2]
  dsimp only
  have hs := sumSegments_orFail h (o.at_ 1) s.head.functionName 0 (initScores s) row2
  have hc := chainSegments_orFail h (o.at_ 1) 0 (some ∅) row2
  cases s.head.method with
  | average =>
    dsimp only
    rcases hs with hs | ⟨f, f', h1, h2⟩
    · left
      constructor
      · rw [hs.1]; rfl
      · exact hs.2
    · right
      rw [h1]
      refine ⟨f, f', rfl, ?_⟩
      change Except.map _ ((sumSegments (o.at_ 1) s.head.functionName 0 (initScores s) ms2 row2).res) = _
      rw [h2]
      rfl
  | sum =>
    dsimp only
    rcases hs with hs | ⟨f, f', h1, h2⟩
    · left
      constructor
      · rw [hs.1]; rfl
      · exact hs.2
    · right
      rw [h1]
      refine ⟨f, f', rfl, ?_⟩
      change Except.map _ ((sumSegments (o.at_ 1) s.head.functionName 0 (initScores s) ms2 row2).res) = _
      rw [h2]
      rfl
  | modelChain => exact hc
  | selectFirst =>
    cases h with
    | nil => simp only [selectFirst]; exact .inl ⟨trivial, trivial⟩
    | cons h _ => simp only [selectFirst]; exact h _ _
  | empty => exact .inl ⟨rfl, rfl⟩
  | other t => exact .inl ⟨rfl, rfl⟩

omit [Arith F] [Lib F] [Trans F] in
theorem ReorderedSegs.length_eq {segs segs' : List (SegDoc F)} (h : ReorderedSegs segs segs') :
    segs.length = segs'.length := by
  induction segs generalizing segs' with
  | nil => cases h; rfl
  | cons s segs ih => cases h with
    | cons _ h => simp [ih h]

omit [Arith F] [Lib F] [Trans F] in
theorem ReorderedDocs.length_eq {es es' : List (ModelElem F)} (h : ReorderedDocs es es') :
    es.length = es'.length := by
  induction es generalizing es' with
  | nil => cases h; rfl
  | cons s es ih => cases h with
    | cons _ h => simp [ih h]

mutual
theorem reordered_newModel {dd : List DataField} : (e : ModelElem F) → ∀ {e'} (td td2 : TD F), ReorderedDoc e e' →
    TypesOff (fun _ => False) td td2 →
    ResRel AlikeOrFail (newModel dd e td).1 (newModel dd e' td2).1 ∧
    TypesOff (fun _ => False) (newModel dd e td).2 (newModel dd e' td2).2
  | .tree d, _, td, td2, h, ht => by
    cases h with
    | tree h => exact tree_reordered (reordered_swapped _ _ h) ht
  | .regression d, _, td, td2, h, ht => by
    cases h
    simp only [newModel]
    exact ⟨.ok fun o row => .inl ⟨rfl, rfl⟩, ht⟩
  | .other k, _, td, td2, h, ht => by
    cases h
    simp only [newModel]
    exact ⟨.error _, ht⟩
  | .mining hd segs, _, td, td2, h, ht => by
    cases h with
    | @mining _ L _ segs' h1 h =>
    have hL := reordered_swapped _ _ h1
    have ht' := ht.append (l := hd.localTransformations) (l' := L) (swapped_types hL)
    rw [newModel, newModel]
    unfold MiningState.validate MiningState.init
    dsimp only
    generalize hmeth : (if hd.method = .empty then .sum else hd.method : MultipleModelMethod) = meth
    by_cases hm : meth = .average ∨ meth = .modelChain ∨ meth = .sum ∨ meth = .selectFirst
    swap
    · rw [if_neg hm, if_neg hm]
      exact ⟨.error _, ht⟩
    rw [if_pos hm, if_pos hm]
    by_cases ho : hd.outputs.all (fun f => decide (f.feature = .empty ∨ f.feature = .probability)) = true
    swap
    · rw [if_neg ho, if_neg ho]
      exact ⟨.error _, ht⟩
    rw [if_pos ho, if_pos ho]
    dsimp only
    obtain ⟨g1, g2, g3⟩ := reordered_segments (dd := dd) segs (td ++ hd.localTransformations) (td2 ++ L) h ht'
    rcases hc : compileSegments dd segs (td ++ hd.localTransformations) with ⟨r, ms, td1⟩
    rcases hc' : compileSegments dd segs' (td2 ++ L) with ⟨r', ms', td1'⟩
    rw [hc, hc'] at g1 g2 g3
    simp only at g1 g2 g3
    subst g1
    cases r with
    | error e => exact ⟨.error _, g3⟩
    | ok u =>
      refine ⟨.ok ?_, g3⟩
      exact mining_orFail { (MiningState.prepare (MiningState.init dd { hd with method := meth } segs)) with
        validated := true, compiled := true } (ReorderedSegs.length_eq h).symm hL g2
theorem reordered_segments {dd : List DataField} : (segs : List (SegDoc F)) → ∀ {segs'} (td td2 : TD F),
    ReorderedSegs segs segs' → TypesOff (fun _ => False) td td2 →
    (compileSegments dd segs td).1 = (compileSegments dd segs' td2).1 ∧
    List.Forall₂ AlikeOrFail (compileSegments dd segs td).2.1 (compileSegments dd segs' td2).2.1 ∧
    TypesOff (fun _ => False) (compileSegments dd segs td).2.2 (compileSegments dd segs' td2).2.2
  | [], _, td, td2, h, ht => by
    cases h
    simp only [compileSegments]
    exact ⟨trivial, .nil, ht⟩
  | .mk id ps [] :: segs, _, td, td2, h, ht => by
    cases h with
    | cons h1 h2 =>
      cases h1
      simp only [compileSegments]
      exact ⟨trivial, .nil, ht⟩
  | .mk id ps (e :: e2 :: es) :: segs, _, td, td2, h, ht => by
    cases h with
    | cons h1 h2 =>
      cases h1 with
      | cons a h1 =>
        cases h1 with
        | cons b h1 =>
          simp only [compileSegments, List.length_cons, ReorderedDocs.length_eq h1]
          exact ⟨trivial, .nil, ht⟩
  | .mk id ps [e] :: segs, _, td, td2, h, ht => by
    cases h with
    | cons h1 h2 =>
      cases h1 with
      | @cons _ e' _ _ a h1 =>
        cases h1
        obtain ⟨g1, g2⟩ := reordered_newModel (dd := dd) e td td2 a ht
        rw [compileSegments, compileSegments]
        rcases hc : newModel dd e td with ⟨r, td1⟩
        rcases hc' : newModel dd e' td2 with ⟨r', td1'⟩
        rw [hc, hc'] at g1 g2
        simp only at g1 g2
        cases g1 with
        | error e => exact ⟨rfl, .nil, g2⟩
        | ok hs =>
          obtain ⟨k1, k2, k3⟩ := reordered_segments (dd := dd) segs td1 td1' h2 g2
          exact ⟨k1, .cons hs k2, k3⟩
end

end Gopmml
