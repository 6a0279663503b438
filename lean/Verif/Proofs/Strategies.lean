import Verif.Proofs.Tree

/-!
# The missing-value strategies compute their specifications
-/

namespace Gopmml
open Spec

variable {F : Type} [Arith F] [Lib F] {dd : List DataField} {td : TD F} {d : TreeDoc F}

mutual
theorem evalNone_spec (row : Row F) : (n : Node F) → {cn : CNode F} →
    newNode (treeTypes dd td d) n = .ok cn → AllPreds n →
    (nodeTest (treeTypes dd td d) row n ≠ .t → evalNone (docCtx dd td d) row cn = .ok ([], .f)) ∧
    (nodeTest (treeTypes dd td d) row n = .t →
      ∃ r, FirstTrue (nodeTest (treeTypes dd td d) row) n r ∧
        evalNone (docCtx dd td d) row cn = .ok (ownDist dd d r, .t))
  | .mk id dc score rc dists nodes pred, cn, h, hp => by
    have ht := nodeTest_eq h (hp _ .refl) row
    have ho := outputScoreDist_eq h
    obtain ⟨cs, pred', hcs, -, rfl⟩ := newNode_ok h
    have hch := evalNoneChildren_spec row nodes hcs (fun c hc => allPreds_child hp hc)
    simp only [CNode.pred] at ht
    simp only [evalNone, ht, res_bind_ok]
    constructor
    · intro hn
      have : nodeTest (treeTypes dd td d) row (.mk id dc score rc dists nodes pred) = .f ∨
          nodeTest (treeTypes dd td d) row (.mk id dc score rc dists nodes pred) = .u := by
        cases hT : nodeTest (treeTypes dd td d) row (.mk id dc score rc dists nodes pred) <;> simp_all
      rw [if_pos this]; rfl
    · intro hT
      rw [hT]
      simp only [reduceCtorEq, or_self, if_false]
      rcases hch with ⟨hno, he⟩ | ⟨pre, c, post, r, hns, hpre, hc, hr, he⟩
      · rw [he]
        refine ⟨_, .stop (by simpa [Node.nodes] using hno), ?_⟩
        simp [ho]
      · rw [he]
        exact ⟨r, .step (by simpa [Node.nodes] using hns) hpre hc hr, rfl⟩
theorem evalNoneChildren_spec (row : Row F) : (ns : List (Node F)) → {cs : List (CNode F)} →
    newNodes (treeTypes dd td d) ns = .ok cs → (∀ c ∈ ns, AllPreds c) →
    ((∀ c ∈ ns, nodeTest (treeTypes dd td d) row c ≠ .t) ∧
        evalNoneChildren (docCtx dd td d) row cs = .ok none) ∨
    ∃ pre c post r, ns = pre ++ c :: post ∧
      (∀ e ∈ pre, nodeTest (treeTypes dd td d) row e ≠ .t) ∧
      nodeTest (treeTypes dd td d) row c = .t ∧ FirstTrue (nodeTest (treeTypes dd td d) row) c r ∧
      evalNoneChildren (docCtx dd td d) row cs = .ok (some (ownDist dd d r, .t))
  | [], cs, h, _ => by
    simp [newNodes] at h; subst h
    left; simp [evalNoneChildren]
  | n :: ns, cs, h, hp => by
    simp only [newNodes, bind_eq_ok] at h
    obtain ⟨cn, hn, cs', hcs, h⟩ := h
    simp at h; subst h
    have h1 := evalNone_spec row n hn (hp n (by simp))
    by_cases hT : nodeTest (treeTypes dd td d) row n = .t
    · obtain ⟨r, hr, he⟩ := h1.2 hT
      right
      exact ⟨[], n, ns, r, rfl, by simp, hT, hr, by simp [evalNoneChildren, he]⟩
    · have he := h1.1 hT
      rcases evalNoneChildren_spec row ns hcs (fun c hc => hp c (by simp [hc])) with
        ⟨hno, hs⟩ | ⟨pre, c, post, r, hns, hpre, hc, hr, hs⟩
      · left
        refine ⟨?_, by simp [evalNoneChildren, he, hs]⟩
        intro c hc
        rcases List.mem_cons.mp hc with rfl | hc
        · exact hT
        · exact hno c hc
      · right
        refine ⟨n :: pre, c, post, r, by simp [hns], ?_, hc, hr, by simp [evalNoneChildren, he, hs]⟩
        intro e he'
        rcases List.mem_cons.mp he' with rfl | he'
        · exact hT
        · exact hpre e he'
end

omit [Arith F] [Lib F] in
/-- The answering node is determined. -/
theorem firstTrue_unique {T : Node F → PredRes} {n r s : Node F} (h : FirstTrue T n r)
    (h' : FirstTrue T n s) : r = s := by
  induction h generalizing s with
  | stop hno =>
    cases h' with
    | stop _ => rfl
    | step hn _ hc _ => exact absurd hc (hno _ (by simp [hn]))
  | @step n c r pre post hn hpre hc _ ih =>
    cases h' with
    | stop hno => exact absurd hc (hno _ (by simp [hn]))
    | @step _ c' _ pre' post' hn' hpre' hc' hs =>
      rw [hn] at hn'
      have := first_unique (P := fun n => T n = .t) hn' hpre hc hpre' hc'
      subst this
      exact ih hs

mutual
theorem evalNull_spec (row : Row F) : (n : Node F) → {cn : CNode F} →
    newNode (treeTypes dd td d) n = .ok cn → AllPreds n →
    (nodeTest (treeTypes dd td d) row n = .f → evalNull (docCtx dd td d) row cn = .ok ([], .f)) ∧
    (nodeTest (treeTypes dd td d) row n ≠ .f →
      ((∃ r, Visits (nodeTest (treeTypes dd td d) row) r n ∧ nodeTest (treeTypes dd td d) row r = .u) ∧
        evalNull (docCtx dd td d) row cn = .ok ([], .u)) ∨
      ((∀ r, Visits (nodeTest (treeTypes dd td d) row) r n → nodeTest (treeTypes dd td d) row r ≠ .u) ∧
        ∃ r, FirstTrue (nodeTest (treeTypes dd td d) row) n r ∧
          evalNull (docCtx dd td d) row cn = .ok (ownDist dd d r, .t)))
  | .mk id dc score rc dists nodes pred, cn, h, hp => by
    have ht := nodeTest_eq h (hp _ .refl) row
    have ho := outputScoreDist_eq h
    obtain ⟨cs, pred', hcs, -, rfl⟩ := newNode_ok h
    have hch := evalNullChildren_spec row nodes hcs (fun c hc => allPreds_child hp hc)
    simp only [CNode.pred] at ht
    simp only [evalNull, ht, res_bind_ok]
    constructor
    · intro hn; simp [hn]
    · intro hT
      rw [if_neg hT]
      by_cases hu : nodeTest (treeTypes dd td d) row (.mk id dc score rc dists nodes pred) = .u
      · left
        exact ⟨⟨_, .here, hu⟩, by simp [hu]⟩
      · have hT' : nodeTest (treeTypes dd td d) row (.mk id dc score rc dists nodes pred) = .t := by
          cases hh : nodeTest (treeTypes dd td d) row (.mk id dc score rc dists nodes pred) <;> simp_all
        rw [if_neg hu]
        rcases hch with ⟨hno, he⟩ | ⟨pre, c, post, hns, hpre, hc, hres⟩
        · right
          rw [he]
          refine ⟨?_, _, .stop (by intro c hc; rw [hno c (by simpa [Node.nodes] using hc)]; simp), by simp [ho, hT']⟩
          intro r hv
          cases hv with
          | here => exact hu
          | step _ hn _ hcf _ =>
            simp only [Node.nodes] at hn
            exact absurd (hno _ (by simp [hn])) hcf
        · rcases hres with ⟨⟨r, hv, hr⟩, he⟩ | ⟨hall, r, hr, he⟩
          · left
            refine ⟨⟨r, .step hT' (by simpa [Node.nodes] using hns) hpre hc hv, hr⟩, by simp [he]⟩
          · right
            have hct : nodeTest (treeTypes dd td d) row c = .t := by
              have := hall c .here
              cases hh : nodeTest (treeTypes dd td d) row c <;> simp_all
            refine ⟨?_, r, .step (by simpa [Node.nodes] using hns)
              (fun e he => by rw [hpre e he]; simp) hct hr, by simp [he]⟩
            intro s hv
            cases hv with
            | here => exact hu
            | @step _ c' pre' post' _ hn' hpre' hc' hv' =>
              simp only [Node.nodes] at hn'
              rw [hns] at hn'
              have := first_unique (P := fun n => nodeTest (treeTypes dd td d) row n ≠ .f) hn'
                (fun a ha => by simp [hpre a ha]) hc (fun a ha => by simp [hpre' a ha]) hc'
              subst this
              exact hall s hv'
theorem evalNullChildren_spec (row : Row F) : (ns : List (Node F)) → {cs : List (CNode F)} →
    newNodes (treeTypes dd td d) ns = .ok cs → (∀ c ∈ ns, AllPreds c) →
    ((∀ c ∈ ns, nodeTest (treeTypes dd td d) row c = .f) ∧
        evalNullChildren (docCtx dd td d) row cs = .ok none) ∨
    ∃ pre c post, ns = pre ++ c :: post ∧
      (∀ e ∈ pre, nodeTest (treeTypes dd td d) row e = .f) ∧
      nodeTest (treeTypes dd td d) row c ≠ .f ∧
      (((∃ r, Visits (nodeTest (treeTypes dd td d) row) r c ∧ nodeTest (treeTypes dd td d) row r = .u) ∧
        evalNullChildren (docCtx dd td d) row cs = .ok (some ([], .u))) ∨
      ((∀ r, Visits (nodeTest (treeTypes dd td d) row) r c → nodeTest (treeTypes dd td d) row r ≠ .u) ∧
        ∃ r, FirstTrue (nodeTest (treeTypes dd td d) row) c r ∧
          evalNullChildren (docCtx dd td d) row cs = .ok (some (ownDist dd d r, .t))))
  | [], cs, h, _ => by
    simp [newNodes] at h; subst h
    left; simp [evalNullChildren]
  | n :: ns, cs, h, hp => by
    simp only [newNodes, bind_eq_ok] at h
    obtain ⟨cn, hn, cs', hcs, h⟩ := h
    simp at h; subst h
    have h1 := evalNull_spec row n hn (hp n (by simp))
    by_cases hT : nodeTest (treeTypes dd td d) row n = .f
    · have he := h1.1 hT
      rcases evalNullChildren_spec row ns hcs (fun c hc => hp c (by simp [hc])) with
        ⟨hno, hs⟩ | ⟨pre, c, post, hns, hpre, hc, hres⟩
      · left
        refine ⟨?_, by simp [evalNullChildren, he, hs]⟩
        intro c hc
        rcases List.mem_cons.mp hc with rfl | hc
        · exact hT
        · exact hno c hc
      · right
        refine ⟨n :: pre, c, post, by simp [hns], ?_, hc, ?_⟩
        · intro e he'
          rcases List.mem_cons.mp he' with rfl | he'
          · exact hT
          · exact hpre e he'
        · rcases hres with ⟨hu, hs⟩ | ⟨hall, r, hr, hs⟩
          · exact .inl ⟨hu, by simp [evalNullChildren, he, hs]⟩
          · exact .inr ⟨hall, r, hr, by simp [evalNullChildren, he, hs]⟩
    · right
      refine ⟨[], n, ns, rfl, by simp, hT, ?_⟩
      rcases h1.2 hT with ⟨hu, hs⟩ | ⟨hall, r, hr, hs⟩
      · exact .inl ⟨hu, by simp [evalNullChildren, hs]⟩
      · exact .inr ⟨hall, r, hr, by simp [evalNullChildren, hs]⟩
end

omit [Arith F] [Lib F] in
theorem unknownValues_iff {rs : List (NodeRes F)} :
    unknownValues rs = true ↔ ∃ a ∈ rs, a.2 = .u := by
  simp [unknownValues]

omit [Arith F] [Lib F] in
theorem trueDist_eq (rs : List (NodeRes F)) : trueDist rs = lastTrue rs := by
  unfold trueDist lastTrue
  have := foldl_last (fun r : NodeRes F => decide (r.2 = .t)) (·.1) rs []
  simp only [decide_eq_true_eq] at this
  rw [this]
  cases (rs.filter (fun r => decide (r.2 = .t))).getLast? <;> rfl

mutual
theorem evalLast_spec (row : Row F) : (n : Node F) → {cn : CNode F} →
    newNode (treeTypes dd td d) n = .ok cn → AllPreds n →
    evalLast (docCtx dd td d) row cn =
      .ok (lastAns (nodeTest (treeTypes dd td d) row) (ownDist dd d) n)
  | .mk id dc score rc dists nodes pred, cn, h, hp => by
    have ht := nodeTest_eq h (hp _ .refl) row
    have ho := outputScoreDist_eq h
    obtain ⟨cs, pred', hcs, -, rfl⟩ := newNode_ok h
    have hch := evalLastChildren_spec row nodes hcs (fun c hc => allPreds_child hp hc)
    simp only [CNode.pred] at ht
    simp only [evalLast, ht, res_bind_ok, hch, lastAns, trueDist_eq, ho, unknownValues_iff,
      not_exists, not_and]
    split_ifs with h1 <;> simp [h1]
theorem evalLastChildren_spec (row : Row F) : (ns : List (Node F)) → {cs : List (CNode F)} →
    newNodes (treeTypes dd td d) ns = .ok cs → (∀ c ∈ ns, AllPreds c) →
    evalLastChildren (docCtx dd td d) row cs =
      .ok (lastAns.lastAnss (nodeTest (treeTypes dd td d) row) (ownDist dd d) ns)
  | [], cs, h, _ => by
    simp [newNodes] at h; subst h
    simp [evalLastChildren, lastAns.lastAnss]
  | n :: ns, cs, h, hp => by
    simp only [newNodes, bind_eq_ok] at h
    obtain ⟨cn, hn, cs', hcs, h⟩ := h
    simp at h; subst h
    simp only [evalLastChildren, evalLast_spec row n hn (hp n (by simp)), res_bind_ok,
      evalLastChildren_spec row ns hcs (fun c hc => hp c (by simp [hc])), lastAns.lastAnss, res_pure]
end

theorem newNode_id {types : FieldTypes} {n : Node F} {cn : CNode F} (h : newNode types n = .ok cn) :
    cn.id = n.id := by
  obtain ⟨id, dc, score, rc, dists, nodes, pred⟩ := n
  obtain ⟨cs, pred', hcs, -, rfl⟩ := newNode_ok h
  rfl

theorem zip_ids {types : FieldTypes} {α : Type} {ns : List (Node F)} {cs : List (CNode F)}
    (h : List.Forall₂ (fun n cn => newNode types n = .ok cn) ns cs) (rs : List α) :
    (cs.zip rs).map (fun p => (p.1.id, p.2)) = (ns.zip rs).map (fun p => (p.1.id, p.2)) := by
  induction h generalizing rs with
  | nil => rfl
  | cons hn _ ih =>
    cases rs with
    | nil => rfl
    | cons r rs => simp [newNode_id hn, ih]

theorem filter_map_getLast? {α β : Type} (f : α → β) (p : β → Bool) (l : List α) :
    ((l.map f).filter p).getLast? = ((l.filter (fun a => p (f a))).getLast?).map f := by
  rw [List.filter_map]
  simp [List.getLast?_map, Function.comp_def]

theorem childScores_eq {types : FieldTypes} {ns : List (Node F)} {cs : List (CNode F)}
    (h : List.Forall₂ (fun n cn => newNode types n = .ok cn) ns cs) (rs : List (NodeRes F)) (dc : String) :
    (childScores cs rs)[dc]? = (answerOf dc ns rs).map (·.1) := by
  unfold childScores answerOf
  have e1 : (cs.zip rs).foldl (fun m p => m.insert p.1.id p.2.1) (∅ : GoMap (List (ScoreDist F))) =
      ((cs.zip rs).map (fun p => (p.1.id, p.2))).foldl (fun m p => m.insert p.1 p.2.1) ∅ := by
    rw [List.foldl_map]
  rw [e1, zip_ids h, foldl_insert_getElem? (fun p : String × NodeRes F => p.1), filter_map_getLast?]
  cases ((ns.zip rs).filter (fun p => decide (p.1.id = dc))).getLast? <;> simp

mutual
theorem evalDefault_spec (row : Row F) : (n : Node F) → {cn : CNode F} →
    newNode (treeTypes dd td d) n = .ok cn → AllPreds n →
    evalDefault (docCtx dd td d) row cn =
      .ok (defaultAns d.missingValuePenalty (nodeTest (treeTypes dd td d) row) (ownDist dd d) n)
  | .mk id dc score rc dists nodes pred, cn, h, hp => by
    have ht := nodeTest_eq h (hp _ .refl) row
    have ho := outputScoreDist_eq h
    obtain ⟨cs, pred', hcs, -, rfl⟩ := newNode_ok h
    have hch := evalDefaultChildren_spec row nodes hcs (fun c hc => allPreds_child hp hc)
    simp only [CNode.pred] at ht
    simp only [evalDefault, ht, res_bind_ok, hch, defaultAns, trueDist_eq, ho, unknownValues_iff,
      childScores_eq (newNodes_forall hcs)]
    split_ifs with h1 h2 h3 h4 <;> simp_all
    cases answerOf dc nodes _ <;> simp [penalize, docCtx]
theorem evalDefaultChildren_spec (row : Row F) : (ns : List (Node F)) → {cs : List (CNode F)} →
    newNodes (treeTypes dd td d) ns = .ok cs → (∀ c ∈ ns, AllPreds c) →
    evalDefaultChildren (docCtx dd td d) row cs =
      .ok (defaultAns.defaultAnss d.missingValuePenalty (nodeTest (treeTypes dd td d) row) (ownDist dd d) ns)
  | [], cs, h, _ => by
    simp [newNodes] at h; subst h
    simp [evalDefaultChildren, defaultAns.defaultAnss]
  | n :: ns, cs, h, hp => by
    simp only [newNodes, bind_eq_ok] at h
    obtain ⟨cn, hn, cs', hcs, h⟩ := h
    simp at h; subst h
    simp only [evalDefaultChildren, evalDefault_spec row n hn (hp n (by simp)), res_bind_ok,
      evalDefaultChildren_spec row ns hcs (fun c hc => hp c (by simp [hc])), defaultAns.defaultAnss,
      res_pure]
end

end Gopmml
