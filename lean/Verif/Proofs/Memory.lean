import Verif.Spec.Memory
import Verif.Props.Ensemble
import Verif.Props.History

/-!
# What answers, rows and evaluators may contain: proofs
-/

namespace Gopmml

open Spec Props

variable {F : Type}

/-! ### Labels of tree answers -/

mutual
/-- The labels held by a compiled node. -/
def cLabels : CNode F → List String
  | .mk _ _ sd score _ cs => score.value :: (sd.map (·.value) ++ cLabelsList cs)
def cLabelsList : List (CNode F) → List String
  | [] => []
  | n :: ns => cLabels n ++ cLabelsList ns
end

/-- All labels of a distribution lie in `L`. -/
def DistIn (L : List String) (ds : List (ScoreDist F)) : Prop := ∀ s ∈ ds, s.value ∈ L

theorem DistIn.nil {L : List String} : DistIn L ([] : List (ScoreDist F)) := by
  intro s hs; simp at hs

theorem trueDist_in {L : List String} (rs : List (NodeRes F)) (h : ∀ r ∈ rs, DistIn L r.1) :
    DistIn L (trueDist rs) := by
  unfold trueDist
  have : ∀ acc, DistIn L acc →
      DistIn L (rs.foldl (fun acc r => if r.2 = .t then r.1 else acc) acc) := by
    induction rs with
    | nil => intro acc ha; exact ha
    | cons r rs ih =>
      intro acc ha
      refine ih (fun r hr => h r (by simp [hr])) _ ?_
      change DistIn L (if r.2 = .t then r.1 else acc)
      split
      · exact h r (by simp)
      · exact ha
  exact this [] DistIn.nil

theorem insertAll_in {α : Type} {L : List String} (k : α → String) (v : α → List (ScoreDist F))
    (l : List α) (h : ∀ a ∈ l, DistIn L (v a)) {x : String} {ds : List (ScoreDist F)}
    (hx : (l.foldl (fun m a => m.insert (k a) (v a)) (∅ : GoMap (List (ScoreDist F))))[x]? = some ds) :
    DistIn L ds := by
  rw [foldl_insert_getElem?] at hx
  cases hl : (l.filter (fun a => k a = x)).getLast? with
  | none => rw [hl] at hx; simp at hx
  | some a =>
    rw [hl] at hx
    simp only [Option.some.injEq] at hx
    subst hx
    exact h a (List.mem_filter.mp (List.mem_of_getLast? hl)).1

variable [Arith F]

theorem outputScoreDist_in {c : TreeCtx F} {L : List String} (n : CNode F)
    (ht : ∀ v ∈ targetValues c.dd c.targetField, v ∈ L) (hn : ∀ l ∈ cLabels n, l ∈ L) :
    DistIn L (outputScoreDist c n) := by
  obtain ⟨id, dc, sd, sc, pred, cs⟩ := n
  unfold outputScoreDist
  change DistIn L (if cs ≠ [] ∧ c.noTrueChild = .returnNullPrediction then []
    else if sd ≠ [] then sd else if c.targetField ≠ "" then targetDist c sc else [sc])
  split
  · exact DistIn.nil
  split
  · intro s hs
    exact hn _ (by simp only [cLabels, List.mem_cons, List.mem_append, List.mem_map]; exact .inr (.inl ⟨s, hs, rfl⟩))
  split
  · intro s hs
    unfold targetDist at hs
    simp only [List.mem_flatMap] at hs
    obtain ⟨f, hf, hs⟩ := hs
    split_ifs at hs with hfn
    · simp only [List.mem_map] at hs
      obtain ⟨v, hv, rfl⟩ := hs
      have hm : v ∈ targetValues c.dd c.targetField := by
        unfold targetValues
        simp only [List.mem_flatMap, List.mem_filter, decide_eq_true_eq]
        exact ⟨f, ⟨hf, hfn⟩, hv⟩
      split_ifs
      · exact ht _ hm
      · exact ht _ hm
    · simp at hs
  · intro s hs
    simp only [List.mem_singleton] at hs
    subst hs
    exact hn _ (by simp [cLabels])

/-- All entries of an aggregate are named by their key, which lies in `L`. -/
def AggIn (L : List String) (agg : GoMap (ScoreDist F)) : Prop :=
  ∀ (k : String) s, agg[k]? = some s → s.value ∈ L

omit [Arith F] in
theorem AggIn.insert {L : List String} {agg : GoMap (ScoreDist F)} (h : AggIn L agg) {k : String}
    {s : ScoreDist F} (hs : s.value ∈ L) : AggIn L (agg.insert k s) := by
  intro x t hx
  rw [GoMap.getElem?_insert] at hx
  split_ifs at hx with he
  · simp only [Option.some.injEq] at hx; subst hx; exact hs
  · exact h x t hx

omit [Arith F] in
theorem AggIn.getD {L : List String} {agg : GoMap (ScoreDist F)} (h : AggIn L agg) {k : String}
    {d : ScoreDist F} (hd : d.value ∈ L) : ((agg[k]?).getD d).value ∈ L := by
  cases hk : agg[k]? with
  | none => exact hd
  | some s => exact h k s hk

theorem weightedAgg_in {L : List String} (o : MapOrd) (live : List (CNode F × NodeRes F))
    (h : ∀ p ∈ live, DistIn L p.2.1) : AggIn L (weightedAgg o live) := by
  unfold weightedAgg
  have hl : ∀ p ∈ o.range (liveScores live), DistIn L p.2 := by
    intro p hp
    rw [MapOrd.mem_range] at hp
    exact insertAll_in (fun p : CNode F × NodeRes F => p.1.id) (fun p => p.2.1) live h hp
  generalize o.range (liveScores live) = es at hl
  have key : ∀ agg, AggIn L agg → AggIn L (es.foldl (fun agg p =>
      p.2.foldl (weightedStep
        (Arith.div (((childRecordCounts live)[p.1]?).getD Arith.zero) (totalRecordCount live))) agg)
      agg) := by
    induction es with
    | nil => intro agg ha; exact ha
    | cons p es ih =>
      intro agg ha
      refine ih (fun q hq => hl q (by simp [hq])) _ ?_
      have hp := hl p (by simp)
      obtain ⟨k, ds⟩ := p
      simp only at hp ⊢
      generalize Arith.div (((childRecordCounts live)[k]?).getD Arith.zero) (totalRecordCount live) = w
      clear hl
      induction ds generalizing agg with
      | nil => exact ha
      | cons s ds ihd =>
        refine ihd _ ?_ ?_
        · unfold weightedStep
          exact ha.insert (ha.getD (hp s (by simp)))
        · exact fun t ht => hp t (by simp [ht])
  exact key ∅ (fun k s hk => by simp at hk)

theorem aggregateDist_in {L : List String} (o : MapOrd) (ds : List (ScoreDist F)) (h : DistIn L ds) :
    DistIn L (aggregateDist o ds) := by
  have key : ∀ agg, AggIn L agg → AggIn L (ds.foldl aggregateStep agg) := by
    induction ds with
    | nil => intro agg ha; exact ha
    | cons s ds ih =>
      intro agg ha
      refine ih (fun t ht => h t (by simp [ht])) _ ?_
      unfold aggregateStep
      exact ha.insert (ha.getD (h s (by simp)))
  intro s hs
  unfold aggregateDist at hs
  simp only [List.mem_map] at hs
  obtain ⟨p, hp, rfl⟩ := hs
  rw [MapOrd.mem_range] at hp
  exact key ∅ (fun k s hk => by simp at hk) p.1 p.2 hp

variable [Lib F]

section strategies

set_option linter.unusedSectionVars false

variable {c : TreeCtx F} {L : List String} (ht : ∀ v ∈ targetValues c.dd c.targetField, v ∈ L) (row : Row F)
include ht

omit [Arith F] [Lib F] ht in
private theorem sub_children {id dc sd sc pred} {cs : List (CNode F)}
    (hn : ∀ l ∈ cLabels (.mk id dc sd sc pred cs), l ∈ L) : ∀ l ∈ cLabelsList cs, l ∈ L :=
  fun l hl => hn l (by simp only [cLabels, List.mem_cons, List.mem_append]; exact .inr (.inr hl))

omit [Arith F] [Lib F] ht in
private theorem sub_cons {n : CNode F} {ns : List (CNode F)} (hn : ∀ l ∈ cLabelsList (n :: ns), l ∈ L) :
    (∀ l ∈ cLabels n, l ∈ L) ∧ ∀ l ∈ cLabelsList ns, l ∈ L :=
  ⟨fun l hl => hn l (by simp [cLabelsList, hl]), fun l hl => hn l (by simp [cLabelsList, hl])⟩

mutual
theorem evalNone_in : (n : CNode F) → (∀ l ∈ cLabels n, l ∈ L) → ∀ r, evalNone c row n = .ok r → DistIn L r.1
  | .mk id dc sd sc pred cs, hn, r, h => by
    simp only [evalNone, bind_eq_ok] at h
    obtain ⟨test, -, h⟩ := h
    split_ifs at h
    · simp only [res_pure, Except.ok.injEq] at h; subst h; exact DistIn.nil
    · rw [bind_eq_ok] at h
      obtain ⟨x, hx, h⟩ := h
      have hc := evalNoneChildren_in cs (sub_children hn) x hx
      cases x with
      | none =>
        simp only [res_pure, Except.ok.injEq] at h; subst h
        exact outputScoreDist_in _ ht hn
      | some y => simp only [res_pure, Except.ok.injEq] at h; subst h; exact hc y rfl
theorem evalNoneChildren_in : (ns : List (CNode F)) → (∀ l ∈ cLabelsList ns, l ∈ L) →
    ∀ x, evalNoneChildren c row ns = .ok x → ∀ r, x = some r → DistIn L r.1
  | [], _, x, h => by
    simp only [evalNoneChildren, res_pure, Except.ok.injEq] at h; subst h; simp
  | n :: ns, hn, x, h => by
    simp only [evalNoneChildren, bind_eq_ok] at h
    obtain ⟨r, hr, h⟩ := h
    have h1 := evalNone_in n (sub_cons hn).1 r hr
    split_ifs at h
    · simp only [res_pure, Except.ok.injEq] at h; subst h
      intro r' hr'; simp at hr'; subst hr'; exact h1
    · exact evalNoneChildren_in ns (sub_cons hn).2 x h
end

mutual
theorem evalNull_in : (n : CNode F) → (∀ l ∈ cLabels n, l ∈ L) → ∀ r, evalNull c row n = .ok r → DistIn L r.1
  | .mk id dc sd sc pred cs, hn, r, h => by
    simp only [evalNull, bind_eq_ok] at h
    obtain ⟨test, -, h⟩ := h
    split_ifs at h
    · simp only [res_pure, Except.ok.injEq] at h; subst h; exact DistIn.nil
    · simp only [res_pure, Except.ok.injEq] at h; subst h; exact DistIn.nil
    · rw [bind_eq_ok] at h
      obtain ⟨x, hx, h⟩ := h
      have hc := evalNullChildren_in cs (sub_children hn) x hx
      cases x with
      | none =>
        simp only [res_pure, Except.ok.injEq] at h; subst h
        exact outputScoreDist_in _ ht hn
      | some y => simp only [res_pure, Except.ok.injEq] at h; subst h; exact hc y rfl
theorem evalNullChildren_in : (ns : List (CNode F)) → (∀ l ∈ cLabelsList ns, l ∈ L) →
    ∀ x, evalNullChildren c row ns = .ok x → ∀ r, x = some r → DistIn L r.1
  | [], _, x, h => by
    simp only [evalNullChildren, res_pure, Except.ok.injEq] at h; subst h; simp
  | n :: ns, hn, x, h => by
    simp only [evalNullChildren, bind_eq_ok] at h
    obtain ⟨r, hr, h⟩ := h
    have h1 := evalNull_in n (sub_cons hn).1 r hr
    split_ifs at h
    · simp only [res_pure, Except.ok.injEq] at h; subst h
      intro r' hr'; simp at hr'; subst hr'; exact h1
    · simp only [res_pure, Except.ok.injEq] at h; subst h
      intro r' hr'; simp at hr'; subst hr'; exact DistIn.nil
    · exact evalNullChildren_in ns (sub_cons hn).2 x h
end

mutual
theorem evalLast_in : (n : CNode F) → (∀ l ∈ cLabels n, l ∈ L) → ∀ r, evalLast c row n = .ok r → DistIn L r.1
  | .mk id dc sd sc pred cs, hn, r, h => by
    simp only [evalLast, bind_eq_ok] at h
    obtain ⟨test, -, h⟩ := h
    split_ifs at h
    · simp only [res_pure, Except.ok.injEq] at h; subst h; exact DistIn.nil
    · rw [bind_eq_ok] at h
      obtain ⟨rs, hx, h⟩ := h
      have hc := evalLastChildren_in cs (sub_children hn) rs hx
      split_ifs at h
      · simp only [res_pure, Except.ok.injEq] at h; subst h; exact trueDist_in rs hc
      · simp only [res_pure, Except.ok.injEq] at h; subst h; exact outputScoreDist_in _ ht hn
theorem evalLastChildren_in : (ns : List (CNode F)) → (∀ l ∈ cLabelsList ns, l ∈ L) →
    ∀ rs, evalLastChildren c row ns = .ok rs → ∀ r ∈ rs, DistIn L r.1
  | [], _, x, h => by
    simp only [evalLastChildren, res_pure, Except.ok.injEq] at h; subst h; simp
  | n :: ns, hn, x, h => by
    simp only [evalLastChildren, bind_eq_ok] at h
    obtain ⟨r, hr, rs, hrs, h⟩ := h
    simp only [res_pure, Except.ok.injEq] at h; subst h
    exact List.forall_mem_cons.mpr ⟨evalLast_in n (sub_cons hn).1 r hr,
      evalLastChildren_in ns (sub_cons hn).2 rs hrs⟩
end

mutual
theorem evalDefault_in : (n : CNode F) → (∀ l ∈ cLabels n, l ∈ L) → ∀ r, evalDefault c row n = .ok r → DistIn L r.1
  | .mk id dc sd sc pred cs, hn, r, h => by
    simp only [evalDefault, bind_eq_ok] at h
    obtain ⟨test, -, h⟩ := h
    split_ifs at h
    · simp only [res_pure, Except.ok.injEq] at h; subst h; exact DistIn.nil
    · rw [bind_eq_ok] at h
      obtain ⟨rs, hx, h⟩ := h
      have hc := evalDefaultChildren_in cs (sub_children hn) rs hx
      split_ifs at h
      · simp only [res_pure, Except.ok.injEq] at h; subst h; exact trueDist_in rs hc
      · cases hs : (childScores cs rs)[dc]? with
        | none => rw [hs] at h; simp only [res_pure, Except.ok.injEq] at h; subst h; exact DistIn.nil
        | some ds =>
          rw [hs] at h; simp only [res_pure, Except.ok.injEq] at h; subst h
          have hd : DistIn L ds := insertAll_in (fun p : CNode F × NodeRes F => p.1.id) (fun p => p.2.1)
            (cs.zip rs) (fun p hp => hc _ (List.of_mem_zip hp).2) hs
          intro s hs
          simp only [List.mem_map] at hs
          obtain ⟨t, ht, rfl⟩ := hs
          exact hd t ht
      · simp only [res_pure, Except.ok.injEq] at h; subst h; exact outputScoreDist_in _ ht hn
theorem evalDefaultChildren_in : (ns : List (CNode F)) → (∀ l ∈ cLabelsList ns, l ∈ L) →
    ∀ rs, evalDefaultChildren c row ns = .ok rs → ∀ r ∈ rs, DistIn L r.1
  | [], _, x, h => by
    simp only [evalDefaultChildren, res_pure, Except.ok.injEq] at h; subst h; simp
  | n :: ns, hn, x, h => by
    simp only [evalDefaultChildren, bind_eq_ok] at h
    obtain ⟨r, hr, rs, hrs, h⟩ := h
    simp only [res_pure, Except.ok.injEq] at h; subst h
    exact List.forall_mem_cons.mpr ⟨evalDefault_in n (sub_cons hn).1 r hr,
      evalDefaultChildren_in ns (sub_cons hn).2 rs hrs⟩
end

mutual
theorem evalWeighted_in : (n : CNode F) → (∀ l ∈ cLabels n, l ∈ L) → ∀ o r, evalWeighted c row o n = .ok r →
    DistIn L r.1
  | .mk id dc sd sc pred cs, hn, o, r, h => by
    simp only [evalWeighted, bind_eq_ok] at h
    obtain ⟨test, -, h⟩ := h
    split_ifs at h
    · simp only [res_pure, Except.ok.injEq] at h; subst h
      exact fun s hs => hn _ (by
        simp only [cLabels, List.mem_cons, List.mem_append, List.mem_map]; exact .inr (.inl ⟨s, hs, rfl⟩))
    · rw [bind_eq_ok] at h
      obtain ⟨rs, hx, h⟩ := h
      have hc := evalWeightedChildren_in cs (sub_children hn) o 2 rs hx
      split_ifs at h
      · simp only [res_pure, Except.ok.injEq] at h; subst h; exact trueDist_in rs hc
      · simp only [res_pure, Except.ok.injEq] at h; subst h
        intro s hs
        simp only [List.mem_map] at hs
        obtain ⟨p, hp, rfl⟩ := hs
        rw [MapOrd.mem_range] at hp
        exact weightedAgg_in _ _ (fun p hp => hc _ (List.of_mem_zip (List.mem_filter.mp hp).1).2) _ _ hp
      · simp only [res_pure, Except.ok.injEq] at h; subst h; exact outputScoreDist_in _ ht hn
theorem evalWeightedChildren_in : (ns : List (CNode F)) → (∀ l ∈ cLabelsList ns, l ∈ L) →
    ∀ o i rs, evalWeightedChildren c row o i ns = .ok rs → ∀ r ∈ rs, DistIn L r.1
  | [], _, o, i, x, h => by
    simp only [evalWeightedChildren, res_pure, Except.ok.injEq] at h; subst h; simp
  | n :: ns, hn, o, i, x, h => by
    simp only [evalWeightedChildren, bind_eq_ok] at h
    obtain ⟨r, hr, rs, hrs, h⟩ := h
    simp only [res_pure, Except.ok.injEq] at h; subst h
    exact List.forall_mem_cons.mpr ⟨evalWeighted_in n (sub_cons hn).1 _ r hr,
      evalWeightedChildren_in ns (sub_cons hn).2 _ _ rs hrs⟩
end

mutual
theorem evalAggregate_in : (n : CNode F) → (∀ l ∈ cLabels n, l ∈ L) → ∀ o r, evalAggregate c row o n = .ok r →
    DistIn L r.1
  | .mk id dc sd sc pred cs, hn, o, r, h => by
    simp only [evalAggregate, bind_eq_ok] at h
    obtain ⟨test, -, h⟩ := h
    split_ifs at h
    · simp only [res_pure, Except.ok.injEq] at h; subst h; exact outputScoreDist_in _ ht hn
    · rw [bind_eq_ok] at h
      obtain ⟨rs, hx, h⟩ := h
      have hc := evalAggregateChildren_in cs (sub_children hn) o 1 rs hx
      split_ifs at h
      · simp only [res_pure, Except.ok.injEq] at h; subst h; exact trueDist_in rs hc
      · simp only [res_pure, Except.ok.injEq] at h; subst h
        refine aggregateDist_in _ _ ?_
        intro s hs
        simp only [List.mem_flatMap] at hs
        obtain ⟨r, hr, hs⟩ := hs
        exact hc r hr s hs
      · simp only [res_pure, Except.ok.injEq] at h; subst h; exact outputScoreDist_in _ ht hn
theorem evalAggregateChildren_in : (ns : List (CNode F)) → (∀ l ∈ cLabelsList ns, l ∈ L) →
    ∀ o i rs, evalAggregateChildren c row o i ns = .ok rs → ∀ r ∈ rs, DistIn L r.1
  | [], _, o, i, x, h => by
    simp only [evalAggregateChildren, res_pure, Except.ok.injEq] at h; subst h; simp
  | n :: ns, hn, o, i, x, h => by
    simp only [evalAggregateChildren, bind_eq_ok] at h
    obtain ⟨r, hr, rs, hrs, h⟩ := h
    simp only [res_pure, Except.ok.injEq] at h; subst h
    exact List.forall_mem_cons.mpr ⟨evalAggregate_in n (sub_cons hn).1 _ r hr,
      evalAggregateChildren_in ns (sub_cons hn).2 _ _ rs hrs⟩
end

/-- Every label a node answers with is written in the tree or declared for the target. -/
theorem evalNode_in (o : MapOrd) (n : CNode F) (hn : ∀ l ∈ cLabels n, l ∈ L) (r : NodeRes F)
    (h : evalNode c o row n = .ok r) : DistIn L r.1 := by
  unfold evalNode at h
  cases hs : c.strategy <;> rw [hs] at h
  all_goals first
    | exact evalNone_in ht row n hn r h
    | exact evalNull_in ht row n hn r h
    | exact evalLast_in ht row n hn r h
    | exact evalDefault_in ht row n hn r h
    | exact evalWeighted_in ht row n hn _ r h
    | exact evalAggregate_in ht row n hn _ r h

end strategies

mutual
/-- The compiled tree holds the labels of the document. -/
theorem newNode_labels {types : FieldTypes} : (n : Node F) → (cn : CNode F) → newNode types n = .ok cn →
    cLabels cn = labels n
  | .mk id dc score rc dists nodes pred, cn, h => by
    obtain ⟨cs, pred', hcs, -, rfl⟩ := newNode_ok h
    have := newNodes_labels nodes cs hcs
    simp only [cLabels, labels, this]
    congr 2
    rw [← compileDists_eq]
    simp [compileDists, Function.comp_def]
theorem newNodes_labels {types : FieldTypes} : (ns : List (Node F)) → (cns : List (CNode F)) →
    newNodes types ns = .ok cns → cLabelsList cns = labelsList ns
  | [], cns, h => by
    simp only [newNodes, res_pure, Except.ok.injEq] at h; subst h; rfl
  | n :: ns, cns, h => by
    simp only [newNodes, bind_eq_ok] at h
    obtain ⟨r, hr, rs, hrs, h⟩ := h
    simp only [res_pure, Except.ok.injEq] at h; subst h
    simp only [cLabelsList, labelsList, newNode_labels n r hr, newNodes_labels ns rs hrs]
end

/-! ### Evaluators and their documents -/

/-- Every cached key belongs to a label of the document. -/
def CacheIn (L : List String) (ks : GoMap String) : Prop :=
  ∀ v k, ks[v]? = some k → v ∈ L ∧ k = "probability(" ++ v ++ ")"

omit [Arith F] [Lib F] in
theorem outLoop_in {L : List String} (ds : List (ScoreDist F)) (hd : DistIn L ds) :
    ∀ (m : GoMap (GoVal F)) (ks : GoMap String), CacheIn L ks → CacheIn L (ds.foldl outStep (m, ks)).2 := by
  induction ds with
  | nil => intro m ks hk; exact hk
  | cons s ds ih =>
    intro m ks hk
    rw [List.foldl_cons]
    have : ∃ m' ks', outStep (m, ks) s = (m', ks') ∧ CacheIn L ks' := by
      unfold outStep
      cases hs : ks[s.value]? with
      | some key => exact ⟨_, _, rfl, hk⟩
      | none =>
        refine ⟨_, _, rfl, ?_⟩
        intro v k hv
        rw [GoMap.getElem?_insert] at hv
        split_ifs at hv with he
        · subst he
          simp only [Option.some.injEq] at hv
          exact ⟨hd s (by simp), hv.symm⟩
        · exact hk v k hv
    obtain ⟨m', ks', he, hk'⟩ := this
    rw [he]
    exact ih (fun t ht => hd t (by simp [ht])) m' ks' hk'

variable [Trans F]

mutual
/-- The evaluator was built from the document element and has perhaps been used. -/
inductive Fits (dd : List DataField) : ModelElem F → EModel F → Prop
  | tree {d : TreeDoc F} {m : TreeModel F} :
      m.validated = true → m.compiled = true → m.dd = dd → m.targetField = targetOf d.miningFields →
      m.model.functionName = d.functionName → m.model.localTransformations = d.localTransformations →
      (d.functionName = .classification ∨ d.functionName = .regression) →
      cLabels m.root = labels d.node → CacheIn (treeLabels dd d) m.outKeys → Fits dd (.tree d) (.tree m)
  | regression {d : RegressionDoc F} : Fits dd (.regression d) (.regression d)
  | mining {h : MiningHead F} {segs s ms} :
      s.validated = true → s.compiled = true → s.head = { h with method := effectiveMethod h.method } →
      s.defaultValues = buildDefaults h.miningFields → s.outputFields = h.outputs → s.targets = h.targets →
      FitsSegs dd segs ms → Fits dd (.mining h segs) (.mining s ms)
inductive FitsSegs (dd : List DataField) : List (SegDoc F) → List (EModel F) → Prop
  | nil : FitsSegs dd [] []
  | cons {id ps e m segs ms} : Fits dd e m → FitsSegs dd segs ms →
      FitsSegs dd (.mk id ps [e] :: segs) (m :: ms)
end

omit [Trans F] in
theorem treeModel_dd {dd : List DataField} {td td' : TD F} {d : TreeDoc F} {m : TreeModel F}
    (h : newTreeModel dd td d = (.ok m, td')) : m.dd = dd := by
  have := congrArg TreeCtx.dd (newTreeModel_ok h).2.2.2.2.2.2.2.1
  exact this

omit [Trans F] in
mutual
theorem newModel_fits {dd : List DataField} : (e : ModelElem F) → (td td' : TD F) → (m : EModel F) →
    newModel dd e td = (.ok m, td') → Fits dd e m
  | .tree d, td, td', m, h => by
    rw [newModel] at h
    rcases ht : newTreeModel dd td d with ⟨_ | t, td1⟩ <;> rw [ht] at h
    · simp at h
    · simp at h; obtain ⟨rfl, -⟩ := h
      have hd := treeModel_dd ht
      obtain ⟨hf, -, hv, hc, hk, hm, htf, -, hn⟩ := newTreeModel_ok ht
      exact .tree hv hc hd htf (by rw [hm]) (by rw [hm]) hf (newNode_labels _ _ hn)
        (by rw [hk]; intro v k hv; simp at hv)
  | .regression d, td, td', m, h => by
    simp [newModel] at h; obtain ⟨rfl, -⟩ := h; exact .regression
  | .mining hd segs, td, td', m, h => by
    obtain ⟨s, ms, rfl, hv, hc, -, hh, -, hdv, ho, ht, hs⟩ := newMining_ok h
    exact .mining hv hc hh hdv ho ht (segs_fits segs _ _ _ hs)
  | .other k, td, td', m, h => by simp [newModel] at h
theorem segs_fits {dd : List DataField} : (segs : List (SegDoc F)) → (td td' : TD F) → (ms : List (EModel F)) →
    compileSegments dd segs td = (.ok (), ms, td') → FitsSegs dd segs ms
  | [], td, td', ms, h => by
    simp [compileSegments] at h; obtain ⟨rfl, -⟩ := h; exact .nil
  | .mk id ps [] :: segs, td, td', ms, h => by simp [compileSegments] at h
  | .mk id ps (e :: e' :: es) :: segs, td, td', ms, h => by simp [compileSegments] at h
  | .mk id ps [e] :: segs, td, td', ms, h => by
    rw [compileSegments] at h
    rcases hn : newModel dd e td with ⟨_ | m, td1⟩ <;> rw [hn] at h
    · simp at h
    · simp only at h
      rcases hc : compileSegments dd segs td1 with ⟨r, ms1, td2⟩
      rw [hc] at h
      simp only [Prod.mk.injEq] at h
      obtain ⟨rfl, rfl, rfl⟩ := h
      exact .cons (newModel_fits e _ _ _ hn) (segs_fits segs _ _ _ hc)
end

omit [Arith F] [Lib F] [Trans F] in
theorem FitsSegs.mem {dd : List DataField} {segs : List (SegDoc F)} {ms : List (EModel F)}
    (h : FitsSegs dd segs ms) {m : EModel F} (hm : m ∈ ms) :
    ∃ id ps e, SegDoc.mk id ps [e] ∈ segs ∧ Fits dd e m := by
  induction ms generalizing segs with
  | nil => simp at hm
  | cons a ms ih =>
    cases h with
    | cons h1 h2 =>
      rcases List.mem_cons.mp hm with rfl | hm
      · exact ⟨_, _, _, List.mem_cons_self, h1⟩
      · obtain ⟨id, ps, e, hs, hf⟩ := ih h2 hm
        exact ⟨id, ps, e, by simp [hs], hf⟩

omit [Arith F] [Lib F] [Trans F] in
theorem segsAnswerKeys_mem {dd : List DataField} {segs : List (SegDoc F)} {id ps e} {k : String}
    (h : SegDoc.mk id ps [e] ∈ segs) (hk : k ∈ answerKeys dd e) : k ∈ segsAnswerKeys dd segs := by
  induction segs with
  | nil => simp at h
  | cons s segs ih =>
    rcases List.mem_cons.mp h with rfl | h'
    · simp [segsAnswerKeys, elemsAnswerKeys, hk]
    · obtain ⟨i, p, es⟩ := s
      simp only [segsAnswerKeys, List.mem_append]
      exact .inr (ih h')

omit [Arith F] [Lib F] [Trans F] in
theorem segsAddedKeys_mem {dd : List DataField} {segs : List (SegDoc F)} {id ps e} {k : String}
    (h : SegDoc.mk id ps [e] ∈ segs) (hk : k ∈ addedKeys dd e) : k ∈ segsAddedKeys dd segs := by
  induction segs with
  | nil => simp at h
  | cons s segs ih =>
    rcases List.mem_cons.mp h with rfl | h'
    · simp [segsAddedKeys, elemsAddedKeys, hk]
    · obtain ⟨i, p, es⟩ := s
      simp only [segsAddedKeys, List.mem_append]
      exact .inr (ih h')

/-- All keys of a map lie in `L`. -/
def KeysIn {V : Type} (L : List String) (m : GoMap V) : Prop := ∀ k v, m[k]? = some v → k ∈ L

theorem KeysIn.empty {V : Type} {L : List String} : KeysIn L (∅ : GoMap V) := by
  intro k v h; simp at h

theorem KeysIn.insert {V : Type} {L : List String} {m : GoMap V} (h : KeysIn L m) {k : String} {v : V}
    (hk : k ∈ L) : KeysIn L (m.insert k v) := by
  intro x w hx
  rw [GoMap.getElem?_insert] at hx
  split_ifs at hx with he
  · subst he; exact hk
  · exact h x w hx

theorem KeysIn.mono {V : Type} {L L' : List String} {m : GoMap V} (h : KeysIn L m) (hl : ∀ k ∈ L, k ∈ L') :
    KeysIn L' m := fun k v hk => hl k (h k v hk)

theorem KeysIn.foldl {α V : Type} {L : List String} (f : GoMap V → α → GoMap V) (l : List α) :
    (∀ m, ∀ a ∈ l, KeysIn L m → KeysIn L (f m a)) → ∀ m, KeysIn L m → KeysIn L (l.foldl f m) := by
  induction l with
  | nil => intro _ m hm; exact hm
  | cons a l ih =>
    intro hf m hm
    exact ih (fun m b hb => hf m b (by simp [hb])) _ (hf m a (by simp) hm)

/-- A map all of whose keys lie in `L` has no more entries than `L` has different members. -/
theorem KeysIn.size_le {V : Type} {L : List String} {m : GoMap V} (h : KeysIn L m) :
    m.size ≤ L.dedup.length := by
  rw [← Std.ExtTreeMap.length_keys]
  refine (List.Nodup.subperm Std.ExtTreeMap.nodup_keys ?_).length_le
  intro k hk
  rw [Std.ExtTreeMap.mem_keys] at hk
  rw [List.mem_dedup]
  exact h k (m[k]) (Std.ExtTreeMap.getElem?_eq_some_getElem hk)

omit [Trans F] in
theorem sumStep_in {L : List String} (o : MapOrd) (fn : MiningFunction) (segout : Out F) (sm : GoMap F)
    (h : KeysIn L sm) : KeysIn L ((o.range sm).foldl (addScore fn segout) sm) := by
  refine KeysIn.foldl _ _ ?_ sm h
  intro m kv hkv hm
  rw [MapOrd.mem_range] at hkv
  unfold addScore
  simp only
  cases segout.bind fun m => m[if fn = .classification then kv.1 else "score"]? with
  | none => exact hm
  | some v => exact hm.insert (h _ _ hkv)

omit [Lib F] [Trans F] in
theorem initScores_in (s : MiningState F) :
    KeysIn (s.outputFields.map (·.name) ++ s.targets.map (·.field)) (initScores s) := by
  unfold initScores
  refine KeysIn.foldl _ _ (fun m t ht hm => hm.insert ?_) _
    (KeysIn.foldl _ _ (fun m f hf hm => hm.insert ?_) _ KeysIn.empty)
  · simp only [List.mem_append, List.mem_map]; exact .inr ⟨t, ht, rfl⟩
  · simp only [List.mem_append, List.mem_map]; exact .inl ⟨f, hf, rfl⟩

omit [Lib F] [Trans F] in
theorem sumFinish_in {L : List String} (o : MapOrd) (s : MiningState F) (sm : GoMap F) (h : KeysIn L sm)
    (ht : ∀ t ∈ s.targets, t.field ∈ L) : KeysIn L (sumFinish o s sm) := by
  have hr : KeysIn L (rescale s.targets sm) := by
    unfold rescale
    refine KeysIn.foldl _ _ (fun m t htm hm => ?_) _ h
    have hf := ht t htm
    cases t.rescaleFactor <;> cases t.rescaleConstant
    · exact hm
    · exact hm.insert hf
    · exact hm.insert hf
    · exact (hm.insert hf).insert hf
  unfold sumFinish scoresToRow
  refine KeysIn.foldl _ _ (fun m kv hkv hm => hm.insert ?_) _ KeysIn.empty
  rw [MapOrd.mem_range] at hkv
  exact hr _ _ hkv

omit [Trans F] in
theorem averageLoop_in {L : List String} (o : MapOrd) (n : Nat) (out : GoMap (GoVal F)) (h : KeysIn L out) :
    KeysIn L (averageLoop n (o.range out) out) := by
  unfold averageLoop
  refine KeysIn.foldl _ _ (fun m kv hkv hm => hm.insert ?_) _ h
  rw [MapOrd.mem_range] at hkv
  exact h _ _ hkv

/-- What is to be shown about one evaluation of one evaluator. -/
def Stays (dd : List DataField) (m : EModel F) : Prop :=
  ∀ e, Fits dd e m → ∀ o row,
    Fits dd e (EModel.evaluate o m row).model ∧
    ∀ out, (EModel.evaluate o m row).res = .ok (some out) → KeysIn (answerKeys dd e) out

theorem sumSegments_in {dd : List DataField} {L : List String} (ms : List (EModel F))
    (ih : ∀ m ∈ ms, Stays dd m) : ∀ segs, FitsSegs dd segs ms → ∀ o fn i sm row, KeysIn L sm →
      FitsSegs dd segs (sumSegments o fn i sm ms row).model ∧
      ∀ sm', (sumSegments o fn i sm ms row).res = .ok sm' → KeysIn L sm' := by
  induction ms with
  | nil =>
    intro segs h o fn i sm row hs
    simp only [sumSegments]
    exact ⟨h, fun sm' h => by simp at h; subst h; exact hs⟩
  | cons m ms ihs =>
    intro segs h o fn i sm row hs
    cases h with
    | cons h1 h2 =>
      simp only [sumSegments]
      have h0 := ih m (by simp) _ h1 (o.at_ (2 * i)) row
      cases (EModel.evaluate (o.at_ (2 * i)) m row).res with
      | error e => exact ⟨.cons h0.1 h2, by simp⟩
      | ok out =>
        have hr := ihs (fun a ha => ih a (by simp [ha])) _ h2 o fn (i + 1) _
          (EModel.evaluate (o.at_ (2 * i)) m row).row (sumStep_in (o.at_ (2 * i + 1)) fn out sm hs)
        exact ⟨.cons h0.1 hr.1, hr.2⟩

theorem chainSegments_in {dd : List DataField} {L : List String} (ms : List (EModel F))
    (ih : ∀ m ∈ ms, Stays dd m) : ∀ segs, FitsSegs dd segs ms → (∀ k ∈ segsAnswerKeys dd segs, k ∈ L) →
      ∀ o i last row, (∀ out, last = some out → KeysIn L out) →
      FitsSegs dd segs (chainSegments o i last ms row).model ∧
      ∀ out, (chainSegments o i last ms row).res = .ok (some out) → KeysIn L out := by
  induction ms with
  | nil =>
    intro segs h _ o i last row hs
    simp only [chainSegments]
    exact ⟨h, fun out h => by simp at h; exact hs out h⟩
  | cons m ms ihs =>
    intro segs h hL o i last row hs
    cases h with
    | @cons id ps e _ segs _ h1 h2 =>
      simp only [chainSegments]
      rcases writeAll ((o.at_ (2 * i)).range (last.getD ∅)) row with ⟨err | ⟨⟨⟩⟩, row1⟩
      · exact ⟨.cons h1 h2, by simp⟩
      · simp only
        have h0 := ih m (by simp) _ h1 (o.at_ (2 * i + 1)) row1
        cases he : (EModel.evaluate (o.at_ (2 * i + 1)) m row1).res with
        | error e => exact ⟨.cons h0.1 h2, by simp⟩
        | ok out =>
          have hr := ihs (fun a ha => ih a (by simp [ha])) _ h2
            (fun k hk => hL k (by simp [segsAnswerKeys, hk])) o (i + 1) out
            (EModel.evaluate (o.at_ (2 * i + 1)) m row1).row (by
              rintro out' rfl
              exact (h0.2 out' he).mono fun k hk => hL k (by simp [segsAnswerKeys, elemsAnswerKeys, hk]))
          exact ⟨.cons h0.1 hr.1, hr.2⟩

theorem regression_in (d : RegressionDoc F) (row : Row F) (out : GoMap (GoVal F))
    (h : d.evaluate row = .ok (some out)) : KeysIn ("" :: d.outputs.map (·.name)) out := by
  unfold RegressionDoc.evaluate at h
  cases hf : d.functionName with
  | other s => rw [hf] at h; simp at h
  | regression =>
    rw [hf] at h
    simp only [RegressionDoc.evalRegression] at h
    cases ht : d.tables with
    | nil => rw [ht] at h; simp at h
    | cons t ts =>
      cases ts with
      | cons _ _ => rw [ht] at h; simp at h
      | nil =>
        cases ho : d.outputs with
        | nil => rw [ht, ho] at h; simp at h
        | cons f fs =>
          cases fs with
          | cons _ _ => rw [ht, ho] at h; simp at h
          | nil =>
            rw [ht, ho] at h
            simp only [bind_eq_ok] at h
            obtain ⟨y, -, p, -, h⟩ := h
            simp only [res_pure, Except.ok.injEq, Option.some.injEq] at h
            subst h
            exact KeysIn.empty.insert (by simp)
  | classification =>
    rw [hf] at h
    simp only at h
    split_ifs at h
    · simp only [RegressionDoc.evalBinary, bind_eq_ok] at h
      obtain ⟨m, hm, h⟩ := h
      simp only [res_pure, Except.ok.injEq, Option.some.injEq] at h
      subst h
      have key : ∀ (ts : List (RegressionTable F)) fp (out0 out1 : GoMap (GoVal F)),
          KeysIn ("" :: d.outputs.map (·.name)) out0 →
          binaryTables d.normalization d.outputs row fp out0 ts = .ok out1 →
          KeysIn ("" :: d.outputs.map (·.name)) out1 := by
        intro ts
        induction ts with
        | nil => intro fp out0 out1 h0 h; simp [binaryTables] at h; subst h; exact h0
        | cons t ts ih =>
          intro fp out0 out1 h0 h
          have h' : ∃ pred, binaryTables d.normalization d.outputs row (Arith.sub fp pred)
              (binaryOut d.outputs t.targetCategory pred out0) ts = .ok out1 := by
            rw [binaryTables] at h
            split_ifs at h
            · rw [bind_eq_ok] at h
              obtain ⟨pred, -, h⟩ := h
              exact ⟨pred, h⟩
            · exact ⟨fp, h⟩
          obtain ⟨pred, h⟩ := h'
          refine ih _ _ _ ?_ h
          unfold binaryOut
          refine KeysIn.foldl _ _ (fun m f hf hm => ?_) _ h0
          split_ifs
          · exact hm.insert (by simp only [List.mem_cons, List.mem_map]; exact .inr ⟨f, hf, rfl⟩)
          · exact hm
      exact key _ _ _ _ KeysIn.empty hm
    · simp only [RegressionDoc.evalMulticlass, bind_eq_ok] at h
      obtain ⟨y, -, m, hm, h⟩ := h
      simp only [res_pure, Except.ok.injEq, Option.some.injEq] at h
      subst h
      have hof : ∀ c : String, ((outFieldMap d.outputs)[c]?).getD "" ∈ "" :: d.outputs.map (·.name) := by
        intro c
        unfold outFieldMap
        rw [foldl_insert_getElem? (fun o : OutputField => o.value) (fun o => o.name)]
        cases hl : (d.outputs.filter fun o => o.value = c).getLast? with
        | none => simp
        | some f =>
          have := (List.mem_filter.mp (List.mem_of_getLast? hl)).1
          simp only [Option.getD_some, List.mem_cons, List.mem_map]
          exact .inr ⟨f, this, rfl⟩
      generalize d.normalization = nz at hm
      have key : ∀ (l : List (String × F)) (out0 out1 : GoMap (GoVal F)),
          (∀ p ∈ l, p.1 ∈ "" :: d.outputs.map (·.name)) →
          KeysIn ("" :: d.outputs.map (·.name)) out0 →
          multiclassOut nz y out0 l = .ok out1 →
          KeysIn ("" :: d.outputs.map (·.name)) out1 := by
        intro l
        induction l with
        | nil => intro out0 out1 _ h0 h; simp [multiclassOut] at h; subst h; exact h0
        | cons p l ih =>
          obtain ⟨t, yi⟩ := p
          intro out0 out1 hl h0 h
          have ht := hl (t, yi) (by simp)
          cases nz <;> simp only [multiclassOut] at h <;> first
            | exact ih _ _ (fun p hp => hl p (by simp [hp])) (h0.insert ht) h
            | simp at h
      refine key _ _ _ ?_ KeysIn.empty hm
      rintro ⟨t, yi⟩ hp
      have := (List.of_mem_zip hp).1
      simp only [List.mem_map] at this
      obtain ⟨tb, -, rfl⟩ := this
      exact hof _

/-- One evaluation keeps the evaluator fitting its document, and answers with keys of the
document. -/
theorem fits_evaluate {dd : List DataField} (m : EModel F) : Stays dd m := by
  induction m using EModel.ind with
  | ht m =>
    intro e he o row
    cases he with
    | @tree d _ hv hc hd htf hfn hlt hf hl hk =>
      simp only [EModel.evaluate, TreeModel.evaluate]
      rw [if_neg (by simp [hv]), if_neg (by simp [hc])]
      rcases handleInput m.model.localTransformations row with ⟨err | ⟨⟨⟩⟩, row1⟩
      · exact ⟨.tree hv hc hd htf hfn hlt hf hl hk, by simp⟩
      · simp only
        cases hn : evalNode m.ctx o row1 m.root with
        | error err => exact ⟨.tree hv hc hd htf hfn hlt hf hl hk, by simp⟩
        | ok r =>
          obtain ⟨ds, tv⟩ := r
          have hds : DistIn (treeLabels dd d) ds := by
            refine evalNode_in (c := m.ctx) ?_ row1 o m.root ?_ _ hn
            · intro v hv
              simp only [TreeModel.ctx, hd, htf] at hv
              simp only [treeLabels, List.mem_append]; exact .inr hv
            · rw [hl]; intro l hl; simp only [treeLabels, List.mem_append]; exact .inl hl
          have hout : CacheIn (treeLabels dd d) (m.output ds tv).2 := by
            unfold TreeModel.output
            by_cases ht : tv = .t
            · simp only [ht, if_true]
              cases m.model.functionName with
              | classification => exact outLoop_in ds hds _ _ hk
              | other s => exact hk
              | regression =>
                cases ds with
                | nil => exact hk
                | cons s ds => simp only; cases Lib.parseFloat (F := F) s.value <;> exact hk
            · simp only [ht, if_false]; exact hk
          refine ⟨.tree hv hc hd htf hfn hlt hf hl hout, ?_⟩
          intro out ho
          have hko : KeysOk m.outKeys := fun v k h => (hk v k h).2
          have hre := (output_eq hko (ds, tv)).1
          simp only at hre ho
          rw [hre] at ho
          unfold report at ho
          split_ifs at ho with ht
          · simp at ho
          · simp only [answerKeys]
            rw [hfn, htf] at ho
            rcases hf with hf | hf
            · rw [if_pos hf]
              rw [hf] at ho
              simp only [Except.ok.injEq, Option.some.injEq] at ho
              subst ho
              unfold classRow
              refine KeysIn.foldl _ _ (fun m s hs hm => hm.insert ?_) _ (KeysIn.empty.insert (by simp))
              simp only [List.mem_cons, List.mem_map]
              exact .inr ⟨_, hds s hs, rfl⟩
            · rw [if_neg (by simp [hf])]
              rw [hf] at ho
              cases ds with
              | nil => simp at ho
              | cons s ds =>
                simp only at ho
                cases hp : Lib.parseFloat (F := F) s.value with
                | none => rw [hp] at ho; simp at ho
                | some x =>
                  rw [hp] at ho
                  simp only [Except.ok.injEq, Option.some.injEq] at ho
                  subst ho
                  exact KeysIn.empty.insert (by simp)
  | hr d =>
    intro e he o row
    cases he with
    | regression =>
      simp only [EModel.evaluate, answerKeys]
      exact ⟨.regression, regression_in d row⟩
  | hm s ms ih =>
    intro e he o row
    cases he with
    | @mining h segs _ _ hv hc hh hd ho ht hs =>
      have hsame : Fits dd (.mining h segs) (.mining s ms) := .mining hv hc hh hd ho ht hs
      simp only [EModel.evaluate]
      rw [if_neg (by simp [hv]), if_neg (by simp [hc])]
      rcases imputeLoop ((o.at_ 0).range s.defaultValues) row with ⟨err | ⟨⟨⟩⟩, row1⟩
      · exact ⟨hsame, by simp⟩
      · simp only
        rcases handleInput s.head.localTransformations row1 with ⟨err | ⟨⟨⟩⟩, row2⟩
        · exact ⟨hsame, by simp⟩
        · simp only
          have hmeth : s.head.method = effectiveMethod h.method := by rw [hh]
          have hinit := initScores_in s
          rw [ho, ht] at hinit
          have htin : ∀ t ∈ s.targets, t.field ∈ h.outputs.map (·.name) ++ h.targets.map (·.field) := by
            rw [ht]; intro t htm
            simp only [List.mem_append, List.mem_map]; exact .inr ⟨t, htm, rfl⟩
          cases hm : s.head.method with
          | average =>
            rw [hm] at hmeth
            have hne : ¬ (h.method = .modelChain ∨ h.method = .selectFirst) := by
              rintro (h' | h') <;> simp [effectiveMethod, h'] at hmeth
            have := sumSegments_in ms ih segs hs (o.at_ 1) s.head.functionName 0 _ row2 hinit
            refine ⟨.mining hv hc hh hd ho ht this.1, ?_⟩
            intro out hout
            rw [answerKeys, if_neg hne]
            simp only at hout
            cases hr : (sumSegments (o.at_ 1) s.head.functionName 0 (initScores s) ms row2).res with
            | error err => rw [hr] at hout; simp [Except.map] at hout
            | ok sm =>
              rw [hr] at hout
              simp only [Except.map, Except.ok.injEq, Option.some.injEq] at hout
              subst hout
              exact averageLoop_in _ _ _ (sumFinish_in _ s sm (this.2 sm hr) htin)
          | sum =>
            rw [hm] at hmeth
            have hne : ¬ (h.method = .modelChain ∨ h.method = .selectFirst) := by
              rintro (h' | h') <;> simp [effectiveMethod, h'] at hmeth
            have := sumSegments_in ms ih segs hs (o.at_ 1) s.head.functionName 0 _ row2 hinit
            refine ⟨.mining hv hc hh hd ho ht this.1, ?_⟩
            intro out hout
            rw [answerKeys, if_neg hne]
            simp only at hout
            cases hr : (sumSegments (o.at_ 1) s.head.functionName 0 (initScores s) ms row2).res with
            | error err => rw [hr] at hout; simp [Except.map] at hout
            | ok sm =>
              rw [hr] at hout
              simp only [Except.map, Except.ok.injEq, Option.some.injEq] at hout
              subst hout
              exact sumFinish_in _ s sm (this.2 sm hr) htin
          | modelChain =>
            rw [hm] at hmeth
            have hme : h.method = .modelChain := by
              cases hx : h.method <;> simp [effectiveMethod, hx] at hmeth ⊢
            rw [answerKeys, if_pos (.inl hme)]
            have := chainSegments_in ms ih segs hs (fun k hk => hk) (o.at_ 1) 0 (some ∅) row2
              (fun out h => by simp at h; subst h; exact KeysIn.empty)
            exact ⟨.mining hv hc hh hd ho ht this.1, this.2⟩
          | selectFirst =>
            rw [hm] at hmeth
            have hme : h.method = .selectFirst := by
              cases hx : h.method <;> simp [effectiveMethod, hx] at hmeth ⊢
            rw [answerKeys, if_pos (.inr hme)]
            cases hs with
            | nil => simp only [selectFirst]; exact ⟨hsame, by simp⟩
            | cons h1 h2 =>
              simp only [selectFirst]
              have := ih _ (by simp) _ h1 (o.at_ 1) row2
              refine ⟨.mining hv hc hh hd ho ht (.cons this.1 h2), fun out ho => (this.2 out ho).mono ?_⟩
              intro k hk; simp [segsAnswerKeys, elemsAnswerKeys, hk]
          | empty => exact ⟨hsame, by simp⟩
          | other t => exact ⟨hsame, by simp⟩

/-- The keys an evaluator may write are those its document lists. -/
theorem fits_writes {dd : List DataField} {m : EModel F} {k : String} (hw : Writes m k) :
    ∀ {e : ModelElem F}, Fits dd e m → k ∈ addedKeys dd e := by
  induction hw with
  | treeDerived hdf =>
    intro e he
    cases he with
    | tree hv hc hd htf hfn hlt hf hl hk =>
      rw [hlt] at hdf
      simp only [addedKeys, List.mem_map]; exact ⟨_, hdf, rfl⟩
  | replacement hr =>
    rename_i s ms k
    intro e he
    cases he with
    | @mining h segs _ _ hv hc hh hd ho ht hs =>
      rw [hd, buildDefaults_getElem?] at hr
      have hrep : (Spec.replacement h.miningFields k).isSome := by
        cases hx : Spec.replacement h.miningFields k with
        | none => rw [hx] at hr; simp at hr
        | some t => rfl
      unfold Spec.replacement at hrep
      cases hl : (h.miningFields.filter
          (fun f => decide (f.name = k ∧ f.missingValueReplacement.isSome))).getLast? with
      | none => rw [hl] at hrep; simp at hrep
      | some f =>
        have := List.mem_of_getLast? hl
        simp only [List.mem_filter, decide_eq_true_eq] at this
        obtain ⟨hf, rfl, hs⟩ := this
        simp only [addedKeys, List.mem_append, List.mem_map, List.mem_filter]
        exact .inl (.inl (.inl ⟨f, ⟨hf, hs⟩, rfl⟩))
  | derived hdf =>
    intro e he
    cases he with
    | mining hv hc hh hd ho ht hs =>
      rw [hh] at hdf
      simp only [addedKeys, List.mem_append, List.mem_map]
      exact .inl (.inl (.inr ⟨_, hdf, rfl⟩))
  | segment hm _ ih =>
    intro e he
    cases he with
    | mining hv hc hh hd ho ht hs =>
      obtain ⟨id, ps, e, hmem, hf⟩ := hs.mem hm
      simp only [addedKeys, List.mem_append]
      exact .inl (.inr (segsAddedKeys_mem hmem (ih hf)))
  | chained hmeth hm hr =>
    intro e he
    cases he with
    | @mining h segs _ _ hv hc hh hd ho ht hs =>
      obtain ⟨id, ps, e, hmem, hf⟩ := hs.mem hm
      obtain ⟨o, row, out, hres, hk⟩ := hr
      rw [hh] at hmeth
      have hme : h.method = .modelChain := by
        cases hx : h.method <;> simp [effectiveMethod, hx] at hmeth ⊢
      simp only [addedKeys, List.mem_append, if_pos hme]
      obtain ⟨v, hv⟩ := Option.isSome_iff_exists.mp hk
      exact .inr (segsAnswerKeys_mem hmem ((fits_evaluate _ _ hf o row).2 out hres _ _ hv))

omit [Arith F] [Lib F] [Trans F] in
mutual
theorem fits_cached {dd : List DataField} : (m : EModel F) → (e : ModelElem F) → Fits dd e m →
    cached m ≤ labelCount dd e
  | .tree m, e, h => by
    cases h with
    | tree hv hc hd htf hfn hlt hf hl hk =>
      simp only [cached, labelCount]
      exact KeysIn.size_le fun v k h => (hk v k h).1
  | .regression d, e, h => by simp [cached]
  | .mining s ms, e, h => by
    cases h with
    | mining hv hc hh hd ho ht hs =>
      simp only [cached, labelCount]
      exact fitsSegs_cached ms _ hs
theorem fitsSegs_cached {dd : List DataField} : (ms : List (EModel F)) → (segs : List (SegDoc F)) →
    FitsSegs dd segs ms → cachedList ms ≤ segsLabelCount dd segs
  | [], segs, h => by simp [cachedList]
  | m :: ms, segs, h => by
    cases h with
    | cons h1 h2 =>
      have a := fits_cached m _ h1
      have b := fitsSegs_cached ms _ h2
      simp only [cachedList, segsLabelCount, elemsLabelCount]
      omega
end

end Gopmml
