import Verif.Spec.Counts
import Verif.Proofs.TreeEval
import Verif.Proofs.Induct

/-!
# Evaluation of trees that differ in record counts
-/

namespace Gopmml
open Spec

variable {F : Type}

/-- Two outcomes: the same fault, or related values. -/
inductive ResRel {α β : Type} (R : α → β → Prop) : Res α → Res β → Prop
  | error (e : Fault) : ResRel R (.error e) (.error e)
  | ok {a b} : R a b → ResRel R (.ok a) (.ok b)

theorem ResRel.bind {α β γ δ : Type} {R : α → β → Prop} {S : γ → δ → Prop} {x : Res α} {y : Res β}
    {f : α → Res γ} {g : β → Res δ} (h : ResRel R x y) (hf : ∀ a b, R a b → ResRel S (f a) (g b)) :
    ResRel S (x >>= f) (y >>= g) := by
  cases h with
  | error e => exact .error e
  | ok h => exact hf _ _ h

theorem ResRel.of_eq {α : Type} {x y : Res α} (h : x = y) : ResRel Eq x y := by
  subst h
  cases x with
  | error e => exact .error e
  | ok a => exact .ok rfl

theorem MapOrd.Natural.at_ {o : MapOrd} (h : o.Natural) (i : Nat) : (o.at_ i).Natural :=
  fun site _ _ f l => h (i :: site) f l

/-- The same keys, with related values. -/
def MapRel {V W : Type} (R : V → W → Prop) (m : GoMap V) (m' : GoMap W) : Prop :=
  ∀ k : String, Option.Rel R m[k]? m'[k]?

theorem MapRel.empty {V W : Type} {R : V → W → Prop} : MapRel R (∅ : GoMap V) (∅ : GoMap W) := by
  intro k; simp

theorem MapRel.insert {V W : Type} {R : V → W → Prop} {m : GoMap V} {m' : GoMap W} (h : MapRel R m m')
    (k : String) {v : V} {w : W} (hv : R v w) : MapRel R (m.insert k v) (m'.insert k w) := by
  intro x
  rw [GoMap.getElem?_insert, GoMap.getElem?_insert]
  split
  · exact .some hv
  · exact h x

theorem MapRel.range {V W : Type} {R : V → W → Prop} {m : GoMap V} {m' : GoMap W} (h : MapRel R m m')
    {o : MapOrd} (ho : o.Natural) :
    List.Forall₂ (fun p q => p.1 = q.1 ∧ R p.2 q.2) (o.range m) (o.range m') := by
  let m2 : GoMap (V × Option W) := m.map fun k v => (v, m'[k]?)
  have e1 : m = m2.map fun _ p => p.1 := by
    refine Std.ExtTreeMap.ext_getElem? fun {k} => ?_
    simp [m2]
  have e2 : (m'.map fun _ w => some w) = m2.map fun _ p => p.2 := by
    refine Std.ExtTreeMap.ext_getElem? fun {k} => ?_
    simp only [m2, Std.ExtTreeMap.getElem?_map]
    have := h k
    generalize m[k]? = a at this
    generalize hb : m'[k]? = b at this
    cases this <;> simp
  have r1 : o.range m = (o.range m2).map fun p => (p.1, p.2.1) := by
    conv_lhs => rw [e1]
    unfold MapOrd.range
    rw [Std.ExtTreeMap.toList_map]
    exact ho [] (fun p : V × Option W => p.1) m2.toList
  have r2 : (o.range m').map (fun p => (p.1, some p.2)) = (o.range m2).map fun p => (p.1, p.2.2) := by
    have a : o.range (m'.map fun _ w => some w) = (o.range m').map fun p => (p.1, some p.2) := by
      unfold MapOrd.range
      rw [Std.ExtTreeMap.toList_map]
      exact ho [] (fun w : W => some w) m'.toList
    rw [← a, e2]
    unfold MapOrd.range
    rw [Std.ExtTreeMap.toList_map]
    exact ho [] (fun p : V × Option W => p.2) m2.toList
  have hmem : ∀ p ∈ o.range m2, ∀ w, p.2.2 = some w → R p.2.1 w := by
    rintro ⟨k, v, ow⟩ hp w rfl
    have := (o.perm [] m2.toList).mem_iff.mp hp
    rw [Std.ExtTreeMap.mem_toList_iff_getElem?_eq_some] at this
    simp only [m2, Std.ExtTreeMap.getElem?_map, Option.map_eq_some_iff, Prod.mk.injEq] at this
    obtain ⟨v', h1, rfl, h2⟩ := this
    have hk := h k
    rw [h1, h2] at hk
    cases hk with
    | some hr => exact hr
  rw [r1]
  revert r2 hmem
  generalize o.range m2 = L
  generalize o.range m' = L'
  intro r2 hmem
  induction L generalizing L' with
  | nil => cases L' with
    | nil => exact .nil
    | cons => simp at r2
  | cons p L ih => cases L' with
    | nil => simp at r2
    | cons q L' =>
      simp only [List.map_cons, List.cons.injEq, Prod.mk.injEq] at r2
      refine .cons ⟨r2.1.1.symm, hmem p (by simp) _ r2.1.2.symm⟩ (ih L' r2.2 fun p hp => hmem p (by simp [hp]))

theorem foldl_rel {α β γ δ : Type} {R : α → β → Prop} {S : γ → δ → Prop} {f : γ → α → γ} {g : δ → β → δ}
    (hf : ∀ c d a b, S c d → R a b → S (f c a) (g d b)) {l : List α} {l' : List β} (h : List.Forall₂ R l l') :
    ∀ {c d}, S c d → S (l.foldl f c) (l'.foldl g d) := by
  induction h with
  | nil => intro c d h; exact h
  | cons h _ ih => intro c d hs; exact ih (hf _ _ _ _ hs h)

variable (Q : F → F → Prop)

/-- Scores that differ in record counts only. -/
structure ScoreRel (s s' : ScoreDist F) : Prop where
  value : s.value = s'.value
  confidence : s.confidence = s'.confidence
  probability : s.probability = s'.probability
  count : Q s.recordCount s'.recordCount

/-- Compiled nodes that differ in record counts only. -/
inductive CNodeRel : CNode F → CNode F → Prop
  | mk {id dc sd sd' sc sc' p cs cs'} : List.Forall₂ (ScoreRel Q) sd sd' → ScoreRel Q sc sc' →
      List.Forall₂ CNodeRel cs cs' → CNodeRel (.mk id dc sd sc p cs) (.mk id dc sd' sc' p cs')

/-- Answers of nodes that differ in record counts only. -/
def AnsRel (r r' : NodeRes F) : Prop := List.Forall₂ (ScoreRel Q) r.1 r'.1 ∧ r.2 = r'.2

variable [Arith F]

/-- What the record counts have to satisfy where the evaluator computes with them. -/
structure Proportional : Prop where
  zero : Q Arith.zero Arith.zero
  add : ∀ {a a' b b'}, Q a a' → Q b b' → Q (Arith.add a b) (Arith.add a' b')
  div : ∀ {a a' b b'}, Q a a' → Q b b' → Arith.div a b = Arith.div a' b'

variable {Q}

theorem compileDists_rel {ds ds' : List (ScoreDistribution F)} (hs : shares ds = shares ds')
    (hc : List.Forall₂ (fun s s' => Q s.recordCount s'.recordCount) ds ds') :
    List.Forall₂ (ScoreRel Q) (compileDists ds) (compileDists ds') := by
  have e : ∀ ds : List (ScoreDistribution F), ds.foldl (fun t sc => Arith.add t sc.recordCount) Arith.zero =
      Spec.sum (ds.map (·.recordCount)) := by
    intro ds; unfold Spec.sum; rw [List.foldl_map]
  unfold compileDists
  simp only [e]
  unfold shares at hs
  simp only at hs
  generalize Spec.sum (ds.map (·.recordCount)) = t at hs
  generalize Spec.sum (ds'.map (·.recordCount)) = t' at hs
  induction hc with
  | nil => exact .nil
  | cons h _ ih =>
    simp only [List.map_cons, List.cons.injEq, Prod.mk.injEq] at hs
    exact .cons ⟨hs.1.1, hs.1.2.1, hs.1.2.2, h⟩ (ih hs.2)

variable [Lib F]

mutual
theorem newNode_rel {types : FieldTypes} : (n : Node F) → ∀ {n'}, RecountedNode Q n n' →
    ResRel (CNodeRel Q) (newNode types n) (newNode types n')
  | .mk id dc score rc ds ns p, n', h => by
    cases h with
    | mk hq hs hc hn =>
      rw [newNode, newNode]
      refine (newNodes_rel ns hn).bind fun cs cs' hcs => ?_
      cases p with
      | none => exact .ok (.mk (compileDists_rel hs hc) ⟨rfl, rfl, rfl, hq⟩ hcs)
      | some p =>
        refine (ResRel.of_eq (rfl : compilePredicate types p = _)).bind fun p1 p2 hp => ?_
        subst hp
        exact .ok (.mk (compileDists_rel hs hc) ⟨rfl, rfl, rfl, hq⟩ hcs)
theorem newNodes_rel {types : FieldTypes} : (ns : List (Node F)) → ∀ {ns'}, List.Forall₂ (RecountedNode Q) ns ns' →
    ResRel (List.Forall₂ (CNodeRel Q)) (newNodes types ns) (newNodes types ns')
  | [], _, h => by cases h; exact .ok .nil
  | n :: ns, _, h => by
    cases h with
    | cons h1 h2 =>
      rw [newNodes, newNodes]
      refine (newNode_rel n h1).bind fun c c' hc => (newNodes_rel ns h2).bind fun cs cs' hcs => ?_
      exact .ok (.cons hc hcs)
end


omit [Arith F] [Lib F] in
theorem forall₂_ne_nil {α β : Type} {R : α → β → Prop} {l : List α} {l' : List β} (h : List.Forall₂ R l l') :
    l ≠ [] ↔ l' ≠ [] := by cases h <;> simp

omit [Arith F] [Lib F] in
theorem CNodeRel.parts {n n' : CNode F} (h : CNodeRel Q n n') :
    n.id = n'.id ∧ ScoreRel Q n.score n'.score ∧ List.Forall₂ (ScoreRel Q) n.scoreDist n'.scoreDist ∧
      List.Forall₂ (CNodeRel Q) n.children n'.children := by
  cases h with
  | mk h1 h2 h3 => exact ⟨rfl, h2, h1, h3⟩

omit [Lib F] in
theorem outputScoreDist_rel (hq : Q Arith.zero Arith.zero) {c : TreeCtx F} {n n' : CNode F} (h : CNodeRel Q n n') :
    List.Forall₂ (ScoreRel Q) (outputScoreDist c n) (outputScoreDist c n') := by
  obtain ⟨-, h2, h1, h3⟩ := h.parts
  unfold outputScoreDist
  rw [if_congr (and_congr_left fun _ => forall₂_ne_nil h3) rfl rfl, if_congr (forall₂_ne_nil h1) rfl rfl]
  split_ifs
  · exact .nil
  · exact h1
  · unfold targetDist
    induction c.dd with
    | nil => exact .nil
    | cons f l ih =>
      simp only [List.flatMap_cons]
      refine List.rel_append ?_ ih
      split_ifs
      · induction f.values with
        | nil => exact .nil
        | cons v vs ihv =>
          simp only [List.map_cons]
          refine .cons ?_ ihv
          rw [h2.value]
          split_ifs
          · exact ⟨rfl, rfl, rfl, h2.count⟩
          · exact ⟨rfl, rfl, rfl, hq⟩
      · exact .nil
  · exact .cons h2 .nil

omit [Arith F] [Lib F] in
theorem unknownValues_rel {rs rs' : List (NodeRes F)} (h : List.Forall₂ (AnsRel Q) rs rs') :
    unknownValues rs = unknownValues rs' := by
  unfold unknownValues
  induction h with
  | nil => rfl
  | cons h _ ih => simp only [List.any_cons, h.2, ih]

omit [Arith F] [Lib F] in
theorem trueDist_rel {rs rs' : List (NodeRes F)} (h : List.Forall₂ (AnsRel Q) rs rs') :
    List.Forall₂ (ScoreRel Q) (trueDist rs) (trueDist rs') := by
  unfold trueDist
  refine foldl_rel (S := List.Forall₂ (ScoreRel Q)) (fun c d a b hs hr => ?_) h .nil
  rw [hr.2]
  split
  · exact hr.1
  · exact hs

mutual
theorem evalNone_rel (hq : Q Arith.zero Arith.zero) {c : TreeCtx F} {row : Row F} : (n : CNode F) → ∀ {n'},
    CNodeRel Q n n' → ResRel (AnsRel Q) (evalNone c row n) (evalNone c row n')
  | .mk id dc sd sc p cs, n', h => by
    have ho := outputScoreDist_rel hq (c := c) h
    cases h with
    | mk h1 h2 h3 =>
      rw [evalNone, evalNone]
      refine (ResRel.of_eq (rfl : runTest c.types p row = _)).bind fun r r' hr => ?_
      subst hr
      split_ifs
      · exact .ok ⟨.nil, rfl⟩
      · refine (evalNoneChildren_rel hq cs h3).bind fun a b hab => ?_
        cases hab with
        | none => exact .ok ⟨ho, rfl⟩
        | some h => exact .ok h
theorem evalNoneChildren_rel (hq : Q Arith.zero Arith.zero) {c : TreeCtx F} {row : Row F} : (cs : List (CNode F)) →
    ∀ {cs'}, List.Forall₂ (CNodeRel Q) cs cs' →
    ResRel (Option.Rel (AnsRel Q)) (evalNoneChildren c row cs) (evalNoneChildren c row cs')
  | [], _, h => by cases h; exact .ok .none
  | n :: cs, _, h => by
    cases h with
    | cons h1 h2 =>
      rw [evalNoneChildren, evalNoneChildren]
      refine (evalNone_rel hq n h1).bind fun r r' hr => ?_
      rw [hr.2]
      split_ifs
      · exact .ok (.some hr)
      · exact evalNoneChildren_rel hq cs h2
end

mutual
theorem evalNull_rel (hq : Q Arith.zero Arith.zero) {c : TreeCtx F} {row : Row F} : (n : CNode F) → ∀ {n'},
    CNodeRel Q n n' → ResRel (AnsRel Q) (evalNull c row n) (evalNull c row n')
  | .mk id dc sd sc p cs, n', h => by
    have ho := outputScoreDist_rel hq (c := c) h
    cases h with
    | mk h1 h2 h3 =>
      rw [evalNull, evalNull]
      refine (ResRel.of_eq (rfl : runTest c.types p row = _)).bind fun r r' hr => ?_
      subst hr
      split_ifs
      · exact .ok ⟨.nil, rfl⟩
      · exact .ok ⟨.nil, rfl⟩
      · refine (evalNullChildren_rel hq cs h3).bind fun a b hab => ?_
        cases hab with
        | none => exact .ok ⟨ho, rfl⟩
        | some h => exact .ok h
theorem evalNullChildren_rel (hq : Q Arith.zero Arith.zero) {c : TreeCtx F} {row : Row F} : (cs : List (CNode F)) →
    ∀ {cs'}, List.Forall₂ (CNodeRel Q) cs cs' →
    ResRel (Option.Rel (AnsRel Q)) (evalNullChildren c row cs) (evalNullChildren c row cs')
  | [], _, h => by cases h; exact .ok .none
  | n :: cs, _, h => by
    cases h with
    | cons h1 h2 =>
      rw [evalNullChildren, evalNullChildren]
      refine (evalNull_rel hq n h1).bind fun r r' hr => ?_
      rw [hr.2]
      split_ifs
      · exact .ok (.some hr)
      · exact .ok (.some ⟨.nil, rfl⟩)
      · exact evalNullChildren_rel hq cs h2
end

mutual
theorem evalLast_rel (hq : Q Arith.zero Arith.zero) {c : TreeCtx F} {row : Row F} : (n : CNode F) → ∀ {n'},
    CNodeRel Q n n' → ResRel (AnsRel Q) (evalLast c row n) (evalLast c row n')
  | .mk id dc sd sc p cs, n', h => by
    have ho := outputScoreDist_rel hq (c := c) h
    cases h with
    | mk h1 h2 h3 =>
      rw [evalLast, evalLast]
      refine (ResRel.of_eq (rfl : runTest c.types p row = _)).bind fun r r' hr => ?_
      subst hr
      split_ifs
      · exact .ok ⟨.nil, rfl⟩
      · refine (evalLastChildren_rel hq cs h3).bind fun rs rs' hrs => ?_
        simp only [unknownValues_rel hrs, forall₂_ne_nil (trueDist_rel hrs)]
        split_ifs
        · exact .ok ⟨trueDist_rel hrs, rfl⟩
        · exact .ok ⟨ho, rfl⟩
theorem evalLastChildren_rel (hq : Q Arith.zero Arith.zero) {c : TreeCtx F} {row : Row F} : (cs : List (CNode F)) →
    ∀ {cs'}, List.Forall₂ (CNodeRel Q) cs cs' →
    ResRel (List.Forall₂ (AnsRel Q)) (evalLastChildren c row cs) (evalLastChildren c row cs')
  | [], _, h => by cases h; exact .ok .nil
  | n :: cs, _, h => by
    cases h with
    | cons h1 h2 =>
      rw [evalLastChildren, evalLastChildren]
      exact (evalLast_rel hq n h1).bind fun r r' hr => (evalLastChildren_rel hq cs h2).bind fun rs rs' hrs =>
        .ok (.cons hr hrs)
end

omit [Arith F] [Lib F] in
theorem CNodeRel.id_eq {n n' : CNode F} (h : CNodeRel Q n n') : n.id = n'.id := by cases h; rfl

omit [Arith F] [Lib F] in
theorem CNodeRel.score_rel {n n' : CNode F} (h : CNodeRel Q n n') : ScoreRel Q n.score n'.score := by
  cases h; assumption

omit [Arith F] [Lib F] in
theorem zip_rel {cs cs' : List (CNode F)} {rs rs' : List (NodeRes F)} (hc : List.Forall₂ (CNodeRel Q) cs cs')
    (hr : List.Forall₂ (AnsRel Q) rs rs') :
    List.Forall₂ (fun p p' => CNodeRel Q p.1 p'.1 ∧ AnsRel Q p.2 p'.2) (cs.zip rs) (cs'.zip rs') := by
  induction hc generalizing rs rs' with
  | nil => exact .nil
  | cons h _ ih =>
    cases hr with
    | nil => exact .nil
    | cons h' hr' => exact .cons ⟨h, h'⟩ (ih hr')

omit [Arith F] [Lib F] in
theorem childScores_rel {cs cs' : List (CNode F)} {rs rs' : List (NodeRes F)} (hc : List.Forall₂ (CNodeRel Q) cs cs')
    (hr : List.Forall₂ (AnsRel Q) rs rs') :
    MapRel (List.Forall₂ (ScoreRel Q)) (childScores cs rs) (childScores cs' rs') := by
  unfold childScores
  refine foldl_rel (S := MapRel (List.Forall₂ (ScoreRel Q))) (fun c d a b hs hab => ?_) (zip_rel hc hr) .empty
  rw [hab.1.id_eq]
  exact hs.insert _ hab.2.1

mutual
theorem evalDefault_rel (hq : Q Arith.zero Arith.zero) {c : TreeCtx F} {row : Row F} : (n : CNode F) → ∀ {n'},
    CNodeRel Q n n' → ResRel (AnsRel Q) (evalDefault c row n) (evalDefault c row n')
  | .mk id dc sd sc p cs, n', h => by
    have ho := outputScoreDist_rel hq (c := c) h
    cases h with
    | @mk _ _ _ _ _ _ _ _ cs' h1 h2 h3 =>
      rw [evalDefault, evalDefault]
      refine (ResRel.of_eq (rfl : runTest c.types p row = _)).bind fun r r' hr => ?_
      subst hr
      split_ifs
      · exact .ok ⟨.nil, rfl⟩
      · refine (evalDefaultChildren_rel hq cs h3).bind fun rs rs' hrs => ?_
        simp only [unknownValues_rel hrs, forall₂_ne_nil (trueDist_rel hrs)]
        split_ifs
        · exact .ok ⟨trueDist_rel hrs, rfl⟩
        · have := childScores_rel h3 hrs dc
          revert this
          generalize (childScores cs rs)[dc]? = a
          generalize (childScores cs' rs')[dc]? = b
          intro this
          cases this with
          | none => exact .ok ⟨.nil, rfl⟩
          | some h =>
            refine .ok ⟨?_, rfl⟩
            refine List.rel_map ?_ h
            intro s s' hs
            exact ⟨hs.value, by simp [penalize, hs.confidence], by simp [penalize, hs.probability], hs.count⟩
        · exact .ok ⟨ho, rfl⟩
theorem evalDefaultChildren_rel (hq : Q Arith.zero Arith.zero) {c : TreeCtx F} {row : Row F} : (cs : List (CNode F)) →
    ∀ {cs'}, List.Forall₂ (CNodeRel Q) cs cs' →
    ResRel (List.Forall₂ (AnsRel Q)) (evalDefaultChildren c row cs) (evalDefaultChildren c row cs')
  | [], _, h => by cases h; exact .ok .nil
  | n :: cs, _, h => by
    cases h with
    | cons h1 h2 =>
      rw [evalDefaultChildren, evalDefaultChildren]
      exact (evalDefault_rel hq n h1).bind fun r r' hr => (evalDefaultChildren_rel hq cs h2).bind fun rs rs' hrs =>
        .ok (.cons hr hrs)
end

omit [Arith F] [Lib F] in
theorem liveChildren_rel {cs cs' : List (CNode F)} {rs rs' : List (NodeRes F)} (hc : List.Forall₂ (CNodeRel Q) cs cs')
    (hr : List.Forall₂ (AnsRel Q) rs rs') :
    List.Forall₂ (fun p p' => CNodeRel Q p.1 p'.1 ∧ AnsRel Q p.2 p'.2) (liveChildren cs rs) (liveChildren cs' rs') := by
  unfold liveChildren
  exact List.rel_filter (fun p p' h => by simp [h.2.2]) (zip_rel hc hr)

omit [Lib F] in
theorem weightedAgg_rel (hQ : Proportional Q) {o : MapOrd} (ho : o.Natural)
    {l l' : List (CNode F × NodeRes F)} (h : List.Forall₂ (fun p p' => CNodeRel Q p.1 p'.1 ∧ AnsRel Q p.2 p'.2) l l') :
    MapRel (ScoreRel Q) (weightedAgg o l) (weightedAgg o l') := by
  have h1 : MapRel Q (childRecordCounts l) (childRecordCounts l') := by
    unfold childRecordCounts
    refine foldl_rel (S := MapRel Q) (fun c d a b hs hab => ?_) h .empty
    rw [hab.1.id_eq]
    exact hs.insert _ hab.1.score_rel.count
  have h2 : MapRel (List.Forall₂ (ScoreRel Q)) (liveScores l) (liveScores l') := by
    unfold liveScores
    refine foldl_rel (S := MapRel (List.Forall₂ (ScoreRel Q))) (fun c d a b hs hab => ?_) h .empty
    rw [hab.1.id_eq]
    exact hs.insert _ hab.2.1
  have h3 : Q (totalRecordCount l) (totalRecordCount l') := by
    unfold totalRecordCount
    exact foldl_rel (S := Q) (fun c d a b hs hab => hQ.add hs hab.1.score_rel.count) h hQ.zero
  unfold weightedAgg
  refine foldl_rel (S := MapRel (ScoreRel Q)) (fun c d a b hs hab => ?_) (h2.range ho) .empty
  have hw : Arith.div (((childRecordCounts l)[a.1]?).getD Arith.zero) (totalRecordCount l) =
      Arith.div (((childRecordCounts l')[b.1]?).getD Arith.zero) (totalRecordCount l') := by
    refine hQ.div ?_ h3
    rw [hab.1]
    have := h1 b.1
    revert this
    generalize (childRecordCounts l)[b.1]? = x
    generalize (childRecordCounts l')[b.1]? = y
    intro this
    cases this with
    | none => exact hQ.zero
    | some h => exact h
  simp only [hw]
  refine foldl_rel (S := MapRel (ScoreRel Q)) (fun c d s s' hs hr => ?_) hab.2 hs
  unfold weightedStep
  have ha : ScoreRel Q ((c[s.value]?).getD ⟨s.value, Arith.zero, Arith.zero, Arith.zero⟩)
      ((d[s'.value]?).getD ⟨s'.value, Arith.zero, Arith.zero, Arith.zero⟩) := by
    rw [hr.value]
    have := hs s'.value
    revert this
    generalize c[s'.value]? = x
    generalize d[s'.value]? = y
    intro this
    cases this with
    | none => exact ⟨rfl, rfl, rfl, hQ.zero⟩
    | some h => exact h
  simp only
  rw [show s.value = s'.value from hr.value] at ha ⊢
  exact hs.insert _ ⟨ha.value, by simp [ha.confidence, hr.confidence], by simp [ha.probability, hr.probability],
    hQ.add ha.count hr.count⟩

mutual
theorem evalWeighted_rel (hQ : Proportional Q) {c : TreeCtx F} {row : Row F} : (n : CNode F) → ∀ {n'} {o : MapOrd},
    o.Natural → CNodeRel Q n n' → ResRel (AnsRel Q) (evalWeighted c row o n) (evalWeighted c row o n')
  | .mk id dc sd sc p cs, n', o, hnat, h => by
    have ho := outputScoreDist_rel hQ.zero (c := c) h
    cases h with
    | mk h1 h2 h3 =>
      rw [evalWeighted, evalWeighted]
      refine (ResRel.of_eq (rfl : runTest c.types p row = _)).bind fun r r' hr => ?_
      subst hr
      split_ifs
      · exact .ok ⟨h1, rfl⟩
      · refine (evalWeightedChildren_rel hQ cs hnat h3).bind fun rs rs' hrs => ?_
        simp only [unknownValues_rel hrs, forall₂_ne_nil (trueDist_rel hrs)]
        split_ifs
        · exact .ok ⟨trueDist_rel hrs, rfl⟩
        · refine .ok ⟨?_, rfl⟩
          exact List.rel_map (fun a b hab => hab.2)
            ((weightedAgg_rel hQ (hnat.at_ 0) (liveChildren_rel h3 hrs)).range (hnat.at_ 1))
        · exact .ok ⟨ho, rfl⟩
theorem evalWeightedChildren_rel (hQ : Proportional Q) {c : TreeCtx F} {row : Row F} : (cs : List (CNode F)) →
    ∀ {cs'} {o : MapOrd} {i : Nat}, o.Natural → List.Forall₂ (CNodeRel Q) cs cs' →
    ResRel (List.Forall₂ (AnsRel Q)) (evalWeightedChildren c row o i cs) (evalWeightedChildren c row o i cs')
  | [], _, _, _, _, h => by cases h; exact .ok .nil
  | n :: cs, _, o, i, hnat, h => by
    cases h with
    | cons h1 h2 =>
      rw [evalWeightedChildren, evalWeightedChildren]
      exact (evalWeighted_rel hQ n (hnat.at_ i) h1).bind fun r r' hr =>
        (evalWeightedChildren_rel hQ cs hnat h2).bind fun rs rs' hrs => .ok (.cons hr hrs)
end

omit [Lib F] in
theorem aggregateDist_rel (hQ : Proportional Q) {o : MapOrd} (ho : o.Natural) {l l' : List (ScoreDist F)}
    (h : List.Forall₂ (ScoreRel Q) l l') :
    List.Forall₂ (ScoreRel Q) (aggregateDist o l) (aggregateDist o l') := by
  let R : ScoreDist F → ScoreDist F → Prop := ScoreRel Q
  have h1 : MapRel R (l.foldl aggregateStep ∅) (l'.foldl aggregateStep ∅) := by
    refine foldl_rel (S := MapRel R) (fun c d s s' hs hr => ?_) h .empty
    unfold aggregateStep
    have ha : ScoreRel Q ((c[s.value]?).getD ⟨s.value, Arith.zero, Arith.zero, Arith.zero⟩)
        ((d[s'.value]?).getD ⟨s'.value, Arith.zero, Arith.zero, Arith.zero⟩) := by
      rw [hr.value]
      have := hs s'.value
      revert this
      generalize c[s'.value]? = x
      generalize d[s'.value]? = y
      intro this
      cases this with
      | none => exact ⟨rfl, rfl, rfl, hQ.zero⟩
      | some h => exact h
    simp only
    rw [show s.value = s'.value from hr.value] at ha ⊢
    exact hs.insert _ ⟨ha.value, ha.confidence, ha.probability, hQ.add ha.count hr.count⟩
  have h2 : Q (l.foldl (fun t sc => Arith.add t sc.recordCount) Arith.zero)
      (l'.foldl (fun t sc => Arith.add t sc.recordCount) Arith.zero) :=
    foldl_rel (S := Q) (fun c d a b hs hab => hQ.add hs hab.count) h hQ.zero
  unfold aggregateDist
  refine List.rel_map (fun a b hab => ?_) (h1.range ho)
  have : ScoreRel Q a.2 b.2 := hab.2
  exact ⟨this.value, hQ.div this.count h2, hQ.div this.count h2, this.count⟩

omit [Arith F] [Lib F] in
theorem flatMap_rel {rs rs' : List (NodeRes F)} (h : List.Forall₂ (AnsRel Q) rs rs') :
    List.Forall₂ (ScoreRel Q) (rs.flatMap (·.1)) (rs'.flatMap (·.1)) := by
  induction h with
  | nil => exact .nil
  | cons h _ ih => simp only [List.flatMap_cons]; exact List.rel_append h.1 ih

mutual
theorem evalAggregate_rel (hQ : Proportional Q) {c : TreeCtx F} {row : Row F} : (n : CNode F) → ∀ {n'} {o : MapOrd},
    o.Natural → CNodeRel Q n n' → ResRel (AnsRel Q) (evalAggregate c row o n) (evalAggregate c row o n')
  | .mk id dc sd sc p cs, n', o, hnat, h => by
    have ho := outputScoreDist_rel hQ.zero (c := c) h
    cases h with
    | mk h1 h2 h3 =>
      rw [evalAggregate, evalAggregate]
      refine (ResRel.of_eq (rfl : runTest c.types p row = _)).bind fun r r' hr => ?_
      subst hr
      split_ifs
      · exact .ok ⟨ho, rfl⟩
      · refine (evalAggregateChildren_rel hQ cs hnat h3).bind fun rs rs' hrs => ?_
        simp only [unknownValues_rel hrs, forall₂_ne_nil (trueDist_rel hrs)]
        split_ifs
        · exact .ok ⟨trueDist_rel hrs, rfl⟩
        · exact .ok ⟨aggregateDist_rel hQ (hnat.at_ 0) (flatMap_rel hrs), rfl⟩
        · exact .ok ⟨ho, rfl⟩
theorem evalAggregateChildren_rel (hQ : Proportional Q) {c : TreeCtx F} {row : Row F} : (cs : List (CNode F)) →
    ∀ {cs'} {o : MapOrd} {i : Nat}, o.Natural → List.Forall₂ (CNodeRel Q) cs cs' →
    ResRel (List.Forall₂ (AnsRel Q)) (evalAggregateChildren c row o i cs) (evalAggregateChildren c row o i cs')
  | [], _, _, _, _, h => by cases h; exact .ok .nil
  | n :: cs, _, o, i, hnat, h => by
    cases h with
    | cons h1 h2 =>
      rw [evalAggregateChildren, evalAggregateChildren]
      exact (evalAggregate_rel hQ n (hnat.at_ i) h1).bind fun r r' hr =>
        (evalAggregateChildren_rel hQ cs hnat h2).bind fun rs rs' hrs => .ok (.cons hr hrs)
end

/-- The whole evaluation of a tree. -/
theorem evalNode_rel (hq : Q Arith.zero Arith.zero) {c : TreeCtx F} {o : MapOrd} {row : Row F}
    (hm : c.strategy ≠ .weightedConfidence ∧ c.strategy ≠ .aggregateNodes ∨ Proportional Q ∧ o.Natural)
    {n n' : CNode F} (h : CNodeRel Q n n') :
    ResRel (AnsRel Q) (evalNode c o row n) (evalNode c o row n') := by
  unfold evalNode
  cases hs : c.strategy with
  | nullPrediction => exact evalNull_rel hq n h
  | aggregateNodes =>
    rcases hm with hm | ⟨h1, h2⟩
    · exact absurd hs hm.2
    · exact evalAggregate_rel h1 n h2 h
  | weightedConfidence =>
    rcases hm with hm | ⟨h1, h2⟩
    · exact absurd hs hm.1
    · exact evalWeighted_rel h1 n h2 h
  | defaultChild => exact evalDefault_rel hq n h
  | lastPrediction => exact evalLast_rel hq n h
  | none => exact evalNone_rel hq n h
  | other s => exact evalNone_rel hq n h

end Gopmml
