import Verif.Spec.Labels
import Verif.Proofs.ComposeMore
import Verif.Proofs.Mix
import Verif.Proofs.TreeEval
import Mathlib.Logic.Equiv.Basic
import Mathlib.Data.List.Nodup

/-!
# Other names for nodes and for classes
-/

namespace Gopmml
open Spec

variable {F : Type}

/-! ## Orders under new names -/

open Classical in
/-- Some order visits the entries of a list like this. -/
theorem MapOrd.exists_order {V : Type} (l l1 : List (String × V)) (h : l1.Perm l) : ∃ o : MapOrd, o.order [] l = l1 := by
  let S := Σ V : Type, List (String × V)
  refine ⟨⟨fun _ {W} x => if e : (⟨W, x⟩ : S) = ⟨V, l⟩ then cast (by rw [(Sigma.mk.inj e).1]) l1 else x, ?_⟩, ?_⟩
  · intro site W x
    by_cases e : (⟨W, x⟩ : S) = ⟨V, l⟩
    · rw [dif_pos e]
      cases e
      exact h
    · rw [dif_neg e]
  · exact dif_pos rfl

/-- The same map with keys and values renamed. -/
def Moved {V W : Type} (f : String → String) (g : V → W) (m : GoMap V) (m' : GoMap W) : Prop :=
  ∀ k : String, m'[f k]? = (m[k]?).map g

theorem Moved.empty {V W : Type} (f : String → String) (g : V → W) : Moved f g ∅ ∅ := by intro k; simp

theorem Moved.insert {V W : Type} {f : String → String} (hf : Function.Injective f) {g : V → W} {m : GoMap V}
    {m' : GoMap W} (h : Moved f g m m') (k : String) (v : V) : Moved f g (m.insert k v) (m'.insert (f k) (g v)) := by
  intro x
  rw [GoMap.getElem?_insert, GoMap.getElem?_insert, h x]
  by_cases e : k = x
  · subst e; simp
  · rw [if_neg e, if_neg fun e' => e (hf e')]

theorem Moved.fold {α V W : Type} {f : String → String} (hf : Function.Injective f) {g : V → W} (k : α → String)
    (v : α → V) (l : List α) : ∀ {m : GoMap V} {m' : GoMap W}, Moved f g m m' →
    Moved f g (l.foldl (fun m a => m.insert (k a) (v a)) m)
      (l.foldl (fun m a => m.insert (f (k a)) (g (v a))) m') := by
  induction l with
  | nil => intro m m' h; exact h
  | cons a l ih => intro m m' h; exact ih (h.insert hf _ _)

/-- The order in which one map is visited is possible for the other. -/
theorem Moved.range {V W : Type} {f : Equiv.Perm String} {g : V → W} {m : GoMap V} {m' : GoMap W}
    (h : Moved f g m m') (o : MapOrd) : ∃ o' : MapOrd, o'.range m' = (o.range m).map (Prod.map f g) := by
  refine MapOrd.exists_order _ _ ?_
  have h1 : ((o.range m).map (Prod.map f g)).Perm (m.toList.map (Prod.map f g)) := (o.range_perm m).map _
  refine h1.trans ?_
  have n1 : (m.toList.map (Prod.map f g)).Nodup := by
    have hk : ((MapOrd.sorted.range m).map (·.1)).Nodup := MapOrd.nodup_range _ _
    have : ((m.toList.map (Prod.map f g)).map (·.1)).Nodup := by
      rw [List.map_map, show (fun x : String × W => x.1) ∘ Prod.map f g = f ∘ fun x : String × V => x.1 from rfl,
        ← List.map_map]
      exact List.Nodup.map f.injective hk
    exact List.Nodup.of_map _ this
  have n2 : m'.toList.Nodup := by
    have hk : ((MapOrd.sorted.range m').map (·.1)).Nodup := MapOrd.nodup_range _ _
    exact List.Nodup.of_map _ hk
  rw [List.perm_ext_iff_of_nodup n1 n2]
  rintro ⟨k, w⟩
  rw [Std.ExtTreeMap.mem_toList_iff_getElem?_eq_some, List.mem_map]
  have hk := h (f.symm k)
  rw [Equiv.apply_symm_apply] at hk
  rw [hk]
  constructor
  · rintro ⟨⟨a, v⟩, ha, e⟩
    rw [Std.ExtTreeMap.mem_toList_iff_getElem?_eq_some] at ha
    cases e
    simp [ha]
  · intro e
    rw [Option.map_eq_some_iff] at e
    obtain ⟨v, hv, rfl⟩ := e
    refine ⟨(f.symm k, v), ?_, by simp⟩
    rw [Std.ExtTreeMap.mem_toList_iff_getElem?_eq_some]
    exact hv

/-! ## Trees -/

/-- A score with its class renamed. -/
def labelScore (σ : String → String) (s : ScoreDist F) : ScoreDist F := { s with value := σ s.value }

mutual
def labelC (ν σ : String → String) : CNode F → CNode F
  | .mk id dc sd sc pred cs => .mk (ν id) (ν dc) (sd.map (labelScore σ)) (labelScore σ sc) pred (labelCs ν σ cs)
def labelCs (ν σ : String → String) : List (CNode F) → List (CNode F)
  | [] => []
  | n :: ns => labelC ν σ n :: labelCs ν σ ns
end

theorem labelCs_eq {ν σ : String → String} : (ns : List (CNode F)) → labelCs ν σ ns = ns.map (labelC ν σ)
  | [] => rfl
  | n :: ns => by rw [labelCs, labelCs_eq ns]; rfl

theorem labelCs_nil {ν σ : String → String} (ns : List (CNode F)) : labelCs ν σ ns = [] ↔ ns = [] := by
  rw [labelCs_eq, List.map_eq_nil_iff]

variable [Arith F]

theorem compileDists_label (σ : String → String) (ds : List (ScoreDistribution F)) :
    compileDists (ds.map (labelDist σ)) = (compileDists ds).map (labelScore σ) := by
  unfold compileDists
  rw [List.foldl_map]
  simp only [List.map_map]
  rfl

mutual
theorem newNode_label [Lib F] (ν σ : String → String) (types : FieldTypes) : (n : Node F) →
    newNode types (labelNode ν σ n) = (newNode types n).map (labelC ν σ)
  | .mk id dc score rc dists nodes pred => by
    rw [labelNode, newNode, newNode, newNodes_label ν σ types nodes, compileDists_label]
    cases newNodes types nodes with
    | error e => rfl
    | ok cs =>
      cases pred with
      | none => rfl
      | some p =>
        simp only
        cases compilePredicate types p <;> rfl
theorem newNodes_label [Lib F] (ν σ : String → String) (types : FieldTypes) : (ns : List (Node F)) →
    newNodes types (labelNodes ν σ ns) = (newNodes types ns).map (labelCs ν σ)
  | [] => rfl
  | n :: ns => by
    rw [labelNodes, newNodes, newNodes, newNode_label ν σ types n, newNodes_label ν σ types ns]
    cases newNode types n with
    | error e => rfl
    | ok a => cases newNodes types ns <;> rfl
end

theorem pickBest_label {σ : String → String} (h0 : σ "" = "") (l : List (ScoreDist F)) :
    pickBest (l.map (labelScore σ)) = labelScore σ (pickBest l) := by
  have key : ∀ b : ScoreDist F, (l.map (labelScore σ)).foldl (fun best score =>
        if Arith.lt best.probability score.probability then score else best) (labelScore σ b) =
      labelScore σ (l.foldl (fun best score =>
        if Arith.lt best.probability score.probability then score else best) b) := by
    induction l with
    | nil => intro b; rfl
    | cons s l ih =>
      intro b
      rw [List.map_cons, List.foldl_cons, List.foldl_cons, ← ih]
      congr 1
      by_cases e : Arith.lt b.probability s.probability = true <;> simp [labelScore, e]
  have := key ⟨"", Arith.zero, Arith.zero, Arith.zero⟩
  unfold pickBest
  rw [← this]
  simp only [labelScore, h0]

/-- What two contexts have to agree on. -/
structure CtxLabel (σ : String → String) (c c' : TreeCtx F) : Prop where
  strategy : c'.strategy = c.strategy
  noTrueChild : c'.noTrueChild = c.noTrueChild
  penalty : c'.penalty = c.penalty
  target : c'.targetField = c.targetField
  types : c'.types = c.types
  dist : ∀ s, targetDist c' (labelScore σ s) = (targetDist c s).map (labelScore σ)

/-- The answer of a node with its classes renamed. -/
def labelRes (σ : String → String) (r : NodeRes F) : NodeRes F := (r.1.map (labelScore σ), r.2)

variable {ν σ : Equiv.Perm String} {c c' : TreeCtx F}

theorem outputScoreDist_label (h : CtxLabel σ c c') (n : CNode F) :
    outputScoreDist c' (labelC ν σ n) = (outputScoreDist c n).map (labelScore σ) := by
  obtain ⟨id, dc, sd, sc, pred, cs⟩ := n
  by_cases h1 : cs = [] <;> by_cases h2 : sd = [] <;> by_cases h3 : c.targetField = "" <;>
    by_cases h4 : c.noTrueChild = .returnNullPrediction <;>
    simp [outputScoreDist, labelC, CNode.children, CNode.scoreDist, CNode.score, h.noTrueChild, h.target, labelCs_nil,
      h.dist, h1, h2, h3, h4]

omit [Arith F] in
theorem unknownValues_label (σ : String → String) (rs : List (NodeRes F)) :
    unknownValues (rs.map (labelRes σ)) = unknownValues rs := by
  unfold unknownValues
  rw [List.any_map]
  rfl

omit [Arith F] in
theorem trueDist_label (σ : String → String) (rs : List (NodeRes F)) :
    trueDist (rs.map (labelRes σ)) = (trueDist rs).map (labelScore σ) := by
  unfold trueDist
  have : ∀ acc : List (ScoreDist F), (rs.map (labelRes σ)).foldl (fun acc r => if r.2 = .t then r.1 else acc)
      (acc.map (labelScore σ)) =
      (rs.foldl (fun acc r => if r.2 = .t then r.1 else acc) acc).map (labelScore σ) := by
    induction rs with
    | nil => intro acc; rfl
    | cons r rs ih =>
      intro acc
      rw [List.map_cons, List.foldl_cons, List.foldl_cons, ← ih]
      congr 1
      by_cases e : r.2 = .t <;> simp [labelRes, e]
  exact this []

omit [Arith F] in
theorem labelC_id (n : CNode F) : (labelC ν σ n).id = ν n.id := by cases n; rfl
omit [Arith F] in
theorem labelC_count (n : CNode F) : (labelC ν σ n).score.recordCount = n.score.recordCount := by cases n; rfl

omit [Arith F] in
theorem childScores_label (cs : List (CNode F)) (rs : List (NodeRes F)) :
    Moved ν (List.map (labelScore σ)) (childScores cs rs) (childScores (labelCs ν σ cs) (rs.map (labelRes σ))) := by
  unfold childScores
  rw [labelCs_eq, List.zip_map, List.foldl_map]
  have := Moved.fold ν.injective (g := List.map (labelScore σ)) (fun p : CNode F × NodeRes F => p.1.id) (fun p => p.2.1)
    (cs.zip rs) (Moved.empty _ _)
  refine Eq.mp ?_ this
  congr 2
  funext m p
  simp only [Prod.map, labelC_id, labelRes]

section
set_option linter.unusedSectionVars false
variable [Lib F] (h : CtxLabel σ c c') (row : Row F)
include h

mutual
theorem evalNone_label : (n : CNode F) → evalNone c' row (labelC ν σ n) = (evalNone c row n).map (labelRes σ)
  | .mk id dc sd sc pred cs => by
    have ho := outputScoreDist_label (ν := ν) h (.mk id dc sd sc pred cs)
    rw [labelC] at ho ⊢
    rw [evalNone, evalNone, h.types, evalNoneChildren_label cs]
    cases runTest c.types pred row with
    | error e => rfl
    | ok a =>
      simp only [bind, Except.bind]
      split_ifs
      · rfl
      · cases evalNoneChildren c row cs with
        | error e => rfl
        | ok x => cases x with
          | none => simp only [Except.map, Option.map, ho]; rfl
          | some r => rfl
theorem evalNoneChildren_label : (cs : List (CNode F)) →
    evalNoneChildren c' row (labelCs ν σ cs) = (evalNoneChildren c row cs).map (Option.map (labelRes σ))
  | [] => rfl
  | n :: cs => by
    rw [labelCs, evalNoneChildren, evalNoneChildren, evalNone_label n, evalNoneChildren_label cs]
    cases evalNone c row n with
    | error e => rfl
    | ok r =>
      simp only [bind, Except.bind, Except.map, labelRes]
      split_ifs <;> rfl
end

mutual
theorem evalNull_label : (n : CNode F) → evalNull c' row (labelC ν σ n) = (evalNull c row n).map (labelRes σ)
  | .mk id dc sd sc pred cs => by
    have ho := outputScoreDist_label (ν := ν) h (.mk id dc sd sc pred cs)
    rw [labelC] at ho ⊢
    rw [evalNull, evalNull, h.types, evalNullChildren_label cs]
    cases runTest c.types pred row with
    | error e => rfl
    | ok a =>
      simp only [bind, Except.bind]
      split_ifs
      · rfl
      · rfl
      · cases evalNullChildren c row cs with
        | error e => rfl
        | ok x => cases x with
          | none => simp only [Except.map, Option.map, ho]; rfl
          | some r => rfl
theorem evalNullChildren_label : (cs : List (CNode F)) →
    evalNullChildren c' row (labelCs ν σ cs) = (evalNullChildren c row cs).map (Option.map (labelRes σ))
  | [] => rfl
  | n :: cs => by
    rw [labelCs, evalNullChildren, evalNullChildren, evalNull_label n, evalNullChildren_label cs]
    cases evalNull c row n with
    | error e => rfl
    | ok r =>
      simp only [bind, Except.bind, Except.map, labelRes]
      split_ifs <;> rfl
end

mutual
theorem evalLast_label : (n : CNode F) → evalLast c' row (labelC ν σ n) = (evalLast c row n).map (labelRes σ)
  | .mk id dc sd sc pred cs => by
    have ho := outputScoreDist_label (ν := ν) h (.mk id dc sd sc pred cs)
    rw [labelC] at ho ⊢
    rw [evalLast, evalLast, h.types, evalLastChildren_label cs]
    cases runTest c.types pred row with
    | error e => rfl
    | ok a =>
      simp only [bind, Except.bind]
      split_ifs
      · rfl
      · cases evalLastChildren c row cs with
        | error e => rfl
        | ok rs =>
          simp only [Except.map, unknownValues_label, trueDist_label, ne_eq, List.map_eq_nil_iff, ho]
          split_ifs <;> rfl
theorem evalLastChildren_label : (cs : List (CNode F)) →
    evalLastChildren c' row (labelCs ν σ cs) = (evalLastChildren c row cs).map (List.map (labelRes σ))
  | [] => rfl
  | n :: cs => by
    rw [labelCs, evalLastChildren, evalLastChildren, evalLast_label n, evalLastChildren_label cs]
    cases evalLast c row n with
    | error e => rfl
    | ok r => cases evalLastChildren c row cs <;> rfl
end

mutual
theorem evalDefault_label : (n : CNode F) → evalDefault c' row (labelC ν σ n) = (evalDefault c row n).map (labelRes σ)
  | .mk id dc sd sc pred cs => by
    have ho := outputScoreDist_label (ν := ν) h (.mk id dc sd sc pred cs)
    rw [labelC] at ho ⊢
    rw [evalDefault, evalDefault, h.types, evalDefaultChildren_label cs]
    cases runTest c.types pred row with
    | error e => rfl
    | ok a =>
      simp only [bind, Except.bind]
      split_ifs
      · rfl
      · cases evalDefaultChildren c row cs with
        | error e => rfl
        | ok rs =>
          simp only [Except.map, unknownValues_label, trueDist_label, ne_eq, List.map_eq_nil_iff, ho, h.penalty,
            childScores_label (ν := ν) (σ := σ) cs rs dc]
          split_ifs
          · rfl
          · cases (childScores cs rs)[dc]? with
            | none => rfl
            | some l =>
              simp only [Option.map, labelRes, pure, Except.pure, List.map_map]
              rfl
          · rfl
theorem evalDefaultChildren_label : (cs : List (CNode F)) →
    evalDefaultChildren c' row (labelCs ν σ cs) = (evalDefaultChildren c row cs).map (List.map (labelRes σ))
  | [] => rfl
  | n :: cs => by
    rw [labelCs, evalDefaultChildren, evalDefaultChildren, evalDefault_label n, evalDefaultChildren_label cs]
    cases evalDefault c row n with
    | error e => rfl
    | ok r => cases evalDefaultChildren c row cs <;> rfl
end

omit h [Lib F] in
theorem weightedStep_label (w : F) (s : ScoreDist F) {agg agg' : GoMap (ScoreDist F)}
    (hm : Moved σ (labelScore σ) agg agg') :
    Moved σ (labelScore σ) (weightedStep w agg s) (weightedStep w agg' (labelScore σ s)) := by
  unfold weightedStep
  have e : (agg'[(labelScore σ s).value]?).getD ⟨(labelScore σ s).value, Arith.zero, Arith.zero, Arith.zero⟩ =
      labelScore σ ((agg[s.value]?).getD ⟨s.value, Arith.zero, Arith.zero, Arith.zero⟩) := by
    rw [show (labelScore σ s).value = σ s.value from rfl, hm s.value]
    cases agg[s.value]? <;> rfl
  rw [e]
  exact hm.insert σ.injective s.value _

omit h [Lib F] in
theorem weightedFold_label (w : F) (l : List (ScoreDist F)) : ∀ {agg agg' : GoMap (ScoreDist F)},
    Moved σ (labelScore σ) agg agg' →
    Moved σ (labelScore σ) (l.foldl (weightedStep w) agg) ((l.map (labelScore σ)).foldl (weightedStep w) agg') := by
  induction l with
  | nil => intro agg agg' h; exact h
  | cons s l ih => intro agg agg' h; exact ih (weightedStep_label w s h)

omit h [Lib F] in
theorem weightedAgg_label (o : MapOrd) (cs : List (CNode F)) (rs : List (NodeRes F)) : ∃ o' : MapOrd,
    Moved σ (labelScore σ) (weightedAgg o (liveChildren cs rs))
      (weightedAgg o' (liveChildren (labelCs ν σ cs) (rs.map (labelRes σ)))) := by
  have e : liveChildren (labelCs ν σ cs) (rs.map (labelRes σ)) =
      (liveChildren cs rs).map (Prod.map (labelC ν σ) (labelRes σ)) := by
    unfold liveChildren
    rw [labelCs_eq, List.zip_map, List.filter_map]
    rfl
  rw [e]
  generalize liveChildren cs rs = live
  have h1 : Moved ν (List.map (labelScore σ)) (liveScores live)
      (liveScores (live.map (Prod.map (labelC ν σ) (labelRes σ)))) := by
    unfold liveScores
    rw [List.foldl_map]
    have := Moved.fold ν.injective (g := List.map (labelScore σ)) (fun p : CNode F × NodeRes F => p.1.id)
      (fun p => p.2.1) live (Moved.empty _ _)
    simp only [Prod.map, labelC_id, labelRes]
    exact this
  have h2 : Moved ν (fun x : F => x) (childRecordCounts live)
      (childRecordCounts (live.map (Prod.map (labelC ν σ) (labelRes σ)))) := by
    unfold childRecordCounts
    rw [List.foldl_map]
    have := Moved.fold ν.injective (g := fun x : F => x) (fun p : CNode F × NodeRes F => p.1.id)
      (fun p => p.1.score.recordCount) live (Moved.empty _ _)
    simp only [Prod.map, labelC_id, labelC_count]
    exact this
  have h3 : totalRecordCount (live.map (Prod.map (labelC ν σ) (labelRes σ))) = totalRecordCount live := by
    unfold totalRecordCount
    rw [List.foldl_map]
    simp only [Prod.map, labelC_count]
  obtain ⟨o', ho⟩ := h1.range o
  refine ⟨o', ?_⟩
  unfold weightedAgg
  rw [ho, h3, List.foldl_map]
  generalize o.range (liveScores live) = l
  have key : ∀ {agg agg' : GoMap (ScoreDist F)}, Moved σ (labelScore σ) agg agg' →
      Moved σ (labelScore σ)
        (l.foldl (fun agg p =>
          let w := Arith.div (((childRecordCounts live)[p.1]?).getD Arith.zero) (totalRecordCount live)
          p.2.foldl (weightedStep w) agg) agg)
        (l.foldl (fun agg p =>
          let w := Arith.div (((childRecordCounts (live.map (Prod.map (labelC ν σ) (labelRes σ))))[
            (Prod.map ν (List.map (labelScore σ)) p).1]?).getD Arith.zero) (totalRecordCount live)
          (Prod.map ν (List.map (labelScore σ)) p).2.foldl (weightedStep w) agg) agg') := by
    induction l with
    | nil => intro agg agg' h; exact h
    | cons p l ih =>
      intro agg agg' h
      rw [List.foldl_cons, List.foldl_cons]
      apply ih
      simp only [Prod.map_fst, Prod.map_snd, h2 p.1, Option.map_id']
      exact weightedFold_label _ _ h
  exact key (Moved.empty _ _)

mutual
theorem evalWeighted_label : (n : CNode F) → (o : MapOrd) → ∃ o',
    evalWeighted c' row o' (labelC ν σ n) = (evalWeighted c row o n).map (labelRes σ)
  | .mk id dc sd sc pred cs, o => by
    have ho := outputScoreDist_label (ν := ν) h (.mk id dc sd sc pred cs)
    obtain ⟨f, hf⟩ := evalWeightedChildren_label cs o 2
    have hw : ∀ rs, ∃ a b : MapOrd, (b.range (weightedAgg a (liveChildren (labelCs ν σ cs) (rs.map (labelRes σ))))).map
        (·.2) = (((o.at_ 1).range (weightedAgg (o.at_ 0) (liveChildren cs rs))).map (·.2)).map (labelScore σ) := by
      intro rs
      obtain ⟨a, ha⟩ := weightedAgg_label (ν := ν) (σ := σ) (o.at_ 0) cs rs
      obtain ⟨b, hb⟩ := ha.range (o.at_ 1)
      refine ⟨a, b, ?_⟩
      rw [hb, List.map_map, List.map_map]
      rfl
    rw [labelC] at ho ⊢
    cases hrs : evalWeightedChildren c row o 2 cs with
    | error e =>
      refine ⟨.glue f, ?_⟩
      rw [evalWeighted, evalWeighted, h.types, hf (.glue f) fun _ _ => rfl, hrs]
      cases runTest c.types pred row with
      | error e => rfl
      | ok a =>
        simp only [bind, Except.bind]
        split_ifs <;> rfl
    | ok rs =>
      obtain ⟨a, b, hab⟩ := hw rs
      refine ⟨.glue fun j => if j = 0 then a else if j = 1 then b else f j, ?_⟩
      rw [evalWeighted, evalWeighted, h.types, hf _ fun j hj => by
        rw [MapOrd.glue_at, if_neg (by omega), if_neg (by omega)], hrs]
      cases runTest c.types pred row with
      | error e => rfl
      | ok r =>
        simp only [bind, Except.bind, Except.map, unknownValues_label, trueDist_label, ne_eq, List.map_eq_nil_iff, ho,
          MapOrd.glue_at, if_true, if_neg (show ¬ (1 : Nat) = 0 by decide), hab]
        split_ifs <;> rfl
theorem evalWeightedChildren_label : (cs : List (CNode F)) → (o : MapOrd) → (i : Nat) → ∃ f : Nat → MapOrd,
    ∀ o' : MapOrd, (∀ j, i ≤ j → o'.at_ j = f j) →
    evalWeightedChildren c' row o' i (labelCs ν σ cs) = (evalWeightedChildren c row o i cs).map (List.map (labelRes σ))
  | [], o, i => ⟨fun _ => .sorted, fun _ _ => rfl⟩
  | n :: cs, o, i => by
    obtain ⟨a, ha⟩ := evalWeighted_label n (o.at_ i)
    obtain ⟨f, hf⟩ := evalWeightedChildren_label cs o (i + 1)
    refine ⟨fun j => if j = i then a else f j, fun o' ho => ?_⟩
    have e1 : o'.at_ i = a := (ho i (Nat.le_refl _)).trans (if_pos rfl)
    rw [labelCs, evalWeightedChildren, evalWeightedChildren, e1, ha,
      hf o' fun j hj => (ho j (by omega)).trans (if_neg (by omega))]
    cases evalWeighted c row (o.at_ i) n with
    | error e => rfl
    | ok r => cases evalWeightedChildren c row o (i + 1) cs <;> rfl
end

omit h [Lib F] in
theorem aggregateDist_label (o : MapOrd) (l : List (ScoreDist F)) : ∃ o' : MapOrd,
    aggregateDist o' (l.map (labelScore σ)) = (aggregateDist o l).map (labelScore σ) := by
  have hm : ∀ {agg agg' : GoMap (ScoreDist F)}, Moved σ (labelScore σ) agg agg' →
      Moved σ (labelScore σ) (l.foldl aggregateStep agg) ((l.map (labelScore σ)).foldl aggregateStep agg') := by
    induction l with
    | nil => intro agg agg' h; exact h
    | cons s l ih =>
      intro agg agg' h
      rw [List.map_cons, List.foldl_cons, List.foldl_cons]
      apply ih
      unfold aggregateStep
      have e : (agg'[(labelScore σ s).value]?).getD ⟨(labelScore σ s).value, Arith.zero, Arith.zero, Arith.zero⟩ =
          labelScore σ ((agg[s.value]?).getD ⟨s.value, Arith.zero, Arith.zero, Arith.zero⟩) := by
        rw [show (labelScore σ s).value = σ s.value from rfl, h s.value]
        cases agg[s.value]? <;> rfl
      rw [e]
      exact h.insert σ.injective s.value _
  obtain ⟨o', ho⟩ := (hm (Moved.empty _ _)).range o
  refine ⟨o', ?_⟩
  unfold aggregateDist
  simp only [ho, List.map_map]
  rw [List.foldl_map (f := labelScore σ) (g := fun t sc => Arith.add t sc.recordCount)]
  rfl

mutual
theorem evalAggregate_label : (n : CNode F) → (o : MapOrd) → ∃ o',
    evalAggregate c' row o' (labelC ν σ n) = (evalAggregate c row o n).map (labelRes σ)
  | .mk id dc sd sc pred cs, o => by
    have ho := outputScoreDist_label (ν := ν) h (.mk id dc sd sc pred cs)
    obtain ⟨f, hf⟩ := evalAggregateChildren_label cs o 1
    rw [labelC] at ho ⊢
    cases hrs : evalAggregateChildren c row o 1 cs with
    | error e =>
      refine ⟨.glue f, ?_⟩
      rw [evalAggregate, evalAggregate, h.types, hf (.glue f) fun _ _ => rfl, hrs]
      cases runTest c.types pred row with
      | error e => rfl
      | ok a =>
        simp only [bind, Except.bind, ho]
        split_ifs <;> rfl
    | ok rs =>
      obtain ⟨a, hab⟩ := aggregateDist_label (σ := σ) (o.at_ 0) (rs.flatMap (·.1))
      have e : (rs.map (labelRes σ)).flatMap (·.1) = (rs.flatMap (·.1)).map (labelScore σ) := by
        rw [List.flatMap_map, List.map_flatMap]; rfl
      refine ⟨.glue fun j => if j = 0 then a else f j, ?_⟩
      rw [evalAggregate, evalAggregate, h.types, hf _ fun j hj => by
        rw [MapOrd.glue_at, if_neg (by omega)], hrs]
      cases runTest c.types pred row with
      | error e => rfl
      | ok r =>
        simp only [bind, Except.bind, Except.map, unknownValues_label, trueDist_label, ne_eq, List.map_eq_nil_iff, ho,
          MapOrd.glue_at, if_true, e, hab]
        split_ifs <;> rfl
theorem evalAggregateChildren_label : (cs : List (CNode F)) → (o : MapOrd) → (i : Nat) → ∃ f : Nat → MapOrd,
    ∀ o' : MapOrd, (∀ j, i ≤ j → o'.at_ j = f j) →
    evalAggregateChildren c' row o' i (labelCs ν σ cs) = (evalAggregateChildren c row o i cs).map (List.map (labelRes σ))
  | [], o, i => ⟨fun _ => .sorted, fun _ _ => rfl⟩
  | n :: cs, o, i => by
    obtain ⟨a, ha⟩ := evalAggregate_label n (o.at_ i)
    obtain ⟨f, hf⟩ := evalAggregateChildren_label cs o (i + 1)
    refine ⟨fun j => if j = i then a else f j, fun o' ho => ?_⟩
    have e1 : o'.at_ i = a := (ho i (Nat.le_refl _)).trans (if_pos rfl)
    rw [labelCs, evalAggregateChildren, evalAggregateChildren, e1, ha,
      hf o' fun j hj => (ho j (by omega)).trans (if_neg (by omega))]
    cases evalAggregate c row (o.at_ i) n with
    | error e => rfl
    | ok r => cases evalAggregateChildren c row o (i + 1) cs <;> rfl
end

theorem evalNode_label (o : MapOrd) (n : CNode F) : ∃ o',
    evalNode c' o' row (labelC ν σ n) = (evalNode c o row n).map (labelRes σ) := by
  unfold evalNode
  rw [h.strategy]
  cases c.strategy with
  | nullPrediction => exact ⟨o, evalNull_label h row n⟩
  | aggregateNodes => exact evalAggregate_label h row n o
  | weightedConfidence => exact evalWeighted_label h row n o
  | defaultChild => exact ⟨o, evalDefault_label h row n⟩
  | lastPrediction => exact ⟨o, evalLast_label h row n⟩
  | none => exact ⟨o, evalNone_label h row n⟩
  | other s => exact ⟨o, evalNone_label h row n⟩

end

end Gopmml
