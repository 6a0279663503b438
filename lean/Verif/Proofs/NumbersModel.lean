import Verif.Proofs.Numbers
import Verif.Proofs.Mining
import Verif.Model.Verify

/-!
# Evaluation with other numbers: trees, regression, ensembles
-/

set_option linter.unusedSectionVars false

namespace Gopmml
open Spec

variable {F G : Type} {φ : F → G}

/-- The context of a tree with other numbers. -/
def numCtx (φ : F → G) (c : TreeCtx F) : TreeCtx G :=
  ⟨c.strategy, c.noTrueChild, φ c.penalty, c.targetField, c.dd, c.types⟩

/-- What a node returns, with other numbers. -/
def numNodeRes (φ : F → G) (r : NodeRes F) : NodeRes G := (r.1.map (numScore φ), r.2)

theorem numCNodes_eq (ns : List (CNode F)) : numCNodes φ ns = ns.map (numCNode φ) := by
  induction ns with
  | nil => rw [numCNodes]; rfl
  | cons p ps ih => rw [numCNodes, ih]; rfl

theorem numModels_eq (ns : List (EModel F)) : numModels φ ns = ns.map (numModel φ) := by
  induction ns with
  | nil => rw [numModels]; rfl
  | cons p ps ih => rw [numModels, ih]; rfl

theorem numCNode_id (n : CNode F) : (numCNode φ n).id = n.id := by cases n; rw [numCNode]; rfl

theorem numCNode_score (n : CNode F) : (numCNode φ n).score = numScore φ n.score := by
  cases n; rw [numCNode]; rfl

/-- A loop. -/
theorem foldl_num {A B S T : Type} (g : A → B) (s : S → T) (k : S → A → S) (k' : T → B → T)
    (h : ∀ x a, k' (s x) (g a) = s (k x a)) (l : List A) (x : S) :
    (l.map g).foldl k' (s x) = s (l.foldl k x) := by
  induction l generalizing x with
  | nil => rfl
  | cons a l ih => simp only [List.map_cons, List.foldl_cons, h, ih]

variable [Arith F] [Arith G] [Lib F] [Lib G] [Trans F] [Trans G]

/-! ## Trees -/

theorem numScore_zero (h : GoesAlong φ) (v : String) :
    numScore φ ⟨v, Arith.zero, Arith.zero, Arith.zero⟩ = ⟨v, Arith.zero, Arith.zero, Arith.zero⟩ := by
  simp only [numScore, h.zero]

theorem pickBest_num (h : GoesAlong φ) (l : List (ScoreDist F)) :
    pickBest (l.map (numScore φ)) = numScore φ (pickBest l) := by
  unfold pickBest
  rw [← numScore_zero h]
  refine foldl_num (numScore φ) (numScore φ) _ _ (fun x a => ?_) l _
  simp only [numScore, h.lt]
  split <;> rfl

theorem targetDist_num (h : GoesAlong φ) (c : TreeCtx F) (s : ScoreDist F) :
    targetDist (numCtx φ c) (numScore φ s) = (targetDist c s).map (numScore φ) := by
  unfold targetDist
  rw [List.map_flatMap]
  refine congrArg (fun f => List.flatMap f c.dd) (funext fun field => ?_)
  by_cases hf : field.name = c.targetField
  · rw [if_pos hf, if_pos (show field.name = (numCtx φ c).targetField from hf), List.map_map]
    refine List.map_congr_left fun v _ => ?_
    by_cases hv : v = s.value
    · simp only [Function.comp, numScore, hv, if_true, h.one]
    · simp only [Function.comp, numScore, hv, if_false, h.zero]
  · rw [if_neg hf, if_neg (show ¬ field.name = (numCtx φ c).targetField from hf)]; rfl

theorem outputScoreDist_num (h : GoesAlong φ) (c : TreeCtx F) (n : CNode F) :
    outputScoreDist (numCtx φ c) (numCNode φ n) = (outputScoreDist c n).map (numScore φ) := by
  cases n with
  | mk id dc sd sc p cs =>
    rw [numCNode, numCNodes_eq]
    unfold outputScoreDist
    change (if cs.map (numCNode φ) ≠ [] ∧ c.noTrueChild = .returnNullPrediction then []
      else if sd.map (numScore φ) ≠ [] then sd.map (numScore φ)
      else if c.targetField ≠ "" then targetDist (numCtx φ c) (numScore φ sc)
      else [numScore φ sc]) = List.map (numScore φ)
        (if cs ≠ [] ∧ c.noTrueChild = .returnNullPrediction then []
        else if sd ≠ [] then sd else if c.targetField ≠ "" then targetDist c sc else [sc])
    by_cases h1 : cs ≠ [] ∧ c.noTrueChild = .returnNullPrediction
    · rw [if_pos h1, if_pos (by simpa using h1)]; rfl
    rw [if_neg h1, if_neg (by simpa using h1)]
    by_cases h2 : sd ≠ []
    · rw [if_pos h2, if_pos (by simpa using h2)]
    rw [if_neg h2, if_neg (by simpa using h2)]
    by_cases h3 : c.targetField ≠ ""
    · rw [if_pos h3, if_pos h3]; exact targetDist_num h c sc
    rw [if_neg h3, if_neg h3]; rfl

mutual
theorem evalNone_num (h : GoesAlong φ) (c : TreeCtx F) (row : Row F) : (n : CNode F) →
    evalNone (numCtx φ c) (numRow φ row) (numCNode φ n) = (evalNone c row n).map (numNodeRes φ)
  | .mk id dc sd sc p cs => by
    have ho := outputScoreDist_num h c (.mk id dc sd sc p cs)
    rw [numCNode] at ho ⊢
    rw [evalNone, evalNone, evalNoneChildren_num h c row cs]
    have e1 : (numCtx φ c).types = c.types := rfl
    rw [e1, runTest_num h, ho]
    cases runTest c.types p row with
    | error e => rfl
    | ok r =>
      cases r with
      | t => cases evalNoneChildren c row cs with
        | error e => rfl
        | ok v => cases v <;> rfl
      | _ => rfl
theorem evalNoneChildren_num (h : GoesAlong φ) (c : TreeCtx F) (row : Row F) : (ns : List (CNode F)) →
    evalNoneChildren (numCtx φ c) (numRow φ row) (numCNodes φ ns) =
      (evalNoneChildren c row ns).map (Option.map (numNodeRes φ))
  | [] => by rw [numCNodes, evalNoneChildren, evalNoneChildren]; rfl
  | n :: ns => by
    rw [numCNodes, evalNoneChildren, evalNoneChildren, evalNone_num h c row n, evalNoneChildren_num h c row ns]
    cases evalNone c row n with
    | error e => rfl
    | ok r => rcases r with ⟨d, r⟩; cases r <;> rfl
end

mutual
theorem evalNull_num (h : GoesAlong φ) (c : TreeCtx F) (row : Row F) : (n : CNode F) →
    evalNull (numCtx φ c) (numRow φ row) (numCNode φ n) = (evalNull c row n).map (numNodeRes φ)
  | .mk id dc sd sc p cs => by
    have ho := outputScoreDist_num h c (.mk id dc sd sc p cs)
    rw [numCNode] at ho ⊢
    rw [evalNull, evalNull, evalNullChildren_num h c row cs]
    have e1 : (numCtx φ c).types = c.types := rfl
    rw [e1, runTest_num h, ho]
    cases runTest c.types p row with
    | error e => rfl
    | ok r =>
      cases r with
      | t => cases evalNullChildren c row cs with
        | error e => rfl
        | ok v => cases v <;> rfl
      | _ => rfl
theorem evalNullChildren_num (h : GoesAlong φ) (c : TreeCtx F) (row : Row F) : (ns : List (CNode F)) →
    evalNullChildren (numCtx φ c) (numRow φ row) (numCNodes φ ns) =
      (evalNullChildren c row ns).map (Option.map (numNodeRes φ))
  | [] => by rw [numCNodes, evalNullChildren, evalNullChildren]; rfl
  | n :: ns => by
    rw [numCNodes, evalNullChildren, evalNullChildren, evalNull_num h c row n, evalNullChildren_num h c row ns]
    cases evalNull c row n with
    | error e => rfl
    | ok r => rcases r with ⟨d, r⟩; cases r <;> rfl
end

theorem unknownValues_num (rs : List (NodeRes F)) : unknownValues (rs.map (numNodeRes φ)) = unknownValues rs := by
  unfold unknownValues
  rw [List.any_map]; rfl

theorem trueDist_num (rs : List (NodeRes F)) :
    trueDist (rs.map (numNodeRes φ)) = (trueDist rs).map (numScore φ) := by
  unfold trueDist
  refine foldl_num (numNodeRes φ) (List.map (numScore φ)) _ _ (fun x a => ?_) rs []
  change (if a.2 = .t then a.1.map (numScore φ) else x.map (numScore φ)) = _
  by_cases ha : a.2 = .t
  · rw [if_pos ha, if_pos ha]
  · rw [if_neg ha, if_neg ha]

mutual
theorem evalLast_num (h : GoesAlong φ) (c : TreeCtx F) (row : Row F) : (n : CNode F) →
    evalLast (numCtx φ c) (numRow φ row) (numCNode φ n) = (evalLast c row n).map (numNodeRes φ)
  | .mk id dc sd sc p cs => by
    have ho := outputScoreDist_num h c (.mk id dc sd sc p cs)
    rw [numCNode] at ho ⊢
    rw [evalLast, evalLast, evalLastChildren_num h c row cs]
    have e1 : (numCtx φ c).types = c.types := rfl
    rw [e1, runTest_num h, ho]
    cases runTest c.types p row with
    | error e => rfl
    | ok r =>
      cases evalLastChildren c row cs with
      | error e => cases r <;> rfl
      | ok rs =>
        simp only [Except.map, bind, Except.bind, unknownValues_num, trueDist_num, ne_eq, List.map_eq_nil_iff]
        split_ifs <;> rfl
theorem evalLastChildren_num (h : GoesAlong φ) (c : TreeCtx F) (row : Row F) : (ns : List (CNode F)) →
    evalLastChildren (numCtx φ c) (numRow φ row) (numCNodes φ ns) =
      (evalLastChildren c row ns).map (List.map (numNodeRes φ))
  | [] => by rw [numCNodes, evalLastChildren, evalLastChildren]; rfl
  | n :: ns => by
    rw [numCNodes, evalLastChildren, evalLastChildren, evalLast_num h c row n, evalLastChildren_num h c row ns]
    cases evalLast c row n with
    | error e => rfl
    | ok r => cases evalLastChildren c row ns <;> rfl
end

theorem childScores_num (cs : List (CNode F)) (rs : List (NodeRes F)) :
    childScores (cs.map (numCNode φ)) (rs.map (numNodeRes φ)) =
      onValues (List.map (numScore φ)) (childScores cs rs) := by
  unfold childScores
  rw [List.zip_map, ← onValues_empty (List.map (numScore φ))]
  refine foldl_num (Prod.map (numCNode φ) (numNodeRes φ)) (onValues (List.map (numScore φ))) _ _ (fun x a => ?_) _ _
  rw [onValues_insert]
  simp only [Prod.map, numCNode_id, numNodeRes]

theorem penalize_num (hm : Products φ) (p : F) (s : ScoreDist F) :
    penalize (φ p) (numScore φ s) = numScore φ (penalize p s) := by
  simp only [penalize, numScore, hm _ _]

mutual
theorem evalDefault_num (h : GoesAlong φ) (hm : Products φ) (c : TreeCtx F) (row : Row F) : (n : CNode F) →
    evalDefault (numCtx φ c) (numRow φ row) (numCNode φ n) = (evalDefault c row n).map (numNodeRes φ)
  | .mk id dc sd sc p cs => by
    have ho := outputScoreDist_num h c (.mk id dc sd sc p cs)
    rw [numCNode] at ho ⊢
    rw [evalDefault, evalDefault, evalDefaultChildren_num h hm c row cs]
    have e1 : (numCtx φ c).types = c.types := rfl
    rw [e1, runTest_num h, ho]
    cases runTest c.types p row with
    | error e => rfl
    | ok r =>
      cases evalDefaultChildren c row cs with
      | error e => cases r <;> rfl
      | ok rs =>
        simp only [Except.map, bind, Except.bind, unknownValues_num, trueDist_num, ne_eq, List.map_eq_nil_iff,
          numCNodes_eq, childScores_num, onValues_get]
        split_ifs
        · rfl
        · rfl
        · cases (childScores cs rs)[dc]? with
          | none => rfl
          | some l =>
            simp only [Option.map_some, pure, Except.pure, numNodeRes, List.map_map]
            refine congrArg (fun x => Except.ok (x, PredRes.t)) (List.map_congr_left fun s _ => ?_)
            exact penalize_num hm _ _
        · rfl
theorem evalDefaultChildren_num (h : GoesAlong φ) (hm : Products φ) (c : TreeCtx F) (row : Row F) :
    (ns : List (CNode F)) →
    evalDefaultChildren (numCtx φ c) (numRow φ row) (numCNodes φ ns) =
      (evalDefaultChildren c row ns).map (List.map (numNodeRes φ))
  | [] => by rw [numCNodes, evalDefaultChildren, evalDefaultChildren]; rfl
  | n :: ns => by
    rw [numCNodes, evalDefaultChildren, evalDefaultChildren, evalDefault_num h hm c row n,
      evalDefaultChildren_num h hm c row ns]
    cases evalDefault c row n with
    | error e => rfl
    | ok r => cases evalDefaultChildren c row ns <;> rfl
end

theorem liveChildren_num (cs : List (CNode F)) (rs : List (NodeRes F)) :
    liveChildren (cs.map (numCNode φ)) (rs.map (numNodeRes φ)) =
      (liveChildren cs rs).map (Prod.map (numCNode φ) (numNodeRes φ)) := by
  unfold liveChildren
  rw [List.zip_map, List.filter_map]; rfl

theorem childRecordCounts_num (live : List (CNode F × NodeRes F)) :
    childRecordCounts (live.map (Prod.map (numCNode φ) (numNodeRes φ))) = onValues φ (childRecordCounts live) := by
  unfold childRecordCounts
  rw [← onValues_empty φ]
  refine foldl_num _ (onValues φ) _ _ (fun x a => ?_) _ _
  rw [onValues_insert]
  simp only [Prod.map, numCNode_id, numCNode_score, numScore]

theorem liveScores_num (live : List (CNode F × NodeRes F)) :
    liveScores (live.map (Prod.map (numCNode φ) (numNodeRes φ))) =
      onValues (List.map (numScore φ)) (liveScores live) := by
  unfold liveScores
  rw [← onValues_empty (List.map (numScore φ))]
  refine foldl_num _ (onValues (List.map (numScore φ))) _ _ (fun x a => ?_) _ _
  rw [onValues_insert]
  simp only [Prod.map, numCNode_id, numNodeRes]

theorem totalRecordCount_num (h : GoesAlong φ) (live : List (CNode F × NodeRes F)) :
    totalRecordCount (live.map (Prod.map (numCNode φ) (numNodeRes φ))) = φ (totalRecordCount live) := by
  unfold totalRecordCount
  rw [← h.zero]
  refine foldl_num _ φ _ _ (fun x a => ?_) _ _
  simp only [Prod.map, numCNode_score, numScore, h.add]

theorem getD_num_zero (h : GoesAlong φ) (m : GoMap F) (k : String) :
    ((onValues φ m)[k]?).getD Arith.zero = φ ((m[k]?).getD Arith.zero) := by
  rw [onValues_get]
  cases m[k]? with
  | none => exact h.zero.symm
  | some x => rfl

theorem getD_num_score (h : GoesAlong φ) (m : GoMap (ScoreDist F)) (k v : String) :
    ((onValues (numScore φ) m)[k]?).getD ⟨v, Arith.zero, Arith.zero, Arith.zero⟩ =
      numScore φ ((m[k]?).getD ⟨v, Arith.zero, Arith.zero, Arith.zero⟩) := by
  rw [onValues_get]
  cases m[k]? with
  | none => exact (numScore_zero h v).symm
  | some x => rfl

theorem weightedStep_num (h : GoesAlong φ) (hm : Products φ) (w : F) (agg : GoMap (ScoreDist F)) (s : ScoreDist F) :
    weightedStep (φ w) (onValues (numScore φ) agg) (numScore φ s) =
      onValues (numScore φ) (weightedStep w agg s) := by
  have e : (numScore φ s).value = s.value := rfl
  unfold weightedStep
  simp only [onValues_insert, e, getD_num_score h]
  simp only [numScore, h.add, hm _ _]

theorem weightedAgg_num (h : GoesAlong φ) (hm : Products φ) {o : MapOrd} (ho : ByKeys o)
    (live : List (CNode F × NodeRes F)) :
    weightedAgg o (live.map (Prod.map (numCNode φ) (numNodeRes φ))) = onValues (numScore φ) (weightedAgg o live) := by
  unfold weightedAgg
  rw [liveScores_num, onValues_range _ ho, childRecordCounts_num, totalRecordCount_num h,
    ← onValues_empty (numScore φ)]
  refine foldl_num _ (onValues (numScore φ)) _ _ (fun x a => ?_) _ _
  simp only [getD_num_zero h, ← h.div]
  exact foldl_num _ (onValues (numScore φ)) _ _ (fun x a => weightedStep_num h hm _ _ _) _ _

mutual
theorem evalWeighted_num (h : GoesAlong φ) (hm : Products φ) (c : TreeCtx F) (row : Row F) {o : MapOrd}
    (hk : ByKeys o) : (n : CNode F) →
    evalWeighted (numCtx φ c) (numRow φ row) o (numCNode φ n) = (evalWeighted c row o n).map (numNodeRes φ)
  | .mk id dc sd sc p cs => by
    have ho := outputScoreDist_num h c (.mk id dc sd sc p cs)
    rw [numCNode] at ho ⊢
    rw [evalWeighted, evalWeighted, evalWeightedChildren_num h hm c row hk 2 cs]
    have e1 : (numCtx φ c).types = c.types := rfl
    rw [e1, runTest_num h, ho]
    cases runTest c.types p row with
    | error e => rfl
    | ok r =>
      cases evalWeightedChildren c row o 2 cs with
      | error e => cases r <;> rfl
      | ok rs =>
        simp only [Except.map, bind, Except.bind, unknownValues_num, trueDist_num, ne_eq, List.map_eq_nil_iff,
          numCNodes_eq, liveChildren_num, weightedAgg_num h hm (hk.at_ 0), onValues_range _ (hk.at_ 1), List.map_map]
        split_ifs
        · rfl
        · rfl
        · simp only [pure, Except.pure, numNodeRes, List.map_map]; rfl
        · rfl
theorem evalWeightedChildren_num (h : GoesAlong φ) (hm : Products φ) (c : TreeCtx F) (row : Row F) {o : MapOrd}
    (hk : ByKeys o) (i : Nat) : (ns : List (CNode F)) →
    evalWeightedChildren (numCtx φ c) (numRow φ row) o i (numCNodes φ ns) =
      (evalWeightedChildren c row o i ns).map (List.map (numNodeRes φ))
  | [] => by rw [numCNodes, evalWeightedChildren, evalWeightedChildren]; rfl
  | n :: ns => by
    rw [numCNodes, evalWeightedChildren, evalWeightedChildren, evalWeighted_num h hm c row (hk.at_ i) n,
      evalWeightedChildren_num h hm c row hk (i + 1) ns]
    cases evalWeighted c row (o.at_ i) n with
    | error e => rfl
    | ok r => cases evalWeightedChildren c row o (i + 1) ns <;> rfl
end

theorem aggregateStep_num (h : GoesAlong φ) (agg : GoMap (ScoreDist F)) (s : ScoreDist F) :
    aggregateStep (onValues (numScore φ) agg) (numScore φ s) = onValues (numScore φ) (aggregateStep agg s) := by
  have e : (numScore φ s).value = s.value := rfl
  unfold aggregateStep
  simp only [onValues_insert, e, getD_num_score h]
  simp only [numScore, h.add]

theorem aggregateDist_num (h : GoesAlong φ) {o : MapOrd} (hk : ByKeys o) (l : List (ScoreDist F)) :
    aggregateDist o (l.map (numScore φ)) = (aggregateDist o l).map (numScore φ) := by
  unfold aggregateDist
  have e1 := foldl_num (numScore φ) (onValues (numScore φ)) aggregateStep aggregateStep (aggregateStep_num h) l ∅
  have e2 := foldl_num (numScore φ) φ (fun t (sc : ScoreDist F) => Arith.add t sc.recordCount)
    (fun t (sc : ScoreDist G) => Arith.add t sc.recordCount) (fun x a => (h.add _ _).symm) l Arith.zero
  rw [onValues_empty] at e1
  rw [h.zero] at e2
  simp only [e1, e2, onValues_range _ hk, List.map_map]
  refine List.map_congr_left fun p _ => ?_
  simp only [Function.comp, numScore, h.div]

mutual
theorem evalAggregate_num (h : GoesAlong φ) (c : TreeCtx F) (row : Row F) {o : MapOrd}
    (hk : ByKeys o) : (n : CNode F) →
    evalAggregate (numCtx φ c) (numRow φ row) o (numCNode φ n) = (evalAggregate c row o n).map (numNodeRes φ)
  | .mk id dc sd sc p cs => by
    have ho := outputScoreDist_num h c (.mk id dc sd sc p cs)
    rw [numCNode] at ho ⊢
    rw [evalAggregate, evalAggregate, evalAggregateChildren_num h c row hk 1 cs]
    have e1 : (numCtx φ c).types = c.types := rfl
    rw [e1, runTest_num h, ho]
    cases runTest c.types p row with
    | error e => rfl
    | ok r =>
      cases evalAggregateChildren c row o 1 cs with
      | error e => cases r <;> rfl
      | ok rs =>
        have e2 : (rs.map (numNodeRes φ)).flatMap (·.1) = (rs.flatMap (·.1)).map (numScore φ) := by
          rw [List.map_flatMap, List.flatMap_map]; rfl
        simp only [Except.map, bind, Except.bind, unknownValues_num, trueDist_num, ne_eq, List.map_eq_nil_iff,
          e2, aggregateDist_num h (hk.at_ 0)]
        split_ifs <;> rfl
theorem evalAggregateChildren_num (h : GoesAlong φ) (c : TreeCtx F) (row : Row F) {o : MapOrd}
    (hk : ByKeys o) (i : Nat) : (ns : List (CNode F)) →
    evalAggregateChildren (numCtx φ c) (numRow φ row) o i (numCNodes φ ns) =
      (evalAggregateChildren c row o i ns).map (List.map (numNodeRes φ))
  | [] => by rw [numCNodes, evalAggregateChildren, evalAggregateChildren]; rfl
  | n :: ns => by
    rw [numCNodes, evalAggregateChildren, evalAggregateChildren, evalAggregate_num h c row (hk.at_ i) n,
      evalAggregateChildren_num h c row hk (i + 1) ns]
    cases evalAggregate c row (o.at_ i) n with
    | error e => rfl
    | ok r => cases evalAggregateChildren c row o (i + 1) ns <;> rfl
end

theorem evalNode_num (h : GoesAlong φ) (c : TreeCtx F) (row : Row F) {o : MapOrd} (hk : ByKeys o)
    (hp : MulOr φ (c.strategy ≠ .defaultChild ∧ c.strategy ≠ .weightedConfidence)) (n : CNode F) :
    evalNode (numCtx φ c) o (numRow φ row) (numCNode φ n) = (evalNode c o row n).map (numNodeRes φ) := by
  unfold evalNode
  have e1 : (numCtx φ c).strategy = c.strategy := rfl
  rw [e1]
  cases hs : c.strategy with
  | nullPrediction => exact evalNull_num h c row n
  | aggregateNodes => exact evalAggregate_num h c row hk n
  | weightedConfidence =>
    rcases hp with hp | hp
    · exact evalWeighted_num h hp c row hk n
    · exact absurd hs hp.2
  | defaultChild =>
    rcases hp with hp | hp
    · exact evalDefault_num h hp c row n
    · exact absurd hs hp.1
  | lastPrediction => exact evalLast_num h c row n
  | none => exact evalNone_num h c row n
  | other k => exact evalNone_num h c row n

theorem compileDists_num (h : GoesAlong φ) (ds : List (ScoreDistribution F)) :
    compileDists (ds.map (numDist φ)) = (compileDists ds).map (numScore φ) := by
  unfold compileDists
  have e2 := foldl_num (numDist φ) φ (fun t (sc : ScoreDistribution F) => Arith.add t sc.recordCount)
    (fun t (sc : ScoreDistribution G) => Arith.add t sc.recordCount) (fun x a => (h.add _ _).symm) ds Arith.zero
  rw [h.zero] at e2
  simp only [e2, List.map_map]
  refine List.map_congr_left fun s _ => ?_
  simp only [Function.comp, numScore, numDist, ← h.div]
  cases s.confidence <;> cases s.probability <;> rfl

mutual
theorem newNode_num (h : GoesAlong φ) (types : FieldTypes) : (n : Node F) →
    newNode types (numNode φ n) = (newNode types n).map (numCNode φ)
  | .mk id dc score rc ds ns p => by
    rw [numNode, newNode, newNode, newNodes_num h types ns]
    cases newNodes types ns with
    | error e => rfl
    | ok cs =>
      cases p with
      | none =>
        change _ = Except.ok (numCNode φ _)
        rw [numCNode, ← compileDists_num h, numScore, h.zero]
        rfl
      | some p =>
        rw [Option.map_some]
        simp only [compilePredicate_num h]
        cases compilePredicate types p with
        | error e => rfl
        | ok p' =>
          change _ = Except.ok (numCNode φ _)
          rw [numCNode, ← compileDists_num h, numScore, h.zero]
          rfl
theorem newNodes_num (h : GoesAlong φ) (types : FieldTypes) : (ns : List (Node F)) →
    newNodes types (numNodes φ ns) = (newNodes types ns).map (numCNodes φ)
  | [] => by rw [numNodes, newNodes, newNodes]; change _ = Except.ok (numCNodes φ _); rw [numCNodes]; rfl
  | n :: ns => by
    rw [numNodes, newNodes, newNodes, newNode_num h types n, newNodes_num h types ns]
    cases newNode types n with
    | error e => rfl
    | ok n' =>
      cases newNodes types ns with
      | error e => rfl
      | ok ns' => change _ = Except.ok (numCNodes φ _); rw [numCNodes]; rfl
end

theorem buildTypes_num (dd : List DataField) (td : TD F) :
    buildTypes dd (td.map (numDerived φ)) = buildTypes dd td := by
  unfold buildTypes
  rw [List.foldl_map]; rfl

theorem newTreeModel_num (h : GoesAlong φ) (dd : List DataField) (td : TD F) (d : TreeDoc F) :
    newTreeModel dd (td.map (numDerived φ)) (numTree φ d) =
      ((newTreeModel dd td d).1.map (numTreeModel φ), (newTreeModel dd td d).2.map (numDerived φ)) := by
  unfold newTreeModel TreeModel.validate
  have e1 : (TreeModel.init dd (numTree φ d)).model.functionName = (TreeModel.init dd d).model.functionName := rfl
  rw [e1]
  by_cases hf : (TreeModel.init dd d).model.functionName ≠ .classification ∧
      (TreeModel.init dd d).model.functionName ≠ .regression
  · rw [if_pos hf, if_pos hf]; rfl
  · rw [if_neg hf, if_neg hf]
    simp only [TreeModel.compile, TreeModel.init]
    have e2 : td.map (numDerived φ) ++ (numTree φ d).localTransformations =
      (td ++ d.localTransformations).map (numDerived φ) := by rw [List.map_append]; rfl
    have e3 : (numTree φ d).node = numNode φ d.node := rfl
    simp only [e2, e3, buildTypes_num, newNode_num h]
    cases newNode (buildTypes dd (td ++ d.localTransformations)) d.node with
    | error e => rfl
    | ok root => rfl

theorem outStep_num (st : GoMap (GoVal F) × GoMap String) (s : ScoreDist F) :
    outStep (Prod.map (onValues (numVal φ)) id st) (numScore φ s) =
      Prod.map (onValues (numVal φ)) id (outStep st s) := by
  unfold outStep
  rcases st with ⟨a, b⟩
  simp only [Prod.map, id, numScore]
  cases b[s.value]? <;> simp only [onValues_insert] <;> rfl

theorem output_num (h : GoesAlong φ) (m : TreeModel F) (scores : List (ScoreDist F)) (r : PredRes) :
    (numTreeModel φ m).output (scores.map (numScore φ)) r =
      Prod.map (Except.map (numRow φ)) id (m.output scores r) := by
  unfold TreeModel.output
  by_cases hr : r = .t
  · rw [if_pos hr, if_pos hr]
    have e1 : (numTreeModel φ m).model.functionName = m.model.functionName := rfl
    rw [e1]
    cases m.model.functionName with
    | classification =>
      have e2 := foldl_num (numScore φ) (Prod.map (onValues (numVal φ)) id) outStep outStep outStep_num scores
        ((∅ : GoMap (GoVal F)).insert m.targetField (.str (pickBest scores).value), m.outKeys)
      have e3 : Prod.map (onValues (numVal φ)) id
          ((∅ : GoMap (GoVal F)).insert m.targetField (.str (pickBest scores).value), m.outKeys) =
          ((∅ : GoMap (GoVal G)).insert m.targetField (.str (pickBest (scores.map (numScore φ))).value),
            m.outKeys) := by
        simp only [Prod.map, id, onValues_insert, onValues_empty, pickBest_num h]; rfl
      rw [e3] at e2
      change ((Except.ok (some (List.foldl outStep _ _).1) : Res (Out G)), (List.foldl outStep _ _).2) = _
      simp only [numTreeModel, e2]
      rfl
    | regression =>
      cases scores with
      | nil => rfl
      | cons s l =>
        simp only [List.map_cons]
        have e4 : (numScore φ s).value = s.value := rfl
        rw [e4, h.parse]
        cases (Lib.parseFloat s.value : Option F) with
        | none => rfl
        | some x =>
          simp only [Option.map_some, Prod.map, Except.map, numRow, onValues_insert, onValues_empty]; rfl
    | other k => 
      simp only [Prod.map, Except.map, numRow, Option.map_some, onValues_empty]; rfl
  · rw [if_neg hr, if_neg hr]; rfl

/-- What `Evaluate` leaves behind, with other numbers. -/
def numEv {A B S T : Type} (φ : F → G) (a : A → B) (s : S → T) (e : Ev F A S) : Ev G B T :=
  ⟨e.res.map a, numRow φ e.row, s e.model⟩

theorem treeEvaluate_num (h : GoesAlong φ) {o : MapOrd} (hk : ByKeys o) (m : TreeModel F) (row : Row F)
    (hp : MulOr φ (m.model.missingValueStrategy ≠ .defaultChild ∧
      m.model.missingValueStrategy ≠ .weightedConfidence ∧ ∀ t ∈ m.model.localTransformations, ExprPlain t.expr)) :
    (numTreeModel φ m).evaluate o (numRow φ row) = numEv φ (numRow φ) (numTreeModel φ) (m.evaluate o row) := by
  unfold TreeModel.evaluate
  have e1 : (numTreeModel φ m).validated = m.validated := rfl
  have e2 : (numTreeModel φ m).compiled = m.compiled := rfl
  have e3 : (numTreeModel φ m).model.localTransformations =
    m.model.localTransformations.map (numDerived φ) := rfl
  have e4 : (numTreeModel φ m).ctx = numCtx φ m.ctx := rfl
  have e5 : (numTreeModel φ m).root = numCNode φ m.root := rfl
  rw [e1, e2, e3, handleInput_num h _ _ (hp.imp_right fun h => h.2.2), e4, e5]
  by_cases hv : ¬ m.validated
  · rw [if_pos hv, if_pos hv]; rfl
  rw [if_neg hv, if_neg hv]
  by_cases hc : ¬ m.compiled
  · rw [if_pos hc, if_pos hc]; rfl
  rw [if_neg hc, if_neg hc]
  rcases hi : handleInput m.model.localTransformations row with ⟨r, row'⟩
  cases r with
  | error e => rfl
  | ok u =>
    simp only [evalNode_num h m.ctx row' hk (hp.imp_right fun h => ⟨h.1, h.2.1⟩)]
    cases evalNode m.ctx o row' m.root with
    | error e => rfl
    | ok v =>
      rcases v with ⟨sc, r⟩
      simp only [Except.map, numNodeRes, output_num h]
      rfl

/-! ## Regression -/

theorem normalize_num (h : GoesAlong φ) (n : Normalization) (hp : MulOr φ (n ≠ .cauchit)) (x : F) :
    normalize n (φ x) = (normalize n x).map φ := by
  unfold normalize
  cases n with
  | cauchit =>
    rcases hp with hp | hp
    · simp only [Except.map, h.add, hp _ _, h.lit, h.invPi, h.atan]
    · exact absurd rfl hp
  | softmax => simp only [Except.map, h.div, h.add, h.exp, h.neg, h.one]
  | logit => simp only [Except.map, h.div, h.add, h.exp, h.neg, h.one]
  | exp => simp only [Except.map, h.exp]
  | cloglog => simp only [Except.map, h.sub, h.exp, h.neg, h.one]
  | _ => rfl

/-- A numeric predictor with other numbers. -/
abbrev numPredictor (φ : F → G) (np : NumericPredictor F) : NumericPredictor G :=
  ⟨np.name, φ np.coefficient, np.exponent⟩

theorem linearLoop_num (h : GoesAlong φ) (hm : Products φ) (row : Row F) : (nps : List (NumericPredictor F)) → (y : F) →
    linearLoop (numRow φ row) (φ y) (nps.map (numPredictor φ)) = (linearLoop row y nps).map φ
  | [], _ => rfl
  | np :: nps, y => by
    rw [List.map_cons, linearLoop, linearLoop]
    simp only [numRow_get]
    cases row.get np.name with
    | none => rfl
    | some v =>
      simp only [Option.map_some, numVal_float64 h, ← hm _ _, ← h.add]
      exact linearLoop_num h hm row nps _

theorem evalRegression_num (h : GoesAlong φ) (hm : Products φ) (d : RegressionDoc F) (row : Row F) :
    (numRegression φ d).evalRegression (numRow φ row) = (d.evalRegression row).map (numRow φ) := by
  unfold RegressionDoc.evalRegression
  rcases d with ⟨fn, nm, ts, os, v⟩
  simp only [numRegression]
  rcases ts with _ | ⟨t, _ | ⟨t', ts⟩⟩
  · rfl
  · rcases os with _ | ⟨f, _ | ⟨f', os⟩⟩
    · rfl
    · simp only [List.map_cons, List.map_nil, numTable]
      rw [linearLoop_num h hm]
      cases linearLoop row t.intercept t.predictors with
      | error e => rfl
      | ok y =>
        simp only [Except.map, bind, Except.bind, normalize_num h nm (.inl hm)]
        cases normalize nm y with
        | error e => rfl
        | ok p => simp only [pure, Except.pure, numRow, Option.map_some, onValues_insert, onValues_empty, numVal]
    · rfl
  · simp [Except.map]

theorem binaryLoop_num (h : GoesAlong φ) (n : Normalization) (hp : MulOr φ (n ≠ .cauchit)) (row : Row F) :
    (nps : List (NumericPredictor F)) → (y : F) →
    binaryLoop n (numRow φ row) (φ y) (nps.map (numPredictor φ)) = (binaryLoop n row y nps).map φ
  | [], _ => rfl
  | np :: nps, y => by
    rw [List.map_cons, binaryLoop, binaryLoop]
    simp only [numRow_get]
    cases row.get np.name with
    | none => rfl
    | some v =>
      simp only [Option.map_some, numVal_float64 h, normalize_num h n hp]
      cases normalize n v.float64 with
      | error e => rfl
      | ok z =>
        simp only [Except.map, bind, Except.bind, ← h.add]
        exact binaryLoop_num h n hp row nps _

theorem binaryOut_num (os : List OutputField) (cat : String) (p : F) (out : GoMap (GoVal F)) :
    binaryOut os cat (φ p) (onValues (numVal φ) out) = onValues (numVal φ) (binaryOut os cat p out) := by
  unfold binaryOut
  induction os generalizing out with
  | nil => rfl
  | cons o os ih =>
    simp only [List.foldl_cons]
    by_cases hc : cat = o.value
    · rw [if_pos hc, if_pos hc, ← ih, onValues_insert]; rfl
    · rw [if_neg hc, if_neg hc, ← ih]

theorem binaryTables_num (h : GoesAlong φ) (n : Normalization) (hp : MulOr φ (n ≠ .cauchit)) (os : List OutputField)
    (row : Row F) : (ts : List (RegressionTable F)) → (p : F) → (out : GoMap (GoVal F)) →
    binaryTables n os (numRow φ row) (φ p) (onValues (numVal φ) out) (ts.map (numTable φ)) =
      (binaryTables n os row p out ts).map (onValues (numVal φ))
  | [], _, _ => rfl
  | t :: ts, p, out => by
    rw [List.map_cons, binaryTables, binaryTables]
    have e0 : (numTable φ t).predictors = t.predictors.map (numPredictor φ) := rfl
    have e1 : (numTable φ t).intercept = φ t.intercept := rfl
    have e2 : (numTable φ t).targetCategory = t.targetCategory := rfl
    rw [e0, e1, e2, binaryLoop_num h n hp]
    by_cases hn : t.predictors ≠ []
    · rw [if_pos hn, if_pos (by simpa using hn)]
      cases binaryLoop n row t.intercept t.predictors with
      | error e => rfl
      | ok y =>
        simp only [Except.map, bind, Except.bind, ← h.sub, binaryOut_num]
        exact binaryTables_num h n hp os row ts _ _
    · rw [if_neg hn, if_neg (by simpa using hn)]
      simp only [pure, Except.pure, bind, Except.bind, ← h.sub, binaryOut_num]
      exact binaryTables_num h n hp os row ts _ _

theorem linearAll_num (h : GoesAlong φ) (hm : Products φ) (row : Row F) : (ts : List (RegressionTable F)) →
    linearAll (numRow φ row) (ts.map (numTable φ)) = (linearAll row ts).map (List.map φ)
  | [] => rfl
  | t :: ts => by
    rw [List.map_cons, linearAll, linearAll]
    simp only [numTable]
    rw [linearLoop_num h hm, linearAll_num h hm row ts]
    cases linearLoop row t.intercept t.predictors with
    | error e => rfl
    | ok y => cases linearAll row ts <;> rfl

theorem multiclassOut_num (h : GoesAlong φ) (n : Normalization) (ys : List F) : (l : List (String × F)) →
    (out : GoMap (GoVal F)) →
    multiclassOut n (ys.map φ) (onValues (numVal φ) out) (l.map (Prod.map id φ)) =
      (multiclassOut n ys out l).map (onValues (numVal φ))
  | [], _ => rfl
  | (t, y) :: l, out => by
    have e1 := foldl_num φ φ (fun s (v : F) => Arith.add s (Trans.exp v)) (fun s (v : G) => Arith.add s (Trans.exp v))
      (fun x a => by rw [h.add, h.exp]) ys Arith.zero
    have e2 := foldl_num φ φ (fun s (v : F) => Arith.add s v) (fun s (v : G) => Arith.add s v)
      (fun x a => by rw [h.add]) ys Arith.zero
    rw [h.zero] at e1 e2
    rw [List.map_cons]
    unfold multiclassOut
    cases n with
    | softmax =>
      simp only [Prod.map, id, e1]
      rw [← multiclassOut_num h .softmax ys l, onValues_insert, numVal, h.div, h.exp]
    | simplemax =>
      simp only [Prod.map, id, e2]
      rw [← multiclassOut_num h .simplemax ys l, onValues_insert, numVal, h.div]
    | _ => rfl

theorem evalMulticlass_num (h : GoesAlong φ) (hm : Products φ) (d : RegressionDoc F) (row : Row F) :
    (numRegression φ d).evalMulticlass (numRow φ row) = (d.evalMulticlass row).map (numRow φ) := by
  unfold RegressionDoc.evalMulticlass
  simp only [numRegression]
  rw [linearAll_num h hm, List.map_map]
  have e0 : ((fun t : RegressionTable G => (outFieldMap d.outputs)[t.targetCategory]?.getD "") ∘ numTable φ) =
    fun t : RegressionTable F => (outFieldMap d.outputs)[t.targetCategory]?.getD "" := rfl
  rw [e0]
  cases linearAll row d.tables with
  | error e => rfl
  | ok ys =>
    have e1 := multiclassOut_num h d.normalization ys
      ((d.tables.map fun t => (outFieldMap d.outputs)[t.targetCategory]?.getD "").zip ys) ∅
    rw [onValues_empty, ← List.zip_map, List.map_id] at e1
    simp only [Except.map, bind, Except.bind]
    rw [e1]
    cases multiclassOut d.normalization ys ∅
      ((d.tables.map fun t => (outFieldMap d.outputs)[t.targetCategory]?.getD "").zip ys) <;> rfl

theorem regressionEvaluate_num (h : GoesAlong φ) (d : RegressionDoc F) (row : Row F)
    (hp : MulOr φ (d.functionName = .classification ∧ d.outputs.length = 2 ∧ d.normalization ≠ .cauchit)) :
    (numRegression φ d).evaluate (numRow φ row) = (d.evaluate row).map (numRow φ) := by
  unfold RegressionDoc.evaluate
  have e1 : (numRegression φ d).functionName = d.functionName := rfl
  have e2 : (numRegression φ d).outputs = d.outputs := rfl
  rw [e1, e2]
  cases hf : d.functionName with
  | regression =>
    rcases hp with hp | hp
    · exact evalRegression_num h hp d row
    · rw [hf] at hp; exact absurd hp.1 (by simp)
  | classification =>
    simp only
    by_cases hl : d.outputs.length = 2
    · rw [if_pos hl, if_pos hl]
      unfold RegressionDoc.evalBinary
      have e3 := binaryTables_num h d.normalization (hp.imp_right fun h => h.2.2) d.outputs row d.tables Arith.one ∅
      rw [h.one, onValues_empty] at e3
      simp only [numRegression]
      rw [e3]
      cases binaryTables d.normalization d.outputs row Arith.one ∅ d.tables <;> rfl
    · rw [if_neg hl, if_neg hl]
      rcases hp with hp | hp
      · exact evalMulticlass_num h hp d row
      · exact absurd hp.2.1 hl
  | other k => rfl

/-! ## Ensembles -/

theorem writeAll_num : (l : List (String × GoVal F)) → (row : Row F) →
    writeAll (l.map fun p => (p.1, numVal φ p.2)) (numRow φ row) = ((writeAll l row).1, numRow φ (writeAll l row).2)
  | [], _ => rfl
  | (k, v) :: l, row => by
    rw [List.map_cons, writeAll, writeAll, numRow_set]
    cases row.set k v with
    | error e => rfl
    | ok row' => exact writeAll_num l row'

theorem imputeLoop_num : (l : List (String × GoVal F)) → (row : Row F) →
    imputeLoop (l.map fun p => (p.1, numVal φ p.2)) (numRow φ row) =
      ((imputeLoop l row).1, numRow φ (imputeLoop l row).2)
  | [], _ => rfl
  | (k, v) :: l, row => by
    have ih := imputeLoop_num l row
    rw [List.map_cons, imputeLoop, imputeLoop, numRow_getD, numRow_set]
    cases row.getD k with
    | nil =>
      simp only [numVal]
      cases row.set k v with
      | error e => rfl
      | ok row' => exact imputeLoop_num l row'
    | _ => exact ih

theorem initScores_num (h : GoesAlong φ) (s : MiningState F) :
    initScores (numState φ s) = onValues φ (initScores s) := by
  unfold initScores
  simp only [numState]
  have e1 := foldl_num id (onValues φ) (fun (m : GoMap F) (f : OutputField) => m.insert f.name Arith.zero)
    (fun (m : GoMap G) f => m.insert f.name Arith.zero) (fun x a => by rw [onValues_insert, h.zero]; rfl)
    s.outputFields ∅
  rw [onValues_empty, List.map_id] at e1
  rw [e1]
  exact foldl_num _ (onValues φ) _ _ (fun x a => by rw [onValues_insert, h.zero]; rfl) _ _

theorem addScore_num (h : GoesAlong φ) (fn : MiningFunction) (out : Out F) (sm : GoMap F) (kv : String × F) :
    addScore fn (numRow φ out) (onValues φ sm) (kv.1, φ kv.2) = onValues φ (addScore fn out sm kv) := by
  unfold addScore
  cases out with
  | none => rfl
  | some m =>
    simp only [numRow, Option.map_some, Option.bind_some, onValues_get]
    cases m[if fn = MiningFunction.classification then kv.1 else "score"]? with
    | none => rfl
    | some v => simp only [Option.map_some, onValues_insert, numVal_float64 h, h.add]

theorem rescale_num (h : GoesAlong φ) (ts : List (Target F)) (hp : MulOr φ (∀ t ∈ ts, t.rescaleFactor = none))
    (sm : GoMap F) : rescale (ts.map (numTarget φ)) (onValues φ sm) = onValues φ (rescale ts sm) := by
  unfold rescale
  induction ts generalizing sm with
  | nil => rfl
  | cons t ts ih =>
    have ih' := ih (hp.imp_right fun h x hx => h x (by simp [hx]))
    simp only [List.map_cons, List.foldl_cons]
    rw [← ih']
    refine congrArg (fun m => List.foldl _ m _) ?_
    simp only [numTarget]
    have hc : ∀ m : GoMap F, (match t.rescaleConstant.map φ with
        | some k => (onValues φ m).insert t.field (Arith.add (((onValues φ m)[t.field]?).getD Arith.zero) k)
        | none => onValues φ m) =
        onValues φ (match t.rescaleConstant with
        | some k => m.insert t.field (Arith.add ((m[t.field]?).getD Arith.zero) k)
        | none => m) := by
      intro m
      cases t.rescaleConstant with
      | none => rfl
      | some k => simp only [Option.map_some, getD_num_zero h, ← h.add, onValues_insert]
    cases hf : t.rescaleFactor with
    | none => exact hc sm
    | some k =>
      rcases hp with hp | hp
      · simp only [Option.map_some, getD_num_zero h, ← hp _ _, ← onValues_insert]
        have := hc (sm.insert t.field (Arith.mul ((sm[t.field]?).getD Arith.zero) k))
        simp only [getD_num_zero h] at this
        exact this
      · rw [hp t (by simp)] at hf; cases hf

theorem scoresToRow_num (l : List (String × F)) :
    scoresToRow (l.map fun p => (p.1, φ p.2)) = onValues (numVal φ) (scoresToRow l) := by
  unfold scoresToRow
  rw [← onValues_empty (numVal φ)]
  exact foldl_num _ (onValues (numVal φ)) _ _ (fun x a => by rw [onValues_insert]; rfl) _ _

theorem sumFinish_num (h : GoesAlong φ) {o : MapOrd} (hk : ByKeys o) (s : MiningState F)
    (hp : MulOr φ (∀ t ∈ s.targets, t.rescaleFactor = none)) (sm : GoMap F) :
    sumFinish o (numState φ s) (onValues φ sm) = onValues (numVal φ) (sumFinish o s sm) := by
  unfold sumFinish
  rw [← scoresToRow_num, ← onValues_range _ hk, ← rescale_num h s.targets hp]; rfl

theorem averageLoop_num (h : GoesAlong φ) (n : Nat) (l : List (String × GoVal F)) (out : GoMap (GoVal F)) :
    averageLoop n (l.map fun p => (p.1, numVal φ p.2)) (onValues (numVal φ) out) =
      onValues (numVal φ) (averageLoop n l out) := by
  unfold averageLoop
  refine foldl_num _ (onValues (numVal φ)) _ _ (fun x a => ?_) _ _
  rw [onValues_insert, numVal_float64 h, numVal, h.div, h.ofInt]

mutual
/-- The evaluator computes no product. -/
def PlainModel : EModel F → Prop
  | .tree m => m.model.missingValueStrategy ≠ .defaultChild ∧ m.model.missingValueStrategy ≠ .weightedConfidence ∧
      ∀ t ∈ m.model.localTransformations, ExprPlain t.expr
  | .regression d => d.functionName = .classification ∧ d.outputs.length = 2 ∧ d.normalization ≠ .cauchit
  | .mining s ms => (∀ t ∈ s.targets, t.rescaleFactor = none) ∧
      (∀ t ∈ s.head.localTransformations, ExprPlain t.expr) ∧ PlainModels ms
def PlainModels : List (EModel F) → Prop
  | [] => True
  | m :: ms => PlainModel m ∧ PlainModels ms
end

mutual
theorem evaluate_num (h : GoesAlong φ) {o : MapOrd} (hk : ByKeys o) : (m : EModel F) → (row : Row F) →
    MulOr φ (PlainModel m) →
    EModel.evaluate o (numModel φ m) (numRow φ row) = numEv φ (numRow φ) (numModel φ) (EModel.evaluate o m row)
  | .tree m, row, hp => by
    rw [numModel, EModel.evaluate, EModel.evaluate]
    rw [treeEvaluate_num h hk m row (hp.imp_right fun h => by rwa [PlainModel] at h)]
    unfold numEv
    rw [numModel]
  | .regression d, row, hp => by
    rw [numModel, EModel.evaluate, EModel.evaluate,
      regressionEvaluate_num h d row (hp.imp_right fun h => by rwa [PlainModel] at h)]
    simp only [numEv, numModel]
  | .mining s ms, row, hp => by
    have hp' : MulOr φ ((∀ t ∈ s.targets, t.rescaleFactor = none) ∧
      (∀ t ∈ s.head.localTransformations, ExprPlain t.expr) ∧ PlainModels ms) :=
      hp.imp_right fun h => by rwa [PlainModel] at h
    have hps := hp'.imp_right fun h => h.2.2
    have e1 : (numState φ s).validated = s.validated := rfl
    have e2 : (numState φ s).compiled = s.compiled := rfl
    have e3 : (numState φ s).defaultValues = onValues (numVal φ) s.defaultValues := rfl
    have e4 : (numState φ s).head.localTransformations = s.head.localTransformations.map (numDerived φ) := rfl
    have e5 : (numState φ s).head.method = s.head.method := rfl
    have e6 : (numState φ s).head.functionName = s.head.functionName := rfl
    have e7 : (numState φ s).segments.length = s.segments.length := numSegs_length _
    rw [numModel, EModel.evaluate, EModel.evaluate]
    rw [e1, e2, e3, e4, e5, e6, e7, onValues_range _ (hk.at_ 0), imputeLoop_num]
    by_cases hv : ¬ s.validated
    · rw [if_pos hv, if_pos hv]; simp only [numEv, numModel]; rfl
    rw [if_neg hv, if_neg hv]
    by_cases hc : ¬ s.compiled
    · rw [if_pos hc, if_pos hc]; simp only [numEv, numModel]; rfl
    rw [if_neg hc, if_neg hc]
    rcases imputeLoop ((o.at_ 0).range s.defaultValues) row with ⟨r, row1⟩
    cases r with
    | error e => simp only [numEv, numModel]; rfl
    | ok u =>
      simp only [handleInput_num h s.head.localTransformations row1 (hp'.imp_right fun h => h.2.1)]
      rcases handleInput s.head.localTransformations row1 with ⟨r, row2⟩
      cases r with
      | error e => simp only [numEv, numModel]; rfl
      | ok u =>
        have hsum := sumSegments_num h (hk.at_ 1) s.head.functionName 0 (initScores s) ms row2 hps
        rw [← initScores_num h] at hsum
        cases s.head.method with
        | average =>
          simp only [hsum, numEv, numModel]
          cases (sumSegments (o.at_ 1) s.head.functionName 0 (initScores s) ms row2).res with
          | error e => rfl
          | ok sm =>
            simp only [Except.map, sumFinish_num h (hk.at_ 2) s (hp'.imp_right fun h => h.1), onValues_range _ (hk.at_ 3),
              averageLoop_num h]
            rfl
        | sum =>
          simp only [hsum, numEv, numModel]
          cases (sumSegments (o.at_ 1) s.head.functionName 0 (initScores s) ms row2).res with
          | error e => rfl
          | ok sm =>
            simp only [Except.map, sumFinish_num h (hk.at_ 2) s (hp'.imp_right fun h => h.1)]
            rfl
        | modelChain =>
          have hch := chainSegments_num h (hk.at_ 1) 0 (some ∅) ms row2 hps
          rw [show numRow φ (some ∅ : Out F) = some ∅ by simp [numRow]] at hch
          simp only [hch, numEv, numModel]
        | selectFirst =>
          simp only [selectFirst_num h (hk.at_ 1) ms row2 hps, numEv, numModel]
        | _ => simp only [numEv, numModel]; rfl
theorem selectFirst_num (h : GoesAlong φ) {o : MapOrd} (hk : ByKeys o) : (ms : List (EModel F)) → (row : Row F) →
    MulOr φ (PlainModels ms) →
    selectFirst o (numModels φ ms) (numRow φ row) = numEv φ (numRow φ) (numModels φ) (selectFirst o ms row)
  | [], row, _ => by rw [numModels, selectFirst, selectFirst]; simp only [numEv, numModels]; rfl
  | m :: ms, row, hp => by
    have h1 : MulOr φ (PlainModel m) := hp.imp_right fun h => by rw [PlainModels] at h; exact h.1
    rw [numModels, selectFirst, selectFirst, evaluate_num h hk m row h1]
    simp only [numEv, numModels]
theorem chainSegments_num (h : GoesAlong φ) {o : MapOrd} (hk : ByKeys o) (i : Nat) (last : Out F) :
    (ms : List (EModel F)) → (row : Row F) → MulOr φ (PlainModels ms) →
    chainSegments o i (numRow φ last) (numModels φ ms) (numRow φ row) =
      numEv φ (numRow φ) (numModels φ) (chainSegments o i last ms row)
  | [], row, _ => by rw [numModels, chainSegments, chainSegments]; simp only [numEv, numModels]; rfl
  | m :: ms, row, hp => by
    have h1 : MulOr φ (PlainModel m) := hp.imp_right fun h => by rw [PlainModels] at h; exact h.1
    have h2 : MulOr φ (PlainModels ms) := hp.imp_right fun h => by rw [PlainModels] at h; exact h.2
    have e0 : Option.getD (numRow φ last) ∅ = onValues (numVal φ) (Option.getD last ∅) := by
      cases last with
      | none => exact (onValues_empty _).symm
      | some m => rfl
    rw [numModels, chainSegments, chainSegments, e0, onValues_range _ (hk.at_ _), writeAll_num]
    rcases writeAll ((o.at_ (2 * i)).range (last.getD ∅)) row with ⟨r, row1⟩
    cases r with
    | error e => simp only [numEv, numModels]; rfl
    | ok u =>
      simp only [evaluate_num h (hk.at_ _) m row1 h1, numEv]
      cases (EModel.evaluate (o.at_ (2 * i + 1)) m row1).res with
      | error e => simp only [Except.map, numModels]
      | ok out =>
        simp only [Except.map]
        rw [chainSegments_num h hk (i + 1) out ms _ h2]
        simp only [numEv, numModels]
        rfl
theorem sumSegments_num (h : GoesAlong φ) {o : MapOrd} (hk : ByKeys o) (fn : MiningFunction) (i : Nat) (sm : GoMap F) :
    (ms : List (EModel F)) → (row : Row F) → MulOr φ (PlainModels ms) →
    sumSegments o fn i (onValues φ sm) (numModels φ ms) (numRow φ row) =
      numEv φ (onValues φ) (numModels φ) (sumSegments o fn i sm ms row)
  | [], row, _ => by rw [numModels, sumSegments, sumSegments]; simp only [numEv, numModels]; rfl
  | m :: ms, row, hp => by
    have h1 : MulOr φ (PlainModel m) := hp.imp_right fun h => by rw [PlainModels] at h; exact h.1
    have h2 : MulOr φ (PlainModels ms) := hp.imp_right fun h => by rw [PlainModels] at h; exact h.2
    rw [numModels, sumSegments, sumSegments]
    simp only [evaluate_num h (hk.at_ _) m row h1, numEv]
    cases (EModel.evaluate (o.at_ (2 * i)) m row).res with
    | error e => simp only [Except.map, numModels]
    | ok out =>
      have e1 := foldl_num (fun p : String × F => (p.1, φ p.2)) (onValues φ) (addScore fn out)
        (addScore fn (numRow φ out)) (addScore_num h fn out) ((o.at_ (2 * i + 1)).range sm) sm
      simp only [Except.map, onValues_range _ (hk.at_ _), e1]
      rw [sumSegments_num h hk fn (i + 1) _ ms _ h2]
      simp only [numEv, numModels]
      rfl
end

theorem buildDefaults_num (fs : List MiningField) :
    (buildDefaults fs : GoMap (GoVal G)) = onValues (numVal φ) (buildDefaults fs) := by
  unfold buildDefaults
  have e1 := foldl_num id (onValues (numVal φ))
    (fun (m : GoMap (GoVal F)) (f : MiningField) => match f.missingValueReplacement with
      | some d => m.insert f.name (.str d)
      | none => m)
    (fun (m : GoMap (GoVal G)) (f : MiningField) => match f.missingValueReplacement with
      | some d => m.insert f.name (.str d)
      | none => m) (fun x a => by
        simp only [id]
        cases a.missingValueReplacement with
        | none => rfl
        | some d => simp only [onValues_insert]; rfl) fs ∅
  rw [onValues_empty, List.map_id] at e1
  exact e1

mutual
theorem newModel_num (h : GoesAlong φ) (dd : List DataField) : (e : ModelElem F) → (td : TD F) →
    newModel dd (numElem φ e) (td.map (numDerived φ)) =
      ((newModel dd e td).1.map (numModel φ), (newModel dd e td).2.map (numDerived φ))
  | .tree d, td => by
    rw [numElem, newModel, newModel, newTreeModel_num h]
    rcases newTreeModel dd td d with ⟨r, td'⟩
    cases r with
    | error e => rfl
    | ok m => simp only [Except.map, numModel]
  | .regression d, td => by rw [numElem, newModel, newModel]; simp only [Except.map, numModel]
  | .other k, td => by rw [numElem, newModel, newModel]; rfl
  | .mining hd segs, td => by
    rw [numElem, newModel, newModel]
    unfold MiningState.validate
    have e1 : (MiningState.init dd (numHead φ hd) (numSegs φ segs)).head = numHead φ hd := rfl
    have e2 : (MiningState.init dd hd segs).head = hd := rfl
    have e3 : (numHead φ hd).method = hd.method := rfl
    have e4 : (numHead φ hd).outputs = hd.outputs := rfl
    simp only [e1, e2, e3, e4]
    generalize (if hd.method = MultipleModelMethod.empty then MultipleModelMethod.sum else hd.method) = mt
    by_cases h1 : mt = .average ∨ mt = .modelChain ∨ mt = .sum ∨ mt = .selectFirst
    · rw [if_pos h1, if_pos h1]
      by_cases h2 : hd.outputs.all (fun f => f.feature = .empty ∨ f.feature = .probability)
      · rw [if_pos h2, if_pos h2]
        simp only
        have e5 : td.map (numDerived φ) ++ (numHead φ hd).localTransformations =
          (td ++ hd.localTransformations).map (numDerived φ) := by rw [List.map_append]; rfl
        rw [e5, compileSegments_num h dd segs]
        rcases compileSegments dd segs (td ++ hd.localTransformations) with ⟨r, ms, td'⟩
        cases r with
        | error e => rfl
        | ok u =>
          simp only [Except.map, numModel]
          refine congrArg (fun s => (Except.ok (EModel.mining s (numModels φ ms)), td'.map (numDerived φ))) ?_
          simp only [MiningState.prepare, MiningState.init, numState, numHead, buildDefaults_num (φ := φ)]
      · rw [if_neg h2, if_neg h2]; rfl
    · rw [if_neg h1, if_neg h1]; rfl
theorem compileSegments_num (h : GoesAlong φ) (dd : List DataField) : (segs : List (SegDoc F)) → (td : TD F) →
    compileSegments dd (numSegs φ segs) (td.map (numDerived φ)) =
      ((compileSegments dd segs td).1, numModels φ (compileSegments dd segs td).2.1,
        (compileSegments dd segs td).2.2.map (numDerived φ))
  | [], td => by rw [numSegs, compileSegments, compileSegments]; simp only [numModels]
  | .mk id ps [] :: segs, td => by
    rw [numSegs, numElems, compileSegments, compileSegments]; simp only [numModels]
    · rfl
    · nofun
    · nofun
  | .mk id ps [e] :: segs, td => by
    rw [numSegs, numElems, numElems, compileSegments, compileSegments, newModel_num h dd e td]
    rcases newModel dd e td with ⟨r, td'⟩
    cases r with
    | error e => simp only [Except.map, numModels]
    | ok m =>
      simp only [Except.map]
      rw [compileSegments_num h dd segs td']
      simp only [numModels]
  | .mk id ps (e :: e' :: es) :: segs, td => by
    rw [numSegs, numElems, numElems, compileSegments, compileSegments]
    · simp only [numModels, numElems_eq, List.length_cons, List.length_map]
    · nofun
    · nofun
end

mutual
theorem plainModel (dd : List DataField) : (e : ModelElem F) → (td td' : TD F) → (m : EModel F) →
    newModel dd e td = (.ok m, td') → Plain e → PlainModel m
  | .tree d, td, td', m, hm, hp => by
    rw [newModel] at hm
    rw [Plain] at hp
    rcases ht : newTreeModel dd td d with ⟨r, td1⟩
    rw [ht] at hm
    cases r with
    | error e => exact absurd (congrArg Prod.fst hm) (by simp)
    | ok t =>
      obtain rfl : EModel.tree t = m := by injection hm with h1 _; injection h1
      rw [PlainModel, (newTreeModel_ok ht).2.2.2.2.2.1]
      exact hp
  | .regression d, td, td', m, hm, hp => by
    rw [newModel] at hm
    rw [Plain] at hp
    obtain rfl : EModel.regression d = m := by injection hm with h1 _; injection h1
    rw [PlainModel]; exact hp
  | .other k, td, td', m, hm, hp => by
    rw [newModel] at hm
    exact absurd (congrArg Prod.fst hm) (by simp)
  | .mining hd segs, td, td', m, hm, hp => by
    rw [Plain] at hp
    obtain ⟨s, ms, rfl, -, -, -, hh, -, -, -, ht, hc⟩ := newMining_ok hm
    rw [PlainModel, ht, hh]
    have := plainModels dd segs (td ++ hd.localTransformations) hp.2.2
    rw [hc] at this
    exact ⟨hp.1, hp.2.1, this⟩
theorem plainModels (dd : List DataField) : (segs : List (SegDoc F)) → (td : TD F) → PlainSegs segs →
    PlainModels (compileSegments dd segs td).2.1
  | [], td, _ => by rw [compileSegments, PlainModels]; trivial
  | .mk id ps [] :: segs, td, _ => by
    rw [compileSegments, PlainModels]
    · trivial
    · nofun
  | .mk id ps [e] :: segs, td, hp => by
    rw [PlainSegs, PlainElems] at hp
    rw [compileSegments]
    rcases hm : newModel dd e td with ⟨r, td1⟩
    cases r with
    | error e => simp only [PlainModels]
    | ok m =>
      simp only
      rw [PlainModels]
      exact ⟨plainModel dd e td td1 m hm hp.1.1, plainModels dd segs td1 hp.2⟩
  | .mk id ps (e :: e' :: es) :: segs, td, _ => by
    rw [compileSegments, PlainModels]
    · trivial
    · nofun
end

/-! ## Verification -/

theorem verifyMaps_num (fs : List (VerificationField F)) (inp out : GoMap String) :
    verifyMaps (fs.map fun f => (⟨f.field, f.column, f.precision.map φ⟩ : VerificationField G)) inp out =
      verifyMaps fs inp out := by
  induction fs generalizing inp out with
  | nil => rfl
  | cons f fs ih =>
    rw [List.map_cons, verifyMaps, verifyMaps]
    simp only
    cases columnName f.column with
    | none => rfl
    | some c =>
      simp only [ih]
      cases f.precision <;> rfl

theorem verifyInput_num (inp : GoMap String) (l : List (String × GoVal F)) :
    verifyInput inp (l.map fun p => (p.1, numVal φ p.2)) = onValues (numVal φ) (verifyInput inp l) := by
  unfold verifyInput
  rw [← onValues_empty (numVal φ)]
  refine foldl_num _ (onValues (numVal φ)) _ _ (fun x a => ?_) _ _
  by_cases ha : a.1 ∈ inp
  · rw [if_pos ha, if_pos ha, onValues_insert]
  · rw [if_neg ha, if_neg ha]

theorem verifyCompare_num (h : GoesAlong φ) (hm : Products φ) (out : GoMap String) (output : Out F) :
    (l : List (String × GoVal F)) →
    verifyCompare out (numRow φ output) (l.map fun p => (p.1, numVal φ p.2)) = verifyCompare out output l
  | [] => rfl
  | (k, v) :: l => by
    have ih := verifyCompare_num h hm out output l
    rw [List.map_cons, verifyCompare, verifyCompare, ih]
    cases out[k]? with
    | none => rfl
    | some f =>
      have e : (numRow φ output).bind (fun m => m[f]?) = (output.bind fun m => m[f]?).map (numVal φ) := by
        cases output with
        | none => rfl
        | some m => exact onValues_get _ m f
      simp only [e]
      cases output.bind fun m => m[f]? with
      | none => rfl
      | some w =>
        simp only [Option.map_some, numVal_float64 h]
        rw [← h.sub, ← h.abs, ← h.lit, ← hm, h.lt]

theorem verifyRows_num (h : GoesAlong φ) (hm : Products φ) {o : MapOrd} (hk : ByKeys o) (inp out : GoMap String) :
    (rows : List (GoMap (GoVal F))) → (i : Nat) → (m : EModel F) →
    verifyRows o inp out i (rows.map (onValues (numVal φ))) (numModel φ m) =
      ((verifyRows o inp out i rows m).1, numModel φ (verifyRows o inp out i rows m).2)
  | [], _, _ => rfl
  | r :: rows, i, m => by
    rw [List.map_cons, verifyRows, verifyRows]
    simp only [onValues_range _ (hk.at_ _), verifyInput_num]
    have e := evaluate_num h (hk.at_ (3 * i + 1)) m (some (verifyInput inp ((o.at_ (3 * i)).range r))) (.inl hm)
    rw [show numRow φ (some (verifyInput inp ((o.at_ (3 * i)).range r))) =
      some (onValues (numVal φ) (verifyInput inp ((o.at_ (3 * i)).range r))) from rfl] at e
    simp only [e, numEv]
    cases (EModel.evaluate (o.at_ (3 * i + 1)) m (some (verifyInput inp ((o.at_ (3 * i)).range r)))).res with
    | error e => rfl
    | ok output =>
      simp only [Except.map, verifyCompare_num h hm]
      cases verifyCompare out output ((o.at_ (3 * i + 2)).range r) with
      | error e => rfl
      | ok u => exact verifyRows_num h hm hk inp out rows (i + 1) _

theorem verify_num (h : GoesAlong φ) (hm : Products φ) {o : MapOrd} (hk : ByKeys o) (m : EModel F) :
    (numModel φ m).verify o = ((m.verify o).1, numModel φ (m.verify o).2) := by
  have key : ∀ mv : Option (ModelVerification F), verifyModel o (numModel φ m) (mv.map (numVerification φ)) =
      ((verifyModel o m mv).1, numModel φ (verifyModel o m mv).2) := by
    intro mv
    cases mv with
    | none => rfl
    | some mv =>
      simp only [Option.map_some, verifyModel, numVerification, verifyMaps_num]
      cases verifyMaps mv.fields ∅ ∅ with
      | error e => rfl
      | ok p => exact verifyRows_num h hm hk p.1 p.2 mv.rows 0 m
  cases m with
  | tree t => rw [numModel] at key ⊢; exact key _
  | regression d => rw [numModel] at key ⊢; exact key _
  | mining s ms => rw [numModel] at key ⊢; exact key _

end Gopmml
