import Verif.Props.Predicates
import Verif.Props.Expressions
import Verif.Proofs.TreeEval

/-!
# Trees read only the fields they mention
-/

namespace Gopmml
open Spec

variable {F : Type}

/-- `r` is `n` or one of its descendants. -/
inductive CSub (r : CNode F) : CNode F → Prop
  | refl : CSub r r
  | child {n c : CNode F} : c ∈ n.children → CSub r c → CSub r n

variable [Arith F] [Lib F]

/-- Every test below `n` has the same result on `row` as it has on `row'` with the types `ty`. -/
def SameTests (c : TreeCtx F) (ty : FieldTypes) (row row' : Row F) (n : CNode F) : Prop :=
  ∀ r, CSub r n → runTest c.types r.pred row = runTest ty r.pred row'

theorem SameTests.child {c : TreeCtx F} {ty : FieldTypes} {row row' : Row F} {n k : CNode F}
    (h : SameTests c ty row row' n) (hk : k ∈ n.children) : SameTests c ty row row' k :=
  fun r hr => h r (.child hk hr)

omit [Lib F] in
theorem outputScoreDist_types (c : TreeCtx F) (ty : FieldTypes) (n : CNode F) :
    outputScoreDist { c with types := ty } n = outputScoreDist c n := rfl

mutual
theorem evalNone_congr {c : TreeCtx F} {ty : FieldTypes} {row row' : Row F} : (n : CNode F) → SameTests c ty row row' n →
    evalNone c row n = evalNone { c with types := ty } row' n
  | .mk id dc sd sc pred cs, h => by
    have h0 := h _ .refl
    simp only [CNode.pred] at h0
    have h1 := evalNoneChildren_congr (c := c) (ty := ty) (row := row) (row' := row') cs
      (fun k hk => h.child (n := .mk id dc sd sc pred cs) hk)
    simp only [evalNone, h0, h1, outputScoreDist_types]
theorem evalNoneChildren_congr {c : TreeCtx F} {ty : FieldTypes} {row row' : Row F} : (ns : List (CNode F)) →
    (∀ n ∈ ns, SameTests c ty row row' n) →
    evalNoneChildren c row ns = evalNoneChildren { c with types := ty } row' ns
  | [], _ => by simp only [evalNoneChildren]
  | n :: ns, h => by
    have h0 := evalNone_congr (c := c) (ty := ty) (row := row) (row' := row') n (h n (by simp))
    have h1 := evalNoneChildren_congr (c := c) (ty := ty) (row := row) (row' := row') ns
      (fun k hk => h k (by simp [hk]))
    simp only [evalNoneChildren, h0, h1]
end

mutual
theorem evalNull_congr {c : TreeCtx F} {ty : FieldTypes} {row row' : Row F} : (n : CNode F) → SameTests c ty row row' n →
    evalNull c row n = evalNull { c with types := ty } row' n
  | .mk id dc sd sc pred cs, h => by
    have h0 := h _ .refl
    simp only [CNode.pred] at h0
    have h1 := evalNullChildren_congr (c := c) (ty := ty) (row := row) (row' := row') cs
      (fun k hk => h.child (n := .mk id dc sd sc pred cs) hk)
    simp only [evalNull, h0, h1, outputScoreDist_types]
theorem evalNullChildren_congr {c : TreeCtx F} {ty : FieldTypes} {row row' : Row F} : (ns : List (CNode F)) →
    (∀ n ∈ ns, SameTests c ty row row' n) →
    evalNullChildren c row ns = evalNullChildren { c with types := ty } row' ns
  | [], _ => by simp only [evalNullChildren]
  | n :: ns, h => by
    have h0 := evalNull_congr (c := c) (ty := ty) (row := row) (row' := row') n (h n (by simp))
    have h1 := evalNullChildren_congr (c := c) (ty := ty) (row := row) (row' := row') ns
      (fun k hk => h k (by simp [hk]))
    simp only [evalNullChildren, h0, h1]
end

mutual
theorem evalLast_congr {c : TreeCtx F} {ty : FieldTypes} {row row' : Row F} : (n : CNode F) → SameTests c ty row row' n →
    evalLast c row n = evalLast { c with types := ty } row' n
  | .mk id dc sd sc pred cs, h => by
    have h0 := h _ .refl
    simp only [CNode.pred] at h0
    have h1 := evalLastChildren_congr (c := c) (ty := ty) (row := row) (row' := row') cs
      (fun k hk => h.child (n := .mk id dc sd sc pred cs) hk)
    simp only [evalLast, h0, h1, outputScoreDist_types]
theorem evalLastChildren_congr {c : TreeCtx F} {ty : FieldTypes} {row row' : Row F} : (ns : List (CNode F)) →
    (∀ n ∈ ns, SameTests c ty row row' n) →
    evalLastChildren c row ns = evalLastChildren { c with types := ty } row' ns
  | [], _ => by simp only [evalLastChildren]
  | n :: ns, h => by
    have h0 := evalLast_congr (c := c) (ty := ty) (row := row) (row' := row') n (h n (by simp))
    have h1 := evalLastChildren_congr (c := c) (ty := ty) (row := row) (row' := row') ns
      (fun k hk => h k (by simp [hk]))
    simp only [evalLastChildren, h0, h1]
end

mutual
theorem evalDefault_congr {c : TreeCtx F} {ty : FieldTypes} {row row' : Row F} : (n : CNode F) → SameTests c ty row row' n →
    evalDefault c row n = evalDefault { c with types := ty } row' n
  | .mk id dc sd sc pred cs, h => by
    have h0 := h _ .refl
    simp only [CNode.pred] at h0
    have h1 := evalDefaultChildren_congr (c := c) (ty := ty) (row := row) (row' := row') cs
      (fun k hk => h.child (n := .mk id dc sd sc pred cs) hk)
    simp only [evalDefault, h0, h1, outputScoreDist_types]
theorem evalDefaultChildren_congr {c : TreeCtx F} {ty : FieldTypes} {row row' : Row F} : (ns : List (CNode F)) →
    (∀ n ∈ ns, SameTests c ty row row' n) →
    evalDefaultChildren c row ns = evalDefaultChildren { c with types := ty } row' ns
  | [], _ => by simp only [evalDefaultChildren]
  | n :: ns, h => by
    have h0 := evalDefault_congr (c := c) (ty := ty) (row := row) (row' := row') n (h n (by simp))
    have h1 := evalDefaultChildren_congr (c := c) (ty := ty) (row := row) (row' := row') ns
      (fun k hk => h k (by simp [hk]))
    simp only [evalDefaultChildren, h0, h1]
end

mutual
theorem evalWeighted_congr {c : TreeCtx F} {ty : FieldTypes} {row row' : Row F} (o : MapOrd) : (n : CNode F) → SameTests c ty row row' n →
    evalWeighted c row o n = evalWeighted { c with types := ty } row' o n
  | .mk id dc sd sc pred cs, h => by
    have h0 := h _ .refl
    simp only [CNode.pred] at h0
    have h1 := evalWeightedChildren_congr (c := c) (ty := ty) (row := row) (row' := row') o 2 cs
      (fun k hk => h.child (n := .mk id dc sd sc pred cs) hk)
    simp only [evalWeighted, h0, h1, outputScoreDist_types]
theorem evalWeightedChildren_congr {c : TreeCtx F} {ty : FieldTypes} {row row' : Row F} (o : MapOrd) (i : Nat) : (ns : List (CNode F)) →
    (∀ n ∈ ns, SameTests c ty row row' n) →
    evalWeightedChildren c row o i ns = evalWeightedChildren { c with types := ty } row' o i ns
  | [], _ => by simp only [evalWeightedChildren]
  | n :: ns, h => by
    have h0 := evalWeighted_congr (c := c) (ty := ty) (row := row) (row' := row') (o.at_ i) n (h n (by simp))
    have h1 := evalWeightedChildren_congr (c := c) (ty := ty) (row := row) (row' := row') o (i + 1) ns
      (fun k hk => h k (by simp [hk]))
    simp only [evalWeightedChildren, h0, h1]
end

mutual
theorem evalAggregate_congr {c : TreeCtx F} {ty : FieldTypes} {row row' : Row F} (o : MapOrd) : (n : CNode F) → SameTests c ty row row' n →
    evalAggregate c row o n = evalAggregate { c with types := ty } row' o n
  | .mk id dc sd sc pred cs, h => by
    have h0 := h _ .refl
    simp only [CNode.pred] at h0
    have h1 := evalAggregateChildren_congr (c := c) (ty := ty) (row := row) (row' := row') o 1 cs
      (fun k hk => h.child (n := .mk id dc sd sc pred cs) hk)
    simp only [evalAggregate, h0, h1, outputScoreDist_types]
theorem evalAggregateChildren_congr {c : TreeCtx F} {ty : FieldTypes} {row row' : Row F} (o : MapOrd) (i : Nat) : (ns : List (CNode F)) →
    (∀ n ∈ ns, SameTests c ty row row' n) →
    evalAggregateChildren c row o i ns = evalAggregateChildren { c with types := ty } row' o i ns
  | [], _ => by simp only [evalAggregateChildren]
  | n :: ns, h => by
    have h0 := evalAggregate_congr (c := c) (ty := ty) (row := row) (row' := row') (o.at_ i) n (h n (by simp))
    have h1 := evalAggregateChildren_congr (c := c) (ty := ty) (row := row) (row' := row') o (i + 1) ns
      (fun k hk => h k (by simp [hk]))
    simp only [evalAggregateChildren, h0, h1]
end

theorem evalNode_congr {c : TreeCtx F} {ty : FieldTypes} {row row' : Row F} (o : MapOrd) {n : CNode F}
    (h : SameTests c ty row row' n) : evalNode c o row n = evalNode { c with types := ty } o row' n := by
  unfold evalNode
  rw [evalAggregate_congr o n h, evalDefault_congr n h, evalLast_congr n h, evalNone_congr n h,
    evalNull_congr n h, evalWeighted_congr o n h]

/-- Every compiled node comes from a node of the document. -/
theorem csub_origin {types : FieldTypes} (n : Node F) : ∀ {cn : CNode F}, newNode types n = .ok cn →
    ∀ r, CSub r cn → ∃ k, Sub k n ∧ newNode types k = .ok r := by
  induction n using Node.ind with
  | h n ih =>
    intro cn h r hr
    cases hr with
    | refl => exact ⟨n, .refl, h⟩
    | @child _ k hk hr =>
      obtain ⟨id, dc, score, rc, dists, nodes, pred⟩ := n
      obtain ⟨cs, pred', hcs, -, rfl⟩ := newNode_ok h
      have hf := newNodes_forall hcs
      simp only [CNode.children] at hk
      obtain ⟨x, hx, hxk⟩ : ∃ x ∈ nodes, newNode types x = .ok k := by
        clear * - hf hk
        induction hf with
        | nil => cases hk
        | cons h _ ih =>
          rcases List.mem_cons.mp hk with rfl | hk
          · exact ⟨_, by simp, h⟩
          · obtain ⟨x, hx, h⟩ := ih hk
            exact ⟨x, by simp [hx], h⟩
      obtain ⟨y, hy, hyr⟩ := ih x hx hxk r hr
      exact ⟨y, .child hx hy, hyr⟩

theorem sameTests_of_agree {dd : List DataField} {td : TD F} {d : TreeDoc F} {cn : CNode F} {row row' : Row F}
    (h : newNode (treeTypes dd td d) d.node = .ok cn)
    (hr : ∀ n p f, Sub n d.node → n.pred = some p → f ∈ predFields p → row.get f = row'.get f) :
    SameTests (docCtx dd td d) (treeTypes dd td d) row row' cn := by
  intro r hsub
  obtain ⟨k, hk, hkr⟩ := csub_origin d.node h r hsub
  obtain ⟨id, dc, score, rc, dists, nodes, pred⟩ := k
  obtain ⟨cs, pred', -, hp, rfl⟩ := newNode_ok hkr
  cases pred with
  | none => subst hp; rfl
  | some p =>
    obtain ⟨p', hc, rfl⟩ := hp
    exact Props.C05_predicate_frame hc (fun f hf => hr _ p f hk rfl hf)

/-- Derived fields computed on two rows agreeing on the mentioned fields `S`. -/
theorem handleInput_agree (S : String → Prop) (dfs : List (DerivedField F))
    (hS : ∀ df ∈ dfs, ∀ f ∈ exprFields df.expr, S f) (m m' : GoMap (GoVal F))
    (h : ∀ f, S f → Row.get (some m) f = Row.get (some m') f) :
    (handleInput dfs (some m)).1 = (handleInput dfs (some m')).1 ∧
    ∀ f, S f → (handleInput dfs (some m)).2.get f = (handleInput dfs (some m')).2.get f := by
  induction dfs generalizing m m' with
  | nil => exact ⟨rfl, h⟩
  | cons df dfs ih =>
    have he := Props.C35_expression_frame (row := some m) (row' := some m') df.expr
      (fun f hf => h f (hS df (by simp) f hf))
    simp only [handleInput, he]
    cases handleExpression (some m') df.expr with
    | error e => exact ⟨rfl, h⟩
    | ok v =>
      refine ih (fun d hd => hS d (by simp [hd])) _ _ (fun f hf => ?_)
      have := h f hf
      simp only [Row.get, Option.bind_some, GoMap.getElem?_insert] at this ⊢
      rw [this]

end Gopmml

namespace Gopmml.Props
open Gopmml Spec

variable {F : Type} [Arith F] [Lib F]

/-- A tree document mentions a field: in a predicate of a node or in a derived field's
expression. -/
def Mentions (d : TreeDoc F) (f : String) : Prop :=
  (∃ n p, Sub n d.node ∧ n.pred = some p ∧ f ∈ predFields p) ∨
  ∃ df ∈ d.localTransformations, f ∈ exprFields df.expr

/-- **C05** (trees): two rows that agree on every field a tree document mentions get the same
prediction (or the same error), under every missing-value strategy. -/
theorem C05_tree_frame {dd : List DataField} {td td' : TD F} {d : TreeDoc F} {m : TreeModel F}
    (h : newTreeModel dd td d = (.ok m, td')) (o : MapOrd) {r r' : GoMap (GoVal F)}
    (hr : ∀ f, Mentions d f → r[f]? = r'[f]?) :
    (m.evaluate o (some r)).res = (m.evaluate o (some r')).res := by
  obtain ⟨-, -, hv, hc, hk, hm, ht, hx, hn⟩ := newTreeModel_ok h
  have hk' : KeysOk m.outKeys := by rw [hk]; exact keysOk_empty
  rw [(evaluate_eq hv hc hk' o (some r)).2.1, (evaluate_eq hv hc hk' o (some r')).2.1, hx, hm]
  simp only
  have hi := handleInput_agree (Mentions d) d.localTransformations
    (fun df hdf f hf => .inr ⟨df, hdf, hf⟩) r r' hr
  rcases h1 : handleInput d.localTransformations (some r) with ⟨e1, row1⟩
  rcases h2 : handleInput d.localTransformations (some r') with ⟨e2, row2⟩
  rw [h1, h2] at hi
  obtain ⟨he, hag⟩ := hi
  simp only at he hag
  subst he
  cases e1 with
  | error e => rfl
  | ok u =>
    have := evalNode_congr o (sameTests_of_agree (row := row1) (row' := row2) hn
      (fun n p f hs hp hf => hag f (.inl ⟨n, p, hs, hp, hf⟩)))
    simp only [this]
    rfl

/-- **C05** (trees): without derived fields this holds for nil rows too. -/
theorem C05_tree_frame_nil {dd : List DataField} {td td' : TD F} {d : TreeDoc F} {m : TreeModel F}
    (h : newTreeModel dd td d = (.ok m, td')) (hd : d.localTransformations = []) (o : MapOrd) {r r' : Row F}
    (hr : ∀ f, Mentions d f → r.get f = r'.get f) :
    (m.evaluate o r).res = (m.evaluate o r').res := by
  obtain ⟨-, -, hv, hc, hk, hm, ht, hx, hn⟩ := newTreeModel_ok h
  have hk' : KeysOk m.outKeys := by rw [hk]; exact keysOk_empty
  rw [(evaluate_eq hv hc hk' o r).2.1, (evaluate_eq hv hc hk' o r').2.1, hx, hm]
  simp only [hd, handleInput]
  have := evalNode_congr o (sameTests_of_agree (row := r) (row' := r') hn
      (fun n p f hs hp hf => hr f (.inl ⟨n, p, hs, hp, hf⟩)))
  simp only [this]
  rfl

-- C05: the golf tree does not mention "mood"; two rows differing there.
example : (newTreeModel Replay.dd [] (Replay.doc .weightedConfidence "1" Replay.golfCounts)).1.isOk ∧
    Replay.run (Replay.doc .weightedConfidence "1" Replay.golfCounts)
      [("outlook", .str "sunny"), ("mood", .str "good")] =
    Replay.run (Replay.doc .weightedConfidence "1" Replay.golfCounts)
      [("outlook", .str "sunny"), ("mood", .str "bad")] ∧
    Replay.run (Replay.doc .weightedConfidence "1" Replay.golfCounts) [("outlook", .str "rain")] ≠
    Replay.run (Replay.doc .weightedConfidence "1" Replay.golfCounts) [("outlook", .str "sunny")] := by
  decide +kernel

end Gopmml.Props
