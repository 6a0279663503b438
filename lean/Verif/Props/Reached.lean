import Verif.Proofs.Reached
import Verif.Proofs.TreeEval
import Verif.Model.Samples
import Verif.Model.Replay

/-!
# Property C80: the tests a prediction rests on
-/

namespace Gopmml
open Spec

variable {F : Type}

theorem reached_sublist (s : MissingValueStrategy) (T : Node F → PredRes) : (n : Node F) →
    (reached s T n).Sublist (allNodes n)
  | .mk id dc score rc dists nodes pred => by
    rw [reached, allNodes]
    refine .cons_cons _ ?_
    split
    · exact go nodes
    · exact List.nil_sublist _
where
  go : (ns : List (Node F)) → (reached.reacheds s T ns).Sublist (allNodes.allNodess ns)
    | [] => .slnil
    | n :: ns => by
      rw [reached.reacheds, allNodes.allNodess]
      refine (reached_sublist s T n).append ?_
      split
      · exact List.nil_sublist _
      · exact go ns

theorem reached_length {s : MissingValueStrategy} (hs : Thorough s = false) (T : Node F → PredRes) {b : Nat} :
    (n : Node F) → ∀ {h}, Branching b h n → (reached s T n).length ≤ 1 + b * h
  | .mk id dc score rc dists nodes pred, h, hw => by
    rw [reached]
    cases hw with
    | leaf h0 =>
      change nodes = [] at h0
      subst h0
      simp [reached.reacheds]
    | @mk h _ h1 h2 =>
      change nodes.length ≤ b at h1
      split
      · have := go nodes (h := h) fun c hc => h2 c hc
        simp only [List.length_cons]
        rw [Nat.mul_succ]
        omega
      · simp
where
  go : (ns : List (Node F)) → ∀ {h}, (∀ c ∈ ns, Branching b h c) → (reached.reacheds s T ns).length ≤ ns.length + b * h
    | [], _, _ => by simp [reached.reacheds]
    | n :: ns, h, hw => by
      rw [reached.reacheds]
      by_cases hst : settles s (T n) = true
      · have := reached_length hs T n (hw n (by simp))
        rw [if_pos hst]
        simp only [List.append_nil, List.length_cons]
        omega
      · have hg : goesOn s (T n) = false := by
          cases hv : T n with
          | f => rfl
          | u => exact hs
          | t => rw [hv] at hst; simp [settles, hs] at hst
        have h1 : (reached s T n).length = 1 := by
          obtain ⟨id, dc, score, rc, dists, nodes, pred⟩ := n
          rw [reached, hg]; rfl
        have := go ns (h := h) fun c hc => hw c (by simp [hc])
        rw [if_neg hst, List.length_append, h1, List.length_cons]
        omega

end Gopmml

namespace Gopmml.Props
open Gopmml Spec

variable {F : Type} [Arith F] [Lib F]
variable {dd : List DataField} {td td' td'' : TD F} {d : TreeDoc F} {m m' : TreeModel F}

/-- **C80** (rows): rows that agree, once the derived fields are there, on the fields of the tests that are
made for the first of them get the same prediction. -/
theorem C80_rows (h : newTreeModel dd td d = (.ok m, td')) {row row' q q' : Row F}
    (hq : handleInput d.localTransformations row = (.ok (), q))
    (hq' : handleInput d.localTransformations row' = (.ok (), q')) (o : MapOrd)
    (hr : ∀ n ∈ reached d.missingValueStrategy (nodeTest (treeTypes dd td d) q) d.node,
      ∀ p, n.pred = some p → ∀ f ∈ predFields p, q.get f = q'.get f) :
    (m.evaluate o row).res = (m.evaluate o row').res := by
  have hn := (newTreeModel_ok h).2.2.2.2.2.2.2.2
  rw [constructed_evaluate h hq o, constructed_evaluate h hq' o,
    evalNode_alike o (c := docCtx dd td d) (calike_of_agree d.missingValueStrategy d.node hn hr)]

/-- **C80** (nodes): what stands at nodes whose tests are not made does not matter to the prediction. -/
theorem C80_untested (h : newTreeModel dd td d = (.ok m, td')) {n' : Node F}
    (h' : newTreeModel dd td { d with node := n' } = (.ok m', td'')) {row q : Row F}
    (hq : handleInput d.localTransformations row = (.ok (), q)) (o : MapOrd)
    (hr : SameReached d.missingValueStrategy (nodeTest (treeTypes dd td d) q) d.node n') :
    (m.evaluate o row).res = (m'.evaluate o row).res := by
  have hn := (newTreeModel_ok h).2.2.2.2.2.2.2.2
  have hn' := (newTreeModel_ok h').2.2.2.2.2.2.2.2
  rw [constructed_evaluate h hq o, constructed_evaluate h' hq o,
    evalNode_alike o (c := docCtx dd td d) (calike_of_same d.missingValueStrategy d.node hn hn' hr)]
  rfl

/-- **C80** (exactly these): a nil predicate, whose test cannot be called, is noticed exactly if it is at one
of these nodes. -/
theorem C80_exactly (h : newTreeModel dd td d = (.ok m, td')) {row q : Row F}
    (hq : handleInput d.localTransformations row = (.ok (), q)) (o : MapOrd) :
    (m.evaluate o row).res = panic .nilFuncCall ↔
      ∃ n ∈ reached d.missingValueStrategy (nodeTest (treeTypes dd td d) q) d.node, n.pred = none := by
  have hn := (newTreeModel_ok h).2.2.2.2.2.2.2.2
  rw [constructed_evaluate h hq o]
  rcases evalNode_verdict (c := docCtx dd td d) (row := q) o hn with ⟨h1, a, ha⟩ | ⟨h1, ha⟩
  · rw [ha]
    refine ⟨fun hr => ?_, fun ⟨n, hn, hp⟩ => absurd hp (h1 n hn)⟩
    exfalso
    revert hr
    unfold report
    simp only
    split_ifs
    all_goals (try simp)
    split
    all_goals (try simp)
    all_goals (split <;> simp)
  · rw [ha]; exact ⟨fun _ => h1, fun _ => rfl⟩

omit [Arith F] [Lib F] in
/-- **C80** (once): every test is made at most once, in document order. -/
theorem C80_once (s : MissingValueStrategy) (T : Node F → PredRes) (n : Node F) :
    (reached s T n).Sublist (allNodes n) :=
  reached_sublist s T n

omit [Arith F] [Lib F] in
/-- **C80** (cost): by default and with nullPrediction a tree of `h` levels whose nodes have at most `b`
children makes at most `1 + b h` tests, however many nodes it has. -/
theorem C80_cost {s : MissingValueStrategy} (hs : Thorough s = false) (T : Node F → PredRes) {b h : Nat} {n : Node F}
    (hw : Branching b h n) : (reached s T n).length ≤ 1 + b * h :=
  reached_length hs T n hw

/-! ### Examples -/

section Examples
open Replay

/-- The ids of the nodes that are tested, in order. -/
private def tested (s : MissingValueStrategy) (n : Node F64) (row : List (String × GoVal F64)) : List String :=
  (reached s (nodeTest (treeTypes Replay.dd [] (doc s "1" n)) (some (Std.ExtTreeMap.ofList row))) n).map (·.id)

/-- The golf tree with no predicate at its last node, and another score there. -/
private def holed : Node F64 :=
  match golfCounts with
  | .mk id dc sc rc ds [a, .mk id' dc' _ rc' ds' ns' _] p =>
    .mk id dc sc rc ds [a, .mk id' dc' "anything" rc' ds' ns' none] p
  | n => n

/-- On a sunny day at 60 degrees the second child of the root and the second child of the first are not
tested by default … -/
example : tested (.other "") golfCounts [("outlook", .str "sunny"), ("temperature", .f64 (num "60"))]
    = ["1", "2", "3"] := by decide +kernel

/-- … with weightedConfidence all are … -/
example : tested .weightedConfidence golfCounts [("outlook", .str "sunny"), ("temperature", .f64 (num "60"))]
    = ["1", "2", "3", "4", "5"] := by decide +kernel

/-- … and on a rainy day, by default, the children of the first child are not. -/
example : tested (.other "") golfCounts [("outlook", .str "rain")] = ["1", "2", "5"] := by decide +kernel

/-- The missing predicate goes unnoticed on the sunny day … -/
example : entries (run (doc (.other "") "1" holed) [("outlook", .str "sunny"), ("temperature", .f64 (num "60"))])
    = entries (run (doc (.other "") "1" golfCounts) [("outlook", .str "sunny"), ("temperature", .f64 (num "60"))]) ∧
    (entries (run (doc (.other "") "1" holed)
      [("outlook", .str "sunny"), ("temperature", .f64 (num "60"))])).isSome := by decide +kernel

/-- … and makes `Evaluate` panic on the rainy one, or if all children are asked. -/
example : (run (doc (.other "") "1" holed) [("outlook", .str "rain")] matches .error (.panic .nilFuncCall)) ∧
    (run (doc .weightedConfidence "1" holed) [("outlook", .str "sunny"), ("temperature", .f64 (num "60"))]
      matches .error (.panic .nilFuncCall)) := by decide +kernel

/-- The golf tree has two levels and at most two children: at most five tests. -/
example : Branching 2 2 golfCounts := by
  refine .mk (by decide +kernel) fun c hc => ?_
  have hc : c ∈ golfCounts.nodes := hc
  rw [show golfCounts.nodes = [_, _] from rfl] at hc
  rcases List.mem_cons.1 hc with rfl | hc
  · refine .mk (by decide +kernel) fun c hc => ?_
    rcases List.mem_cons.1 hc with rfl | hc
    · exact .leaf rfl
    · rw [List.mem_singleton] at hc; subst hc; exact .leaf rfl
  · rw [List.mem_singleton] at hc; subst hc
    exact .mk (by decide +kernel) fun c hc => absurd hc (by exact List.not_mem_nil)

end Examples

end Gopmml.Props
