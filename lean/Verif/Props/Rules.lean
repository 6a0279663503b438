import Verif.Proofs.Rules
import Verif.Model.Samples

/-!
# Property C96: a tree is a list of rules
-/

namespace Gopmml.Props
open Gopmml Spec

variable {F : Type} [Arith F] [Lib F] {dd : List DataField} {td td' : TD F} {d : TreeDoc F} {m : TreeModel F}

/-- **C96** (default strategy): a tree answers with the first of its rules, children before parents, all of whose
tests hold; if there is none it gives no prediction. -/
theorem C96_rules (h : newTreeModel dd td d = (.ok m, td')) (hp : AllPreds d.node)
    (hs : d.missingValueStrategy = .none ∨ ∃ s, d.missingValueStrategy = .other s) {row row' : Row F}
    (hi : handleInput d.localTransformations row = (.ok (), row')) (o : MapOrd) :
    (m.evaluate o row).res =
      match (rules [] d.node).find? (fun r => ruleValue (nodeTest (treeTypes dd td d) row') r = .t) with
      | none => .ok none
      | some r => report d.functionName (targetOf d.miningFields) (ownDist dd d r.2, .t) := by
  obtain ⟨a, ha, hr⟩ := evaluate_answer h hp hi o
  rw [hr]
  have ha : (nodeTest (treeTypes dd td d) row' d.node ≠ .t ∧ a = ([], .f)) ∨
      (nodeTest (treeTypes dd td d) row' d.node = .t ∧
        ∃ r, FirstTrue (nodeTest (treeTypes dd td d) row') d.node r ∧ a = (ownDist dd d r, .t)) := by
    unfold NodeAns at ha
    rcases hs with hs | ⟨s, hs⟩ <;> rw [hs] at ha <;> exact ha
  rcases ha with ⟨ht, rfl⟩ | ⟨ht, r, hft, rfl⟩
  · have : (rules [] d.node).find? (fun r => ruleValue (nodeTest (treeTypes dd td d) row') r = .t) = none := by
      rw [List.find?_eq_none]
      intro r hr
      obtain ⟨rest, hp⟩ := rules_path d.node [] r hr
      simp only [ruleValue, decide_eq_true_eq, all3_eq_t, hp]
      intro h
      exact ht (h _ (List.mem_map_of_mem (by simp)))
    rw [this]
    simp [report]
  · obtain ⟨q, h1, h2⟩ := rules_true d.node [] (by simp) ht
    rw [h2, firstTrue_unique hft h1]

/-- **C96** (nullPrediction): a tree looks for the first of its rules that is not false; it answers with it if it
holds, and gives no prediction if it is unknown or if there is none. -/
theorem C96_null (h : newTreeModel dd td d = (.ok m, td')) (hp : AllPreds d.node)
    (hs : d.missingValueStrategy = .nullPrediction) {row row' : Row F}
    (hi : handleInput d.localTransformations row = (.ok (), row')) (o : MapOrd) :
    (m.evaluate o row).res =
      match (rules [] d.node).find? (fun r => ruleValue (nodeTest (treeTypes dd td d) row') r ≠ .f) with
      | none => .ok none
      | some r =>
        if ruleValue (nodeTest (treeTypes dd td d) row') r = .t then
          report d.functionName (targetOf d.miningFields) (ownDist dd d r.2, .t)
        else .ok none := by
  obtain ⟨a, ha, hr⟩ := evaluate_answer h hp hi o
  rw [hr]
  simp only [NodeAns, hs] at ha
  by_cases hf : nodeTest (treeTypes dd td d) row' d.node = .f
  · have : (rules [] d.node).find? (fun r => ruleValue (nodeTest (treeTypes dd td d) row') r ≠ .f) = none := by
      rw [List.find?_eq_none]
      intro r hr
      obtain ⟨rest, hp⟩ := rules_path d.node [] r hr
      simp only [ruleValue, decide_eq_true_eq, ne_eq, not_not, all3_eq_f, hp]
      exact List.mem_map.mpr ⟨d.node, by simp, hf⟩
    rw [this]
    rcases ha with ⟨-, rfl⟩ | ⟨hc, -⟩ | ⟨hc, -⟩
    · simp [report]
    · exact absurd hf hc
    · exact absurd hf hc
  · obtain ⟨q, h1, h2⟩ := rules_null d.node [] (by simp) hf
    rw [h2]
    rcases ha with ⟨hc, -⟩ | ⟨-, ⟨w, hw, hu⟩, rfl⟩ | ⟨-, hall, r, hft, rfl⟩
    · exact absurd hc hf
    · rcases h1 with ⟨hv, -⟩ | ⟨-, -, h1⟩
      · simp [hv, report]
      · exact absurd hu (h1 w hw)
    · rcases h1 with ⟨-, w, hw, hu⟩ | ⟨hv, hft', -⟩
      · exact absurd hu (hall w hw)
      · simp only [hv, if_true, firstTrue_unique hft hft']

omit [Arith F] [Lib F] in
mutual
theorem rules_nodes : (n : Node F) → (above : List (Node F)) →
    ((rules above n).map (·.2)).Perm (allNodes n) ∧ ∀ r ∈ rules above n, r.1.getLast? = some r.2
  | .mk id dc score rc dists nodes pred, above => by
    obtain ⟨h1, h2⟩ := rulesOf_nodes nodes (above ++ [.mk id dc score rc dists nodes pred])
    rw [rules, allNodes, List.map_append]
    refine ⟨List.perm_append_comm.trans (.cons _ h1), fun r hr => ?_⟩
    rcases List.mem_append.mp hr with hr | hr
    · exact h2 r hr
    · rw [List.mem_singleton.mp hr]; simp
theorem rulesOf_nodes : (ns : List (Node F)) → (above : List (Node F)) →
    ((rulesOf above ns).map (·.2)).Perm (allNodes.allNodess ns) ∧ ∀ r ∈ rulesOf above ns, r.1.getLast? = some r.2
  | [], above => by simp [rulesOf, allNodes.allNodess]
  | n :: ns, above => by
    obtain ⟨h1, h2⟩ := rules_nodes n above
    obtain ⟨g1, g2⟩ := rulesOf_nodes ns above
    rw [rulesOf, allNodes.allNodess, List.map_append]
    refine ⟨h1.append g1, fun r hr => ?_⟩
    rcases List.mem_append.mp hr with hr | hr
    · exact h2 r hr
    · exact g2 r hr
end

omit [Arith F] [Lib F] in
/-- **C96** (rules): there is exactly one rule for each node, and its way ends there. -/
theorem C96_nodes (n : Node F) :
    ((rules [] n).map (·.2)).Perm (allNodes n) ∧ ∀ r ∈ rules [] n, r.1.getLast? = some r.2 :=
  rules_nodes n []

/-- What a rule of a flattened tree is worth. -/
theorem flat_test {types : FieldTypes} {row : Row F} {ns : List (Node F)}
    (hp : ∀ c ∈ ns, ∀ r, Sub r c → ∃ p, r.pred = some p) {r : Rule F} (hr : r ∈ rulesOf [] ns) :
    nodeTest types row (ruleNode r) = ruleValue (nodeTest types row) r := by
  refine nodeTest_rule r fun n hn => ?_
  obtain ⟨c, hc, -, h2⟩ := rulesOf_sub ns [] r hr
  rcases h2 n hn with h | h
  · simp at h
  · exact Option.isSome_iff_exists.mpr (hp c hc n h)

omit [Arith F] [Lib F] in
theorem find_split {α : Type} {p : α → Bool} {l : List α} {a : α} (h : l.find? p = some a) :
    ∃ pre post, l = pre ++ a :: post ∧ ∀ b ∈ pre, p b = false := by
  rw [List.find?_eq_some_iff_append] at h
  obtain ⟨-, pre, post, h1, h2⟩ := h
  exact ⟨pre, post, h1, fun b hb => by simpa using h2 b hb⟩

/-- A flattened tree is accepted. -/
theorem flat_accepted (h : newTreeModel dd td d = (.ok m, td')) :
    ∃ m', newTreeModel dd td { d with node := flatten d.node } = (.ok m', td') := by
  have ha := (C08_construction dd td d).1.mp ⟨m, td', h⟩
  have ha' : AcceptableTree dd td { d with node := flatten d.node } := by
    refine ⟨ha.1, fun r hr q hq s hs => ?_⟩
    cases hd : d.node with
    | mk id dc score rc dists nodes pred =>
    have ha2 := ha.2
    rw [hd] at ha2
    change Sub r (flatten d.node) at hr
    rw [hd, flatten] at hr
    cases hr with
    | refl => exact ha2 _ .refl q hq s hs
    | child hc hr =>
      obtain ⟨x, hx, rfl⟩ := List.mem_map.mp hc
      have hrx : r = ruleNode x := by
        cases hr with
        | refl => rfl
        | child hc _ => rw [ruleNode_nodes] at hc; simp at hc
      rw [hrx, ruleNode_pred] at hq
      obtain rfl := Option.some.inj hq
      obtain ⟨p, hp, hs⟩ := simples_conj hs
      obtain ⟨n, hn, hpn⟩ := List.mem_filterMap.mp hp
      obtain ⟨c, hc, -, h2⟩ := rulesOf_sub nodes [] x hx
      rcases h2 n hn with h | h
      · simp at h
      · exact ha2 n (.child hc h) p hpn s hs
  obtain ⟨m', td'', h'⟩ := (C08_construction dd td _).1.mpr ha'
  obtain rfl : td'' = td' := (newTreeModel_ok h').2.1.trans (newTreeModel_ok h).2.1.symm
  exact ⟨m', h'⟩

/-- A flattened tree answers like the tree. -/
theorem flat_same (h : newTreeModel dd td d = (.ok m, td')) (hp : AllPreds d.node)
    (hs : goesDown d.missingValueStrategy = true) (hnt : d.noTrueChildStrategy ≠ .returnNullPrediction)
    {m' : TreeModel F} (h' : newTreeModel dd td { d with node := flatten d.node } = (.ok m', td')) {row row' : Row F}
    (hi : handleInput d.localTransformations row = (.ok (), row')) (o : MapOrd) :
    (m.evaluate o row).res = (m'.evaluate o row).res := by
  obtain ⟨T, hT⟩ : ∃ T, T = nodeTest (treeTypes dd td d) row' := ⟨_, rfl⟩
  cases hd : d.node with
  | mk id dc score rc dists nodes pred =>
  rw [hd] at hp
  have hsubs : ∀ c ∈ nodes, ∀ r, Sub r c → ∃ p, r.pred = some p := fun c hc r hr => hp r (.child hc hr)
  have htest : ∀ r ∈ rulesOf [] nodes, T (ruleNode r) = ruleValue T r := by
    intro r hr; rw [hT]; exact flat_test hsubs hr
  have hp' : AllPreds (flatten d.node) := by
    rw [hd, flatten]
    intro r hr
    cases hr with
    | refl => exact hp (.mk id dc score rc dists nodes pred) .refl
    | child hc hr =>
      obtain ⟨x, hx, rfl⟩ := List.mem_map.mp hc
      cases hr with
      | refl => exact ⟨_, ruleNode_pred x⟩
      | child hc _ => rw [ruleNode_nodes] at hc; simp at hc
  have hroot : T (flatten d.node) = T d.node := by rw [hT, hd, flatten]; rfl
  have hnodes : (flatten d.node).nodes = (rulesOf [] nodes).map ruleNode := by rw [hd]; rfl
  have hown : ownDist dd { d with node := flatten d.node } = ownDist dd d := rfl
  have hownroot : ownDist dd d (flatten d.node) = ownDist dd d d.node := by
    rw [hd]
    simp only [ownDist, flatten, hnt, and_false, if_false]
    rfl
  obtain ⟨a, ha, hr⟩ := evaluate_answer h (by rw [hd]; exact hp) hi o
  obtain ⟨a', ha', hr'⟩ := evaluate_answer (d := { d with node := flatten d.node }) h' hp' hi o
  rw [hr, hr']
  change NodeAns dd d (nodeTest (treeTypes dd td d) row') (flatten d.node) a' at ha'
  rw [← hT] at ha ha'
  suffices a = a' by rw [this]
  have hdef : (T d.node ≠ .t ∧ a = ([], .f)) ∨ (T d.node = .t ∧ ∃ r, FirstTrue T d.node r ∧ a = (ownDist dd d r, .t)) →
      (T (flatten d.node) ≠ .t ∧ a' = ([], .f)) ∨
        (T (flatten d.node) = .t ∧ ∃ r, FirstTrue T (flatten d.node) r ∧ a' = (ownDist dd d r, .t)) → a = a' := by
    rintro (⟨ht, rfl⟩ | ⟨ht, r, hft, rfl⟩) (⟨ht', rfl⟩ | ⟨ht', r', hft', rfl⟩)
    · rfl
    · exact absurd (hroot ▸ ht') ht
    · exact absurd (hroot.trans ht) ht'
    · rcases rulesOf_true (T := T) nodes [] (by simp) with ⟨h1, h2⟩ | ⟨pre, c, post, q, h1, h2, h3, h4, h5⟩
      · have e1 : FirstTrue T d.node d.node := .stop (by rw [hd]; exact h1)
        have e2 : FirstTrue T (flatten d.node) (flatten d.node) := .stop (by
          rw [hnodes]
          intro c hc
          obtain ⟨x, hx, rfl⟩ := List.mem_map.mp hc
          rw [htest x hx]
          rw [List.find?_eq_none] at h2
          simpa using h2 x hx)
        rw [firstTrue_unique hft e1, firstTrue_unique hft' e2, hownroot]
      · have e1 : FirstTrue T d.node q.2 := .step (by rw [hd]; exact h1) h2 h3 h4
        have e2 : FirstTrue T (flatten d.node) (ruleNode q) := by
          obtain ⟨pre, post, g1, g2⟩ := find_split h5
          have hq : T (ruleNode q) = .t := by
            rw [htest q (by rw [g1]; simp)]; simpa using List.find?_some h5
          refine .step (pre := pre.map ruleNode) (post := post.map ruleNode) (c := ruleNode q)
            (by rw [hnodes, g1]; simp) ?_ hq (.stop (by rw [ruleNode_nodes]; simp))
          intro c hc
          obtain ⟨x, hx, rfl⟩ := List.mem_map.mp hc
          rw [htest x (by rw [g1]; simp [hx])]
          simpa using g2 x hx
        rw [firstTrue_unique hft e1, firstTrue_unique hft' e2, ownDist_rule hnt]
  unfold NodeAns at ha ha'
  cases hst : d.missingValueStrategy with
  | none => rw [hst] at ha ha'; exact hdef ha ha'
  | other s => rw [hst] at ha ha'; exact hdef ha ha'
  | nullPrediction =>
    rw [hst] at ha ha'
    simp only at ha ha'
    rw [hroot] at ha'
    by_cases hf : T d.node = .f
    · rcases ha with ⟨-, rfl⟩ | ⟨hc, -⟩ | ⟨hc, -⟩
      · rcases ha' with ⟨-, rfl⟩ | ⟨hc, -⟩ | ⟨hc, -⟩
        · rfl
        · exact absurd hf hc
        · exact absurd hf hc
      · exact absurd hf hc
      · exact absurd hf hc
    · -- both descents end alike
      have key : ∃ v r r', Ends T d.node v r ∧ Ends T (flatten d.node) v r' ∧ ownDist dd d r = ownDist dd d r' := by
        cases ht : T d.node with
        | f => exact absurd ht hf
        | u => exact ⟨.u, d.node, d.node, .inl ⟨rfl, _, .here, ht⟩, .inl ⟨rfl, _, .here, hroot.trans ht⟩, rfl⟩
        | t =>
          rcases rulesOf_null (T := T) nodes [] (by simp) with ⟨h1, h2⟩ | ⟨pre, c, post, q, h1, h2, h3, h4, h5⟩
          · refine ⟨.t, d.node, flatten d.node, .stop ht (by rw [hd]; exact h1), .stop (hroot.trans ht) ?_,
              hownroot.symm⟩
            rw [hnodes]
            intro c hc
            obtain ⟨x, hx, rfl⟩ := List.mem_map.mp hc
            rw [htest x hx]
            rw [List.find?_eq_none] at h2
            simpa using h2 x hx
          · obtain ⟨pre', post', g1, g2⟩ := find_split h5
            have hq : T (ruleNode q) = ruleValue T q := htest q (by rw [g1]; simp)
            have hqf : ruleValue T q ≠ .f := by simpa using List.find?_some h5
            refine ⟨ruleValue T q, q.2, ruleNode q, .child ht (by rw [hd]; exact h1) h2 h3 h4,
              .child (c := ruleNode q) (pre := pre'.map ruleNode) (post := post'.map ruleNode) (hroot.trans ht)
                (by rw [hnodes, g1]; simp) ?_ (by rw [hq]; exact hqf) ?_, (ownDist_rule hnt q).symm⟩
            · intro c hc
              obtain ⟨x, hx, rfl⟩ := List.mem_map.mp hc
              rw [htest x (by rw [g1]; simp [hx])]
              simpa using g2 x hx
            · cases hv : ruleValue T q with
              | f => exact absurd hv hqf
              | u => exact .inl ⟨rfl, _, .here, hq.trans hv⟩
              | t => exact .stop (hq.trans hv) (by rw [ruleNode_nodes]; simp)
      obtain ⟨v, r, r', k1, k2, k3⟩ := key
      rcases k1 with ⟨hv, hu⟩ | ⟨hv, hft, hall⟩ <;> rcases k2 with ⟨hv', hu'⟩ | ⟨hv', hft', hall'⟩
      · rcases ha with ⟨hc, -⟩ | ⟨-, -, rfl⟩ | ⟨-, hc, -⟩
        · exact absurd hc hf
        · rcases ha' with ⟨hc, -⟩ | ⟨-, -, rfl⟩ | ⟨-, hc, -⟩
          · exact absurd hc hf
          · rfl
          · obtain ⟨w, hw, hu'⟩ := hu'; exact absurd hu' (hc w hw)
        · obtain ⟨w, hw, hu⟩ := hu; exact absurd hu (hc w hw)
      · rw [hv] at hv'; cases hv'
      · rw [hv] at hv'; cases hv'
      · rcases ha with ⟨hc, -⟩ | ⟨-, ⟨w, hw, hu⟩, -⟩ | ⟨-, -, x, hx, rfl⟩
        · exact absurd hc hf
        · exact absurd hu (hall w hw)
        · rcases ha' with ⟨hc, -⟩ | ⟨-, ⟨w, hw, hu⟩, -⟩ | ⟨-, -, x', hx', rfl⟩
          · exact absurd hc hf
          · exact absurd hu (hall' w hw)
          · rw [firstTrue_unique hx hft, firstTrue_unique hx' hft', k3]
  | lastPrediction => rw [hst] at hs; simp [goesDown] at hs
  | defaultChild => rw [hst] at hs; simp [goesDown] at hs
  | weightedConfidence => rw [hst] at hs; simp [goesDown] at hs
  | aggregateNodes => rw [hst] at hs; simp [goesDown] at hs

variable [Trans F]

theorem tree_flat {d d' : TreeDoc F} (td : TD F) {m : EModel F} {td' : TD F}
    (h : FlatTree d d') (hm : newModel dd (.tree d) td = (.ok m, td')) :
    ∃ m', newModel dd (.tree d') td = (.ok m', td') ∧ SameAlways m m' := by
  rcases h with rfl | ⟨hs, hnt, hp, rfl⟩
  · exact ⟨m, hm, fun _ _ _ => ⟨rfl, rfl⟩⟩
  have hp : AllPreds d.node := fun n hn => Option.isSome_iff_exists.mp (everyNode_sub _ hp hn)
  rw [newModel] at hm
  rcases hnt' : newTreeModel dd td d with ⟨_ | t, td''⟩
  · rw [hnt'] at hm; simp at hm
  rw [hnt'] at hm
  simp only [Prod.mk.injEq, Except.ok.injEq] at hm
  obtain ⟨rfl, rfl⟩ := hm
  obtain ⟨t', ht'⟩ := flat_accepted hnt'
  refine ⟨.tree t', by rw [newModel, ht'], fun o _ row => ?_⟩
  simp only [EModel.evaluate]
  obtain ⟨-, -, hv, hcm, hk, hmod, -⟩ := newTreeModel_ok hnt'
  obtain ⟨-, -, hv2, hcm2, hk2, hmod2, -⟩ := newTreeModel_ok ht'
  obtain ⟨a1, a2, -⟩ := evaluate_eq hv hcm (by rw [hk]; exact keysOk_empty) o row
  obtain ⟨b1, b2, -⟩ := evaluate_eq hv2 hcm2 (by rw [hk2]; exact keysOk_empty) o row
  refine ⟨?_, by rw [a1, b1, hmod, hmod2]⟩
  rcases hi : handleInput d.localTransformations row with ⟨_ | ⟨⟨⟩⟩, row'⟩
  · rw [a2, b2, hmod, hmod2]
    simp only [hi]
  · exact flat_same hnt' hp hs hnt ht' hi o

/-- **C96**: in an accepted document trees may be replaced by trees of one level that list their rules: the document
is still accepted and gives the same answers, on every row and in ensembles of any depth. (For trees with the default
strategy or nullPrediction, without returnNullPrediction for nodes without a true child.) -/
theorem C96_flattened {dd : List DataField} {e e' : ModelElem F} (h : DocRel FlatTree e e') (td : TD F)
    {m : EModel F} {td' : TD F} (hm : newModel dd e td = (.ok m, td')) :
    ∃ m', newModel dd e' td = (.ok m', td') ∧
      ∀ o row, (EModel.evaluate o m' row).res = (EModel.evaluate o m row).res ∧
        (EModel.evaluate o m' row).row = (EModel.evaluate o m row).row := by
  obtain ⟨m', h1, h2⟩ := docRel_newModel (fun td _ _ h hm => tree_flat td h hm) e td h hm
  exact ⟨m', h1, fun o row => ⟨(h2 o trivial row).1.symm, (h2 o trivial row).2.symm⟩⟩


section
open Samples Replay

/-- The golf tree as a list. -/
abbrev flatDoc (s : MissingValueStrategy) (n : N) : TreeDoc F64 := { doc s "1" n with node := flatten n }

-- C96: the golf tree has nine nodes, hence nine rules; flattened, eight leaves hang below the root. The two forms are
-- related, and agree on rows that end in a leaf, in an inner node, and with unknown tests.
example :
    let d (s : MissingValueStrategy) := doc s "1" golfNormal
    let sunny : List (String × GoVal F64) := [("outlook", .str "sunny")]
    let full : List (String × GoVal F64) :=
      [("temperature", .int .int 75), ("humidity", .int .int 85), ("outlook", .str "sunny")]
    (rules [] golfNormal).length = 9 ∧ (flatten golfNormal).nodes.length = 8 ∧
    everyNode (fun n => n.pred.isSome) golfNormal = true ∧
    (newModel Replay.dd (.tree (d .none)) []).1.isOk ∧
    lookup (run (d .none) full) "whatIdo" = some (.str "no play") ∧
    run (flatDoc .none golfNormal) full = run (d .none) full ∧
    run (flatDoc .none golfNormal) sunny = run (d .none) sunny ∧
    (run (d .none) sunny).isOk ∧
    run (flatDoc .nullPrediction golfNormal) full = run (d .nullPrediction) full ∧
    run (flatDoc .nullPrediction golfNormal) sunny = run (d .nullPrediction) sunny ∧
    run (d .nullPrediction) sunny ≠ run (d .none) sunny := by
  decide +kernel

example (s : MissingValueStrategy) (hs : goesDown s = true) :
    DocRel FlatTree (.mining (head .sum) [seg (.tree (doc s "1" golfNormal))])
      (.mining (head .sum) [seg (.tree (flatDoc s golfNormal))]) := by
  refine .mining (.cons (.cons (.tree (.inr ⟨hs, by simp [doc], ?_, rfl⟩)) .nil) .nil)
  show everyNode (fun n => n.pred.isSome) golfNormal = true
  decide +kernel

-- The hypotheses are needed: a flattened tree with another strategy, or with returnNullPrediction, answers otherwise.
example :
    let sunny : List (String × GoVal F64) := [("outlook", .str "sunny")]
    let cold : List (String × GoVal F64) := [("outlook", .str "rain"), ("humidity", .int .int 90)]
    let nullDoc : TreeDoc F64 := { doc .none "1" golfNormal with noTrueChildStrategy := .returnNullPrediction }
    run (flatDoc .lastPrediction golfCounts) sunny ≠ run (doc .lastPrediction "1" golfCounts) sunny ∧
    run (flatDoc .defaultChild golfCounts) [] ≠ run (doc .defaultChild "1" golfCounts) [] ∧
    run { nullDoc with node := flatten golfNormal } cold ≠ run nullDoc cold := by
  refine ⟨?_, ?_, ?_⟩
  · decide +kernel
  · decide +kernel
  · decide +kernel

end

end Gopmml.Props
