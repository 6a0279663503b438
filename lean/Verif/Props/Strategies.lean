import Verif.Props.Construction
import Verif.Proofs.Induct

/-!
# Properties C12–C15: descent under the first four missing-value strategies
-/

namespace Gopmml.Props
open Gopmml Spec

variable {F : Type} [Arith F] [Lib F] {dd : List DataField} {td td' : TD F} {d : TreeDoc F}
  {m : TreeModel F} {row row' : Row F}

/-- **C12**: with the default strategy the answering node is the end of the path of first
true children; there is no prediction exactly when the root's test is not true. -/
theorem C12_first_true_child (h : newTreeModel dd td d = (.ok m, td')) (hp : AllPreds d.node)
    (hs : d.missingValueStrategy = .none ∨ ∃ s, d.missingValueStrategy = .other s)
    (hi : handleInput d.localTransformations row = (.ok (), row')) (o : MapOrd) :
    (nodeTest (treeTypes dd td d) row' d.node ≠ .t ↔ (m.evaluate o row).res = .ok none) ∧
    (nodeTest (treeTypes dd td d) row' d.node = .t →
      ∃ r, FirstTrue (nodeTest (treeTypes dd td d) row') d.node r ∧
        (∀ s, FirstTrue (nodeTest (treeTypes dd td d) row') d.node s → s = r) ∧
        (m.evaluate o row).res =
          report d.functionName (targetOf d.miningFields) (ownDist dd d r, .t)) := by
  have hn := (newTreeModel_ok h).2.2.2.2.2.2.2.2
  have he := constructed_evaluate h hi o
  have hev : evalNode (docCtx dd td d) o row' m.root = evalNone (docCtx dd td d) row' m.root := by
    rcases hs with hs | ⟨s, hs⟩ <;> simp [evalNode, docCtx, hs]
  rw [hev] at he
  have hsp := evalNone_spec row' d.node hn hp
  have h2 : nodeTest (treeTypes dd td d) row' d.node = .t →
      ∃ r, FirstTrue (nodeTest (treeTypes dd td d) row') d.node r ∧
        (∀ s, FirstTrue (nodeTest (treeTypes dd td d) row') d.node s → s = r) ∧
        (m.evaluate o row).res =
          report d.functionName (targetOf d.miningFields) (ownDist dd d r, .t) := by
    intro hT
    obtain ⟨r, hr, hres⟩ := hsp.2 hT
    rw [hres] at he
    exact ⟨r, hr, fun s hs => firstTrue_unique hs hr, he⟩
  refine ⟨⟨?_, ?_⟩, h2⟩
  · intro hT
    rw [hsp.1 hT] at he
    rw [he]; simp [report]
  · intro hno hT
    obtain ⟨r, -, -, hres⟩ := h2 hT
    exact report_ne_none (hres ▸ hno)

-- C12's hypotheses: the golf tree, a row, the default strategy; it predicts "may play".
example :
    Replay.lookup (Replay.run (Replay.doc .none "1" Replay.golfNormal)
      [("temperature", .f64 (Replay.num "75")), ("humidity", .f64 (Replay.num "55")),
       ("windy", .str "false"), ("outlook", .str "overcast")]) "whatIdo" = some (.str "may play") := by
  decide +kernel

/-- **C13**: with nullPrediction the model predicts iff the root is true and no unknown
test is met while descending through first non-false children; if so, it answers exactly
like the default strategy; otherwise it returns no row and no error. -/
theorem C13_null_prediction (h : newTreeModel dd td d = (.ok m, td')) (hp : AllPreds d.node)
    (hs : d.missingValueStrategy = .nullPrediction)
    (hi : handleInput d.localTransformations row = (.ok (), row')) (o : MapOrd) :
    let T := nodeTest (treeTypes dd td d) row'
    ((∃ r, Visits T r d.node ∧ T r = .u) → (m.evaluate o row).res = .ok none) ∧
    (T d.node = .f → (m.evaluate o row).res = .ok none) ∧
    ((∀ r, Visits T r d.node → T r ≠ .u) → T d.node ≠ .f →
      (m.evaluate o row).res ≠ .ok none ∧
      ∃ m₀ td₀, newTreeModel dd td { d with missingValueStrategy := .none } = (.ok m₀, td₀) ∧
        (m.evaluate o row).res = (m₀.evaluate o row).res) := by
  intro T
  have hn := (newTreeModel_ok h).2.2.2.2.2.2.2.2
  have he := constructed_evaluate h hi o
  have hev : evalNode (docCtx dd td d) o row' m.root = evalNull (docCtx dd td d) row' m.root := by
    simp [evalNode, docCtx, hs]
  rw [hev] at he
  have hsp := evalNull_spec row' d.node hn hp
  have hno : (∃ a, evalNull (docCtx dd td d) row' m.root = .ok ([], a) ∧ a ≠ .t) →
      (m.evaluate o row).res = .ok none := by
    rintro ⟨a, ha, hat⟩
    rw [ha] at he; rw [he]; simp [report, hat]
  refine ⟨?_, ?_, ?_⟩
  · rintro ⟨r, hv, hr⟩
    by_cases hT : T d.node = .f
    · exact hno ⟨_, hsp.1 hT, by simp⟩
    · rcases hsp.2 hT with ⟨-, hu⟩ | ⟨hall, -⟩
      · exact hno ⟨_, hu, by simp⟩
      · exact absurd hr (hall r hv)
  · intro hT
    exact hno ⟨_, hsp.1 hT, by simp⟩
  · intro hall hT
    rcases hsp.2 hT with ⟨⟨r, hv, hr⟩, -⟩ | ⟨-, r, hr, hres⟩
    · exact absurd hr (hall r hv)
    · rw [hres] at he
      have hTt : T d.node = .t := by
        have := hall d.node .here
        cases hh : T d.node <;> simp_all
      have hacc : ∃ m₀ td₀, newTreeModel dd td { d with missingValueStrategy := .none } = (.ok m₀, td₀) :=
        (C08_construction dd td _).1.mpr ((C08_construction dd td d).1.mp ⟨m, td', h⟩)
      obtain ⟨m₀, td₀, h₀⟩ := hacc
      obtain ⟨s, hs', -, hres'⟩ := (C12_first_true_child h₀ hp (.inl rfl) hi o).2 hTt
      have hsr : s = r := firstTrue_unique hs' hr
      subst hsr
      exact ⟨by rw [he]; exact report_ne_none, m₀, td₀, h₀, by rw [he, hres']; rfl⟩

-- C13: with humidity and temperature missing the descent meets an unknown: no prediction.
example : Replay.run (Replay.doc .nullPrediction "1" Replay.golfCounts) [("outlook", .str "sunny")]
    matches .ok none := by decide +kernel
example : Replay.lookup (Replay.run (Replay.doc .nullPrediction "1" Replay.golfCounts)
    [("outlook", .str "rain")]) "whatIdo" = some (.str "may play") := by decide +kernel

/-- **C14**, the answer of a lastPrediction tree is `lastAns` of its root. -/
theorem C14_last_prediction (h : newTreeModel dd td d = (.ok m, td')) (hp : AllPreds d.node)
    (hs : d.missingValueStrategy = .lastPrediction)
    (hi : handleInput d.localTransformations row = (.ok (), row')) (o : MapOrd) :
    (m.evaluate o row).res = report d.functionName (targetOf d.miningFields)
      (lastAns (nodeTest (treeTypes dd td d) row') (ownDist dd d) d.node) := by
  have hn := (newTreeModel_ok h).2.2.2.2.2.2.2.2
  have he := constructed_evaluate h hi o
  have hev : evalNode (docCtx dd td d) o row' m.root = evalLast (docCtx dd td d) row' m.root := by
    simp [evalNode, docCtx, hs]
  rw [hev, evalLast_spec row' d.node hn hp] at he
  exact he

section
omit [Arith F] [Lib F]

theorem lastAnss_map (T : Node F → PredRes) (own : Node F → List (ScoreDist F)) (ns : List (Node F)) :
    lastAns.lastAnss T own ns = ns.map (lastAns T own) := by
  induction ns with
  | nil => rfl
  | cons n ns ih => simp [lastAns.lastAnss, ih]

theorem lastAns_eq (T : Node F → PredRes) (own : Node F → List (ScoreDist F)) (n : Node F) :
    lastAns T own n =
      if T n = .f then ([], .f)
      else if (∀ a ∈ n.nodes.map (lastAns T own), a.2 ≠ .u) ∧ lastTrue (n.nodes.map (lastAns T own)) ≠ []
      then (lastTrue (n.nodes.map (lastAns T own)), .t)
      else (own n, T n) := by
  obtain ⟨id, dc, score, rc, dists, nodes, pred⟩ := n
  rw [lastAns, lastAnss_map]
  rfl

theorem lastTrue_eq {as pre post : List (Ans F)} {a : Ans F} (h : as = pre ++ a :: post)
    (ha : a.2 = .t) (hpost : ∀ b ∈ post, b.2 ≠ .t) : lastTrue as = a.1 := by
  subst h
  unfold lastTrue
  have : post.filter (fun a => decide (a.2 = .t)) = [] := by
    simpa [List.filter_eq_nil_iff] using hpost
  simp [List.filter_append, ha, this]

theorem lastTrue_nil {as : List (Ans F)} (h : ∀ a ∈ as, a.2 ≠ .t) : lastTrue as = [] := by
  unfold lastTrue
  have : as.filter (fun a => decide (a.2 = .t)) = [] := by
    simpa [List.filter_eq_nil_iff] using h
  simp [this]

theorem lastTrue_mem {as : List (Ans F)} (h : lastTrue as ≠ []) :
    ∃ a ∈ as, a.2 = .t ∧ lastTrue as = a.1 := by
  unfold lastTrue at *
  cases hl : (as.filter (fun a => decide (a.2 = .t))).getLast? with
  | none => simp [hl] at h
  | some a =>
    have := List.mem_of_getLast? hl
    simp only [List.mem_filter, decide_eq_true_eq] at this
    exact ⟨a, this.1, this.2, by simp⟩

/-- **C14**, the rules of `lastAns`: a false node has no answer; a node with an unknown
child answer answers with its own distribution; else the last true child answers, if its
answer is not empty; with no true child, or an empty answer, the node itself answers. -/
theorem C14_rules (T : Node F → PredRes) (own : Node F → List (ScoreDist F)) (n : Node F) :
    (T n = .f → lastAns T own n = ([], .f)) ∧
    (T n ≠ .f → (∃ c ∈ n.nodes, (lastAns T own c).2 = .u) → lastAns T own n = (own n, T n)) ∧
    (T n ≠ .f → (∀ c ∈ n.nodes, (lastAns T own c).2 ≠ .u) →
      (∀ c ∈ n.nodes, (lastAns T own c).2 ≠ .t) → lastAns T own n = (own n, T n)) ∧
    (∀ pre c post, T n ≠ .f → (∀ c ∈ n.nodes, (lastAns T own c).2 ≠ .u) →
      n.nodes = pre ++ c :: post → (lastAns T own c).2 = .t →
      (∀ e ∈ post, (lastAns T own e).2 ≠ .t) →
      lastAns T own n = if (lastAns T own c).1 = [] then (own n, T n) else ((lastAns T own c).1, .t)) := by
  refine ⟨?_, ?_, ?_, ?_⟩
  · intro h; rw [lastAns_eq]; simp [h]
  · rintro h ⟨c, hc, hu⟩
    rw [lastAns_eq, if_neg h, if_neg]
    rintro ⟨h1, -⟩
    exact h1 _ (List.mem_map_of_mem hc) hu
  · intro h _ ht
    rw [lastAns_eq, if_neg h, if_neg]
    rintro ⟨-, h2⟩
    exact h2 (lastTrue_nil (by simpa using ht))
  · intro pre c post h hu hn hc hpost
    have hlt : lastTrue (n.nodes.map (lastAns T own)) = (lastAns T own c).1 :=
      lastTrue_eq (pre := pre.map (lastAns T own)) (post := post.map (lastAns T own))
        (by rw [hn]; simp) hc (by simpa using hpost)
    rw [lastAns_eq, if_neg h, hlt]
    by_cases hnil : (lastAns T own c).1 = []
    · simp [hnil]
    · simp only [hnil, ne_eq, not_false_eq_true, and_true, if_false]
      rw [if_pos (by simpa using hu)]

theorem sub_mk_cases {n r : Node F} (h : Sub r n) : r = n ∨ ∃ c ∈ n.nodes, Sub r c := by
  cases h with
  | refl => exact .inl rfl
  | child hc hr => exact .inr ⟨_, hc, hr⟩

/-- **C14**: every answer that holds is the own distribution of some node of the tree whose
test is not false. -/
theorem C14_answer_is_a_nodes_own (T : Node F → PredRes) (own : Node F → List (ScoreDist F))
    (n : Node F) : (lastAns T own n).2 ≠ .f →
    ∃ r, Sub r n ∧ T r ≠ .f ∧ (lastAns T own n).1 = own r := by
  induction n using Node.ind with
  | h n ih =>
    intro h
    rw [lastAns_eq] at h ⊢
    split_ifs at h ⊢ with h1 h2
    · simp at h
    · obtain ⟨a, ha, hat, he⟩ := lastTrue_mem h2.2
      simp only [List.mem_map] at ha
      obtain ⟨c, hc, rfl⟩ := ha
      obtain ⟨r, hr, hT, hd⟩ := ih c hc (by rw [hat]; simp)
      exact ⟨r, .child hc hr, hT, by simp only [he, hd]⟩
    · exact ⟨_, .refl, h1, rfl⟩
end

-- C14: both children of node 2 unknown: node 2 answers.
example : Replay.lookup (Replay.run (Replay.doc .lastPrediction "1" Replay.golfCounts)
    [("outlook", .str "sunny")]) "probability(will play)" = some (.f64 (Replay.num "0.8")) := by
  decide +kernel

/-- **C15**, the answer of a defaultChild tree is `defaultAns` of its root. -/
theorem C15_default_child (h : newTreeModel dd td d = (.ok m, td')) (hp : AllPreds d.node)
    (hs : d.missingValueStrategy = .defaultChild)
    (hi : handleInput d.localTransformations row = (.ok (), row')) (o : MapOrd) :
    (m.evaluate o row).res = report d.functionName (targetOf d.miningFields)
      (defaultAns d.missingValuePenalty (nodeTest (treeTypes dd td d) row') (ownDist dd d) d.node) := by
  have hn := (newTreeModel_ok h).2.2.2.2.2.2.2.2
  have he := constructed_evaluate h hi o
  have hev : evalNode (docCtx dd td d) o row' m.root = evalDefault (docCtx dd td d) row' m.root := by
    simp [evalNode, docCtx, hs]
  rw [hev, evalDefault_spec row' d.node hn hp] at he
  exact he

section
omit [Lib F]

theorem defaultAnss_map (pen : F) (T : Node F → PredRes) (own : Node F → List (ScoreDist F))
    (ns : List (Node F)) :
    defaultAns.defaultAnss pen T own ns = ns.map (defaultAns pen T own) := by
  induction ns with
  | nil => rfl
  | cons n ns ih => simp [defaultAns.defaultAnss, ih]

theorem defaultAns_eq (pen : F) (T : Node F → PredRes) (own : Node F → List (ScoreDist F)) (n : Node F) :
    defaultAns pen T own n =
      if T n = .f then ([], .f)
      else if ∃ a ∈ n.nodes.map (defaultAns pen T own), a.2 = .u then
        match answerOf n.defaultChild n.nodes (n.nodes.map (defaultAns pen T own)) with
        | none => ([], .u)
        | some a => (a.1.map fun s => ⟨s.value, Arith.mul s.confidence pen,
            Arith.mul s.probability pen, s.recordCount⟩, .t)
      else if lastTrue (n.nodes.map (defaultAns pen T own)) ≠ [] then
        (lastTrue (n.nodes.map (defaultAns pen T own)), .t)
      else (own n, T n) := by
  obtain ⟨id, dc, score, rc, dists, nodes, pred⟩ := n
  rw [defaultAns, defaultAnss_map]
  rfl

omit [Arith F] in
theorem answerOf_map {dc : String} {ns : List (Node F)} (f : Node F → Ans F) :
    answerOf dc ns (ns.map f) = ((ns.filter (fun n => n.id = dc)).getLast?).map f := by
  unfold answerOf
  have : ns.zip (ns.map f) = ns.map (fun n => (n, f n)) := by
    induction ns with
    | nil => rfl
    | cons n ns ih => simp [ih]
  rw [this, filter_map_getLast?]
  simp [Function.comp_def]

/-- **C15**, the rules of `defaultAns`: with an unknown child, the answer is the default
child's, all confidences and probabilities multiplied by the penalty, everything else
unchanged; there is no answer if no child has the id; with no unknown child it is as for
lastPrediction. -/
theorem C15_rules (pen : F) (T : Node F → PredRes) (own : Node F → List (ScoreDist F)) (n : Node F)
    (hT : T n ≠ .f) :
    ((∃ c ∈ n.nodes, (defaultAns pen T own c).2 = .u) →
      (∀ c ∈ n.nodes, c.id ≠ n.defaultChild) → defaultAns pen T own n = ([], .u)) ∧
    ((∃ c ∈ n.nodes, (defaultAns pen T own c).2 = .u) →
      ∀ pre c post, n.nodes = pre ++ c :: post → c.id = n.defaultChild →
        (∀ e ∈ post, e.id ≠ n.defaultChild) →
        defaultAns pen T own n = ((defaultAns pen T own c).1.map (fun s =>
          ⟨s.value, Arith.mul s.confidence pen, Arith.mul s.probability pen, s.recordCount⟩), .t)) ∧
    ((∀ c ∈ n.nodes, (defaultAns pen T own c).2 ≠ .u) →
      (∀ c ∈ n.nodes, (defaultAns pen T own c).2 ≠ .t) → defaultAns pen T own n = (own n, T n)) ∧
    (∀ pre c post, (∀ c ∈ n.nodes, (defaultAns pen T own c).2 ≠ .u) →
      n.nodes = pre ++ c :: post → (defaultAns pen T own c).2 = .t →
      (∀ e ∈ post, (defaultAns pen T own e).2 ≠ .t) →
      defaultAns pen T own n =
        if (defaultAns pen T own c).1 = [] then (own n, T n) else ((defaultAns pen T own c).1, .t)) := by
  have hmem : (∃ c ∈ n.nodes, (defaultAns pen T own c).2 = .u) →
      ∃ a ∈ n.nodes.map (defaultAns pen T own), a.2 = .u := by
    rintro ⟨c, hc, hu⟩; exact ⟨_, List.mem_map_of_mem hc, hu⟩
  have hnmem : (∀ c ∈ n.nodes, (defaultAns pen T own c).2 ≠ .u) →
      ¬ ∃ a ∈ n.nodes.map (defaultAns pen T own), a.2 = .u := by
    intro h; simpa using h
  refine ⟨?_, ?_, ?_, ?_⟩
  · intro hu hid
    rw [defaultAns_eq, if_neg hT, if_pos (hmem hu), answerOf_map]
    have : n.nodes.filter (fun e => decide (e.id = n.defaultChild)) = [] := by
      simpa [List.filter_eq_nil_iff] using hid
    simp [this]
  · intro hu pre c post hn hid hpost
    rw [defaultAns_eq, if_neg hT, if_pos (hmem hu), answerOf_map]
    have : (n.nodes.filter (fun e => decide (e.id = n.defaultChild))).getLast? = some c := by
      have hp : post.filter (fun e => decide (e.id = n.defaultChild)) = [] := by
        simpa [List.filter_eq_nil_iff] using hpost
      rw [hn, List.filter_append, List.filter_cons, hp]
      simp [hid]
    simp [this]
  · intro hu ht
    rw [defaultAns_eq, if_neg hT, if_neg (hnmem hu), lastTrue_nil (by simpa using ht)]
    simp
  · intro pre c post hu hn hc hpost
    have hlt : lastTrue (n.nodes.map (defaultAns pen T own)) = (defaultAns pen T own c).1 :=
      lastTrue_eq (pre := pre.map (defaultAns pen T own)) (post := post.map (defaultAns pen T own))
        (by rw [hn]; simp) hc (by simpa using hpost)
    rw [defaultAns_eq, if_neg hT, if_neg (hnmem hu), hlt]
    by_cases hnil : (defaultAns pen T own c).1 = [] <;> simp [hnil]
end

-- C15: the repository's own example: 0.8 · 0.6 at two levels of default children.
example : Replay.lookup (Replay.run (Replay.doc .defaultChild "0.8" Replay.golfCounts)
    [("temperature", .f64 (Replay.num "40")), ("humidity", .f64 (Replay.num "70"))])
      "probability(no play)" = some (.f64 (Replay.num "0.48")) := by decide +kernel

end Gopmml.Props
