import Verif.Proofs.Answer
import Verif.Proofs.Best
import Verif.Props.Mixing

/-!
# Properties C20–C24: what trees report
-/

namespace Gopmml.Props
open Gopmml Spec

variable {F : Type} [Arith F] [Lib F] {dd : List DataField} {td td' : TD F} {d : TreeDoc F}
  {m : TreeModel F} {row row' : Row F}

/-- A classification prediction is the row of an answer that holds. -/
theorem classification_row (h : newTreeModel dd td d = (.ok m, td')) (hp : AllPreds d.node)
    (hf : d.functionName = .classification)
    (hi : handleInput d.localTransformations row = (.ok (), row')) {o : MapOrd} {out : GoMap (GoVal F)}
    (he : (m.evaluate o row).res = .ok (some out)) :
    ∃ dist, NodeAns dd d (nodeTest (treeTypes dd td d) row') d.node (dist, .t) ∧
      out = classRow (targetOf d.miningFields) (pickBest dist).value dist := by
  obtain ⟨⟨dist, r⟩, ha, hr⟩ := evaluate_answer h hp hi o
  rw [hr] at he
  unfold report at he
  rw [hf] at he
  by_cases ht : r = .t
  · subst ht
    simp only [ne_eq, not_true_eq_false, if_false, Except.ok.injEq, Option.some.injEq] at he
    exact ⟨dist, ha, he.symm⟩
  · simp [ht] at he

/-- **C20**: the label under the target field is that of the first entry of the answering
distribution with the greatest positive probability, or the empty label if there is no
positive probability.  For every number type with the order laws `LtLaws`; float64 has them
(`ltLaws_F64`). -/
theorem C20_argmax (hl : LtLaws F) (h : newTreeModel dd td d = (.ok m, td')) (hp : AllPreds d.node)
    (hf : d.functionName = .classification)
    (hi : handleInput d.localTransformations row = (.ok (), row')) {o : MapOrd} {out : GoMap (GoVal F)}
    (he : (m.evaluate o row).res = .ok (some out)) :
    ∃ dist label, NodeAns dd d (nodeTest (treeTypes dd td d) row') d.node (dist, .t) ∧
      out = classRow (targetOf d.miningFields) label dist ∧
      ((∃ s, IsBest dist s ∧ label = s.value) ∨
        ((∀ s ∈ dist, Arith.lt Arith.zero s.probability = false) ∧ label = "")) := by
  obtain ⟨dist, ha, hout⟩ := classification_row h hp hf hi he
  refine ⟨dist, _, ha, hout, ?_⟩
  rcases pickBest_spec hl dist with ⟨h1, h2⟩ | h1
  · exact .inr ⟨h2, h1⟩
  · exact .inl ⟨_, h1, rfl⟩

omit [Lib F] in
/-- **C20**: nothing in the distribution exceeds the best entry. -/
theorem C20_best_is_maximal (hl : LtLaws F) (hirr : ∀ x : F, Arith.lt x x = false)
    {dist : List (ScoreDist F)} {b : ScoreDist F} (h : IsBest dist b) :
    ∀ s ∈ dist, Arith.lt b.probability s.probability = false := by
  obtain ⟨pre, post, rfl, hb, hpre, hpost⟩ := h
  intro s hs
  rcases List.mem_append.mp hs with hs | hs
  · by_contra hlt
    have hlt : Arith.lt b.probability s.probability = true := by simpa using hlt
    rcases hpre s hs with h | h
    · have := hl.trans hlt h
      rw [hirr] at this; simp at this
    · have := hl.trans hb hlt
      rw [h] at this; simp at this
  · rcases List.mem_cons.mp hs with rfl | hs
    · exact hirr _
    · exact hpost s hs

/-- **C20** in float64: no reported probability exceeds the reported label's. -/
theorem C20_float64 {dist : List (ScoreDist F64)} {b : ScoreDist F64} (h : IsBest dist b) :
    ∀ s ∈ dist, Arith.lt b.probability s.probability = false := by
  refine C20_best_is_maximal ltLaws_F64 ?_ h
  intro x
  by_cases hx : x = .nan
  · subst hx; exact F64.lt_nan_left _
  · by_contra hc
    have : F64.lt x x = true := by rw [← F64.arith_lt]; simpa using hc
    rw [F64.lt_iff hx hx] at this
    exact lt_irrefl _ this

-- C20: three labels, 0.4 / 0.56 / 0.04.
example : Replay.lookup (Replay.run (Replay.doc .none "1" Replay.golfCounts)
    [("outlook", .str "rain")]) "whatIdo" = some (.str "may play") := by decide +kernel

/-- **C21**: the reported row has exactly the target field and one probability per label of the
answering distribution; `probability(L)` holds the probability of the last entry for `L`; the
target holds a string. -/
theorem C21_output_keys (h : newTreeModel dd td d = (.ok m, td')) (hp : AllPreds d.node)
    (hf : d.functionName = .classification)
    (hi : handleInput d.localTransformations row = (.ok (), row')) {o : MapOrd} {out : GoMap (GoVal F)}
    (he : (m.evaluate o row).res = .ok (some out)) :
    ∃ dist, NodeAns dd d (nodeTest (treeTypes dd td d) row') d.node (dist, .t) ∧
      (∀ k, (∃ v, out[k]? = some v) ↔
        k = targetOf d.miningFields ∨ ∃ s ∈ dist, k = "probability(" ++ s.value ++ ")") ∧
      (∀ pre s post, dist = pre ++ s :: post → (∀ t ∈ post, t.value ≠ s.value) →
        out["probability(" ++ s.value ++ ")"]? = some (.f64 s.probability)) ∧
      ((∀ s ∈ dist, targetOf d.miningFields ≠ "probability(" ++ s.value ++ ")") →
        ∃ label, out[targetOf d.miningFields]? = some (.str label)) := by
  obtain ⟨dist, ha, rfl⟩ := classification_row h hp hf hi he
  refine ⟨dist, ha, ?_, ?_, ?_⟩
  · intro k
    by_cases hk : ∃ s ∈ dist, k = "probability(" ++ s.value ++ ")"
    · obtain ⟨s, hs, rfl⟩ := hk
      refine ⟨fun _ => .inr ⟨s, hs, rfl⟩, fun _ => ?_⟩
      rw [classRow_prob]
      cases hg : (dist.filter (fun t => decide (t.value = s.value))).getLast? with
      | some t => exact ⟨_, rfl⟩
      | none =>
        rw [List.getLast?_eq_none_iff, List.filter_eq_nil_iff] at hg
        exact absurd (by simp) (hg s hs)
    · have hk' : ∀ s ∈ dist, k ≠ "probability(" ++ s.value ++ ")" := fun s hs e => hk ⟨s, hs, e⟩
      rw [classRow_other _ _ _ _ hk']
      constructor
      · rintro ⟨v, hv⟩
        split_ifs at hv with e
        exact .inl e.symm
      · rintro (rfl | h)
        · exact ⟨_, if_pos rfl⟩
        · exact absurd h hk
  · rintro pre s post rfl hpost
    rw [classRow_prob]
    have : post.filter (fun t => decide (t.value = s.value)) = [] := by
      simpa [List.filter_eq_nil_iff] using hpost
    rw [List.filter_append, List.filter_cons, this]
    simp
  · intro hk
    exact ⟨_, by rw [classRow_other _ _ _ _ hk, if_pos rfl]⟩

-- C21: four keys for three labels.
example : (Replay.entries (Replay.run (Replay.doc .none "1" Replay.golfCounts)
    [("outlook", .str "rain")])).map (·.map (·.1)) =
    some ["probability(may play)", "probability(no play)", "probability(will play)", "whatIdo"] := by
  decide +kernel

/-- **C22**: a regression tree answers with the single key "score" holding the float parsed from
the first value of the answering distribution, an error if that does not parse, and no row when
the answer does not hold.  An empty distribution panics. -/
theorem C22_regression (h : newTreeModel dd td d = (.ok m, td')) (hp : AllPreds d.node)
    (hf : d.functionName = .regression)
    (hi : handleInput d.localTransformations row = (.ok (), row')) (o : MapOrd) :
    ∃ a, NodeAns dd d (nodeTest (treeTypes dd td d) row') d.node a ∧
      (a.2 ≠ .t → (m.evaluate o row).res = .ok none) ∧
      (∀ s l x, a = (s :: l, .t) → Lib.parseFloat s.value = some x →
        ∃ out, (m.evaluate o row).res = .ok (some out) ∧
          ∀ k, out[k]? = if k = "score" then some (.f64 x) else none) ∧
      (∀ s l, a = (s :: l, .t) → Lib.parseFloat (F := F) s.value = none →
        (m.evaluate o row).res = fail (.parse s.value)) ∧
      (a = ([], .t) → (m.evaluate o row).res = panic .indexOutOfRange) := by
  obtain ⟨a, ha, hr⟩ := evaluate_answer h hp hi o
  rw [hf] at hr
  refine ⟨a, ha, ?_, ?_, ?_, ?_⟩
  · intro ht; rw [hr]; simp [report, ht]
  · rintro s l x rfl hx
    refine ⟨_, by rw [hr]; simp only [report, hx]; simp; rfl, ?_⟩
    intro k
    rw [GoMap.getElem?_insert]
    by_cases hk : k = "score"
    · simp [hk]
    · simp [hk, Ne.symm hk]
  · rintro s l rfl hx
    rw [hr]; simp [report, hx]
  · rintro rfl
    rw [hr]; simp [report]

/-- **C22** is not "always a score or an error": with a declared target that has no listed
values (a continuous target) and no score distribution at the answering node, Evaluate panics. -/
theorem C22_continuous_target_panics (h : newTreeModel dd td d = (.ok m, td')) (hp : AllPreds d.node)
    (hf : d.functionName = .regression)
    (hs : d.missingValueStrategy = .none ∨ ∃ s, d.missingValueStrategy = .other s)
    (hi : handleInput d.localTransformations row = (.ok (), row')) (o : MapOrd)
    (ht : targetOf d.miningFields ≠ "") (hv : targetValues dd (targetOf d.miningFields) = [])
    {r : Node F} (hT : nodeTest (treeTypes dd td d) row' d.node = .t)
    (hr : FirstTrue (nodeTest (treeTypes dd td d) row') d.node r) (hd : r.dists = []) :
    (m.evaluate o row).res = panic .indexOutOfRange := by
  obtain ⟨s, hs', -, he⟩ := (C12_first_true_child h hp hs hi o).2 hT
  rw [firstTrue_unique hs' hr] at he
  rw [he, hf]
  have : ownDist dd d r = [] := by
    unfold ownDist
    split_ifs <;> simp_all [oneHot]
  simp [report, this]

/-- A regression stump: `y` is continuous, the leaves only have scores. -/
def stump (tgt : List MiningField) : TreeDoc F64 :=
  { Replay.doc .none "1" (.mk "" "" "0" (Replay.num "0") [] [
      .mk "" "" "1.5" (Replay.num "0") [] [] (some (Replay.sp "temperature" .lessThan "50")),
      .mk "" "" "2.5" (Replay.num "0") [] [] (some (Replay.sp "temperature" .greaterOrEqual "50"))]
      (some .true_)) with functionName := .regression, miningFields := tgt }

-- C22's panic is reached by an ordinary regression tree; without the target field it answers.
example : Replay.run (stump [⟨"humidity", .target, "", "", none⟩])
    [("temperature", .f64 (Replay.num "20"))] matches .error (.panic .indexOutOfRange) := by
  decide +kernel
example : Replay.lookup (Replay.run (stump []) [("temperature", .f64 (Replay.num "20"))]) "score" =
    some (.f64 (Replay.num "1.5")) := by decide +kernel

/-- The labels written in a tree document. -/
def DocLabel (dd : List DataField) (d : TreeDoc F) (L : String) : Prop :=
  L ∈ targetValues dd (targetOf d.miningFields) ∨
  ∃ r, Sub r d.node ∧ (L = r.score ∨ ∃ s ∈ r.dists, L = s.value)

omit [Lib F] in
theorem declaredDist_labels {dists : List (ScoreDistribution F)} {s : ScoreDist F}
    (h : s ∈ declaredDist dists) : ∃ t ∈ dists, s.value = t.value := by
  unfold declaredDist at h
  obtain ⟨t, ht, rfl⟩ := List.mem_map.mp h
  exact ⟨t, ht, rfl⟩

omit [Lib F] in
theorem ownDist_labels {r : Node F} (hr : Sub r d.node) {s : ScoreDist F} (h : s ∈ ownDist dd d r) :
    DocLabel dd d s.value := by
  unfold ownDist at h
  split_ifs at h with h1 h2 h3
  · simp at h
  · obtain ⟨t, ht, e⟩ := declaredDist_labels h
    exact .inr ⟨r, hr, .inr ⟨t, ht, e⟩⟩
  · obtain ⟨v, hv, rfl⟩ := List.mem_map.mp h
    exact .inl hv
  · simp only [List.mem_singleton] at h
    subst h
    exact .inr ⟨r, hr, .inl rfl⟩

omit [Lib F] in
theorem weightedMix_labels {Q : String → Prop} {l : List (Node F × Ans F)} {dist : List (ScoreDist F)}
    (hl : ∀ p ∈ l, ∀ s ∈ p.2.1, Q s.value) (h : WeightedMix l dist) : ∀ s ∈ dist, Q s.value := by
  obtain ⟨order, -, -, -, hmem, -⟩ := h
  intro s hs
  have := (hmem s.value).mp (List.mem_map_of_mem hs)
  obtain ⟨w, hw, e⟩ := List.mem_map.mp this
  obtain ⟨i, -, hi⟩ := List.mem_flatMap.mp hw
  unfold contributions at hi
  cases hq : withId l i with
  | none => simp [hq] at hi
  | some p =>
    rw [hq] at hi
    obtain ⟨t, ht, rfl⟩ := List.mem_map.mp hi
    have hpm := List.mem_of_getLast? hq
    simp only [List.mem_filter] at hpm
    rw [← e]
    exact hl p hpm.1 t ht

/-- **C23**: every label a classification tree reports is written in the document as a score, a
distribution value or a declared target value; the predicted label may also be empty. -/
theorem C23_no_invented_labels (h : newTreeModel dd td d = (.ok m, td')) (hp : AllPreds d.node)
    (hf : d.functionName = .classification)
    (hi : handleInput d.localTransformations row = (.ok (), row')) {o : MapOrd} {out : GoMap (GoVal F)}
    (he : (m.evaluate o row).res = .ok (some out)) {k : String} {v : GoVal F} (hk : out[k]? = some v) :
    (∃ L, DocLabel dd d L ∧ k = "probability(" ++ L ++ ")") ∨
    (k = targetOf d.miningFields ∧ ∃ L, v = .str L ∧ (L = "" ∨ DocLabel dd d L)) := by
  obtain ⟨dist, ha, rfl⟩ := classification_row h hp hf hi he
  have hlab : ∀ s ∈ dist, DocLabel dd d s.value := by
    refine nodeAns_forall (Q := fun s => DocLabel dd d s.value) (a := (dist, .t)) ?_ ?_ ?_ ?_ ?_ ha
    · exact fun r hr s hs => ownDist_labels hr hs
    · intro _ r hr s hs
      obtain ⟨t, ht, e⟩ := declaredDist_labels hs
      exact .inr ⟨r, hr, .inr ⟨t, ht, e⟩⟩
    · exact fun _ s hs => hs
    · exact fun _ l dist hl hw => weightedMix_labels hl hw
    · rintro _ scores dist hs ⟨-, hmem, -⟩ s hsd
      obtain ⟨t, ht, e⟩ := List.mem_map.mp ((hmem s.value).mp (List.mem_map_of_mem hsd))
      rw [← e]; exact hs t ht
  by_cases hex : ∃ s ∈ dist, k = "probability(" ++ s.value ++ ")"
  · obtain ⟨s, hs, rfl⟩ := hex
    exact .inl ⟨_, hlab s hs, rfl⟩
  · rw [classRow_other _ _ _ _ (fun s hs e => hex ⟨s, hs, e⟩)] at hk
    split_ifs at hk with e
    right
    refine ⟨e.symm, _, (Option.some.inj hk).symm, ?_⟩
    have hbest : ∀ (l : List (ScoreDist F)) (b : ScoreDist F),
        (∀ s ∈ l, DocLabel dd d s.value) → (b.value = "" ∨ DocLabel dd d b.value) →
        ((l.foldl (fun best score =>
          if Arith.lt best.probability score.probability then score else best) b).value = "" ∨
        DocLabel dd d (l.foldl (fun best score =>
          if Arith.lt best.probability score.probability then score else best) b).value) := by
      intro l
      induction l with
      | nil => intro b _ hb; exact hb
      | cons s l ih =>
        intro b hl hb
        rw [List.foldl_cons]
        apply ih _ (fun t ht => hl t (by simp [ht]))
        split_ifs
        · exact .inr (hl s (by simp))
        · exact hb
    exact hbest dist _ hlab (.inl rfl)

section
variable {T : Node F → PredRes} {own : Node F → List (ScoreDist F)}

omit [Arith F] [Lib F] in
theorem clean_firstTrue {n r : Node F} (h : Clean T n r) : FirstTrue T n r := by
  induction h with
  | stop hn => exact .stop (fun c hc => by rw [hn c hc]; simp)
  | step hn hpre _ hc _ ih => exact .step hn (fun e he => by rw [hpre e he]; simp) hc ih

omit [Arith F] [Lib F] in
theorem clean_visits {n r : Node F} (h : Clean T n r) (hT : T n = .t) :
    ∀ s, Visits T s n → T s ≠ .u := by
  induction h with
  | stop hn =>
    intro s hv
    cases hv with
    | here => rw [hT]; simp
    | step _ hn' _ hc _ => exact absurd (hn _ (by simp [hn'])) hc
  | @step n c r pre post hn hpre hpost hc _ ih =>
    intro s hv
    cases hv with
    | here => rw [hT]; simp
    | @step _ c' pre' post' _ hn' hpre' hc' hv' =>
      rw [hn] at hn'
      have := first_unique (P := fun n => T n ≠ .f) hn'
        (fun a ha => by simp [hpre a ha]) (by rw [hc]; simp) (fun a ha => by simp [hpre' a ha]) hc'
      subst this
      exact ih hc s hv'

omit [Arith F] [Lib F] in
/-- Strategies that ask all children agree on clean paths. -/
theorem clean_answer {R : Node F → Ans F → Prop} {null : Prop}
    (hRf : ∀ n a, T n = .f → R n a → a.2 = .f)
    (hRt : ∀ n a, T n = .t → R n a → ∃ as, List.Forall₂ R n.nodes as ∧
      ((∀ a ∈ as, a.2 ≠ .u) →
        (lastTrue as ≠ [] → a = (lastTrue as, .t)) ∧ (lastTrue as = [] → a = (own n, .t))))
    (hnull : null → ∀ n : Node F, n.nodes ≠ [] → own n = [])
    {n r : Node F} (h : Clean T n r) (hT : T n = .t) (hne : own r ≠ [] ∨ null)
    {a : Ans F} (ha : R n a) : a = (own r, .t) := by
  induction h generalizing a with
  | @stop n hn =>
    obtain ⟨as, hall, has⟩ := hRt _ _ hT ha
    have hf : ∀ b ∈ as, b.2 = .f := by
      intro b hb
      obtain ⟨c, hc, hcb⟩ := forall₂_mem_right hall hb
      exact hRf c b (hn c hc) hcb
    exact (has (fun b hb => by rw [hf b hb]; simp)).2 (lastTrue_nil (fun b hb => by rw [hf b hb]; simp))
  | @step n c r pre post hn hpre hpost hc _ ih =>
    obtain ⟨as, hall, has⟩ := hRt _ _ hT ha
    rw [hn] at hall
    obtain ⟨as1, as2, h1, h2, rfl⟩ := forall₂_append_left hall
    obtain ⟨b, as3, hb, h3, rfl⟩ := List.forall₂_cons_left_iff.mp h2
    have hbe := ih hc hne hb
    have hf1 : ∀ b ∈ as1, b.2 = .f := by
      intro b hb
      obtain ⟨e, he, heb⟩ := forall₂_mem_right h1 hb
      exact hRf e b (hpre e he) heb
    have hf3 : ∀ b ∈ as3, b.2 = .f := by
      intro b hb
      obtain ⟨e, he, heb⟩ := forall₂_mem_right h3 hb
      exact hRf e b (hpost e he) heb
    have hu : ∀ x ∈ as1 ++ b :: as3, x.2 ≠ .u := by
      intro x hx
      rcases List.mem_append.mp hx with hx | hx
      · rw [hf1 x hx]; simp
      · rcases List.mem_cons.mp hx with rfl | hx
        · rw [hbe]; simp
        · rw [hf3 x hx]; simp
    have hl : lastTrue (as1 ++ b :: as3) = own r := by
      rw [lastTrue_eq rfl (by rw [hbe]) (fun x hx => by rw [hf3 x hx]; simp), hbe]
    by_cases ho : own r = []
    · have hnl := hne.resolve_left (by simp [ho])
      have := (has hu).2 (by rw [hl, ho])
      rw [this, ho, hnull hnl n (by simp [hn])]
    · have := (has hu).1 (by rw [hl]; exact ho)
      rw [this, hl]

omit [Arith F] [Lib F] in
theorem forall₂_map_eq {f : Node F → Ans F} (ns : List (Node F)) :
    List.Forall₂ (fun n a => a = f n) ns (ns.map f) := by
  induction ns with
  | nil => exact .nil
  | cons n ns ih => exact .cons rfl ih

end

/-- **C24**: on rows where every node met is known and siblings exclude one another, all
missing-value strategies give the same result, in every map order.  (The answering node's own
distribution must not be empty, unless noTrueChildStrategy is returnNullPrediction; see
`C24_empty_distribution_differs`.) -/
theorem C24_strategies_agree (h : newTreeModel dd td d = (.ok m, td')) (hp : AllPreds d.node)
    (hi : handleInput d.localTransformations row = (.ok (), row'))
    (hclean : let T := nodeTest (treeTypes dd td d) row'
      T d.node = .f ∨ (T d.node = .t ∧ ∃ r, Clean T d.node r ∧
        (ownDist dd d r ≠ [] ∨ d.noTrueChildStrategy = .returnNullPrediction)))
    (s : MissingValueStrategy) :
    ∃ m' td'', newTreeModel dd td { d with missingValueStrategy := s } = (.ok m', td'') ∧
      ∀ o o', (m'.evaluate o' row).res = (m.evaluate o row).res := by
  have hacc : ∃ m' td'', newTreeModel dd td { d with missingValueStrategy := s } = (.ok m', td'') :=
    (C08_construction dd td _).1.mpr ((C08_construction dd td d).1.mp ⟨m, td', h⟩)
  obtain ⟨m', td'', h'⟩ := hacc
  refine ⟨m', td'', h', ?_⟩
  -- every strategy's answer
  have key : ∃ R, ∀ e : TreeDoc F, (∃ s, e = { d with missingValueStrategy := s }) → ∀ a,
      NodeAns dd e (nodeTest (treeTypes dd td d) row') d.node a →
      report d.functionName (targetOf d.miningFields) a = R := by
    rcases hclean with hf | ⟨ht, r, hr, hne⟩
    · refine ⟨.ok none, ?_⟩
      rintro e ⟨s, rfl⟩ a ha
      have h2 : a.2 ≠ .t := by
        unfold NodeAns at ha
        cases s with
        | none => rcases ha with ⟨-, rfl⟩ | ⟨ht, -⟩
                  · simp
                  · rw [hf] at ht; simp at ht
        | other s => rcases ha with ⟨-, rfl⟩ | ⟨ht, -⟩
                     · simp
                     · rw [hf] at ht; simp at ht
        | nullPrediction =>
          rcases ha with ⟨-, rfl⟩ | ⟨hn, -⟩ | ⟨hn, -⟩
          · simp
          · exact absurd hf hn
          · exact absurd hf hn
        | lastPrediction =>
          simp only at ha
          rw [ha, (C14_rules _ _ _).1 hf]; simp
        | defaultChild =>
          simp only at ha
          rw [ha, defaultAns_eq, if_pos hf]; simp
        | weightedConfidence =>
          simp only at ha
          cases ha with
          | rejected _ => simp
          | mixed hn => exact absurd hf hn
          | child hn => exact absurd hf hn
          | itself hn => exact absurd hf hn
        | aggregateNodes =>
          simp only at ha
          cases ha with
          | rejected _ => simp
          | mixed hn => exact absurd hf hn
          | child hn => exact absurd hf hn
          | itself hn => exact absurd hf hn
      simp [report, h2]
    · refine ⟨report d.functionName (targetOf d.miningFields) (ownDist dd d r, .t), ?_⟩
      rintro e ⟨s, rfl⟩ a ha
      have hown : ownDist dd { d with missingValueStrategy := s } = ownDist dd d := rfl
      have hnf : nodeTest (treeTypes dd td d) row' d.node ≠ .f := by rw [ht]; simp
      have hrf := clean_firstTrue hr
      have hnull : d.noTrueChildStrategy = .returnNullPrediction →
          ∀ n : Node F, n.nodes ≠ [] → ownDist dd d n = [] := by
        intro hn n hne
        unfold ownDist
        rw [if_pos ⟨hne, hn⟩]
      have hgoal : a = (ownDist dd d r, .t) := by
        unfold NodeAns at ha
        rw [hown] at ha
        cases s with
        | none =>
          rcases ha with ⟨hn, -⟩ | ⟨-, q, hq, rfl⟩
          · exact absurd ht hn
          · rw [firstTrue_unique hq hrf]
        | other s =>
          rcases ha with ⟨hn, -⟩ | ⟨-, q, hq, rfl⟩
          · exact absurd ht hn
          · rw [firstTrue_unique hq hrf]
        | nullPrediction =>
          rcases ha with ⟨hn, -⟩ | ⟨-, ⟨q, hv, hu⟩, -⟩ | ⟨-, -, q, hq, rfl⟩
          · exact absurd hn hnf
          · exact absurd hu (clean_visits hr ht q hv)
          · rw [firstTrue_unique hq hrf]
        | lastPrediction =>
          refine clean_answer (R := fun n a => a = lastAns (nodeTest (treeTypes dd td d) row') (ownDist dd d) n)
            ?_ ?_ hnull hr ht hne ha
          · rintro n a hf rfl
            rw [(C14_rules _ _ _).1 hf]
          · rintro n a hT rfl
            refine ⟨_, forall₂_map_eq _, fun hu => ?_⟩
            rw [lastAns_eq, if_neg (by rw [hT]; simp)]
            constructor
            · intro hl; rw [if_pos ⟨hu, hl⟩]
            · intro hl; rw [if_neg (by simp [hl]), hT]
        | defaultChild =>
          refine clean_answer (R := fun n a => a =
            defaultAns d.missingValuePenalty (nodeTest (treeTypes dd td d) row') (ownDist dd d) n)
            ?_ ?_ hnull hr ht hne ha
          · rintro n a hf rfl
            rw [defaultAns_eq, if_pos hf]
          · rintro n a hT rfl
            refine ⟨_, forall₂_map_eq _, fun hu => ?_⟩
            rw [defaultAns_eq, if_neg (by rw [hT]; simp), if_neg (fun ⟨b, hb, e⟩ => hu b hb e)]
            constructor
            · intro hl; rw [if_pos hl]
            · intro hl; rw [if_neg (by simp [hl]), hT]
        | weightedConfidence =>
          refine clean_answer (R := WeightedAns (nodeTest (treeTypes dd td d) row') (ownDist dd d))
            ?_ ?_ hnull hr ht hne ha
          · intro n a hf hw
            cases hw with
            | rejected _ => rfl
            | mixed hn => exact absurd hf hn
            | child hn => exact absurd hf hn
            | itself hn => exact absurd hf hn
          · intro n a hT hw
            cases hw with
            | rejected hf => rw [hT] at hf; simp at hf
            | mixed _ hall hu _ => exact ⟨_, hall, fun h => by obtain ⟨b, hb, e⟩ := hu; exact absurd e (h b hb)⟩
            | child _ hall hu hl => exact ⟨_, hall, fun _ => ⟨fun _ => by rw [hT], fun h => absurd h hl⟩⟩
            | itself _ hall hu hl => exact ⟨_, hall, fun _ => ⟨fun h => absurd hl h, fun _ => by rw [hT]⟩⟩
        | aggregateNodes =>
          refine clean_answer (R := AggregateAns (nodeTest (treeTypes dd td d) row') (ownDist dd d))
            ?_ ?_ hnull hr ht hne ha
          · intro n a hf hw
            cases hw with
            | rejected _ => rfl
            | mixed hn => exact absurd hf hn
            | child hn => exact absurd hf hn
            | itself hn => exact absurd hf hn
          · intro n a hT hw
            cases hw with
            | rejected hf => rw [hT] at hf; simp at hf
            | mixed _ hall hu _ => exact ⟨_, hall, fun h => by obtain ⟨b, hb, e⟩ := hu; exact absurd e (h b hb)⟩
            | child _ hall hu hl => exact ⟨_, hall, fun _ => ⟨fun _ => by rw [hT], fun h => absurd h hl⟩⟩
            | itself _ hall hu hl => exact ⟨_, hall, fun _ => ⟨fun h => absurd hl h, fun _ => by rw [hT]⟩⟩
      rw [hgoal]
  intro o o'
  obtain ⟨R, key⟩ := key
  obtain ⟨a, ha, hr⟩ := evaluate_answer h hp hi o
  obtain ⟨a', ha', hr'⟩ := evaluate_answer h' hp hi o'
  rw [hr, key d ⟨d.missingValueStrategy, rfl⟩ a ha]
  rw [hr']
  exact key _ ⟨s, rfl⟩ a' ha'

/-- A document whose leaves have an empty distribution: the target declares no values. -/
def bare (s : MissingValueStrategy) : TreeDoc F64 :=
  { Replay.doc s "1" (.mk "" "" "0" (Replay.num "0") [⟨"x", Replay.num "1", none, none⟩] [
      .mk "" "" "1" (Replay.num "0") [] [] (some .true_)] (some .true_)) with
    miningFields := [⟨"temperature", .target, "", "", none⟩] }

/-- **C24** needs its last hypothesis: when the answering node's distribution is empty, the
default strategy answers with it and lastPrediction with the parent's. -/
theorem C24_empty_distribution_differs :
    Replay.lookup (Replay.run (bare .none) []) "temperature" = some (.str "") ∧
    Replay.lookup (Replay.run (bare .lastPrediction) []) "temperature" = some (.str "x") := by
  decide +kernel

-- C24's hypotheses are met by golf with all fields present: weightedConfidence agrees with none.
example : (Replay.entries (Replay.run (Replay.doc .weightedConfidence "1" Replay.golfCounts)
      [("temperature", .f64 (Replay.num "60")), ("humidity", .f64 (Replay.num "70")), ("outlook", .str "sunny")])) =
    (Replay.entries (Replay.run (Replay.doc .none "1" Replay.golfCounts)
      [("temperature", .f64 (Replay.num "60")), ("humidity", .f64 (Replay.num "70")), ("outlook", .str "sunny")])) := by
  decide +kernel

end Gopmml.Props
