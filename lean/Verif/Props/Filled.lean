import Verif.Proofs.Filled
import Verif.Props.MapOrder
import Verif.Props.History
import Verif.Model.Samples

/-!
# Property C95: filling in missing fields does not change a definite answer
-/

namespace Gopmml.Props
open Gopmml Spec

variable {F : Type} [Arith F] [Lib F]

/-- **C95** (tests): a test that does not ask whether fields are missing and is known on a row has the same
outcome on every row with more fields. -/
theorem C95_test {types : FieldTypes} {p p' : Pred F} (hc : compilePredicate types p = .ok p')
    (hs : steady p = true) {r r' : GoMap (GoVal F)} (hf : FilledIn r r') {x : PredRes}
    (hx : runTest types (some p') (some r) = .ok x) (hk : x ≠ .u) :
    runTest types (some p') (some r') = .ok x := by
  rw [runTest_spec _ hc] at hx ⊢
  cases hx
  rcases testValue_below (fun q hq => simpleVal_below (types := types) hf q hq) p hs with h | h
  · exact absurd h hk
  · rw [h]

/-- **C95** (trees): under every missing-value strategy, if all tests made on a row are known, then every row with
more fields gets the same prediction. -/
theorem C95_tree {dd : List DataField} {td td' : TD F} {d : TreeDoc F} {m : TreeModel F}
    (h : newTreeModel dd td d = (.ok m, td')) {row row' : Row F} {q q' : GoMap (GoVal F)}
    (hq : handleInput d.localTransformations row = (.ok (), some q))
    (hq' : handleInput d.localTransformations row' = (.ok (), some q')) (hf : FilledIn q q')
    (hr : ∀ n ∈ reached d.missingValueStrategy (nodeTest (treeTypes dd td d) (some q)) d.node,
        steadyNode n = true ∧ nodeTest (treeTypes dd td d) (some q) n ≠ .u) (o : MapOrd) :
    (m.evaluate o row').res = (m.evaluate o row).res :=
  tree_filled h hq hq' hf hr o

/-- All tests made are known if a tree with the strategy nullPrediction answers. -/
theorem null_known {dd : List DataField} {td td' : TD F} {d : TreeDoc F} {m : TreeModel F}
    (h : newTreeModel dd td d = (.ok m, td')) (hs : d.missingValueStrategy = .nullPrediction)
    (hst : everyNode steadyNode d.node = true) {row : Row F} {q : GoMap (GoVal F)}
    (hq : handleInput d.localTransformations row = (.ok (), some q)) {o : MapOrd} {out : GoMap (GoVal F)}
    (ho : (m.evaluate o row).res = .ok (some out)) :
    ∀ n ∈ reached d.missingValueStrategy (nodeTest (treeTypes dd td d) (some q)) d.node,
        steadyNode n = true ∧ nodeTest (treeTypes dd td d) (some q) n ≠ .u := by
  have hp : AllPreds d.node := by
    intro n hn
    have := everyNode_sub _ hst hn
    unfold steadyNode at this
    cases hpr : n.pred with
    | none => rw [hpr] at this; simp at this
    | some p => exact ⟨p, rfl⟩
  have hc := (C13_null_prediction h hp hs hq o).1
  intro n hn
  rw [hs] at hn
  refine ⟨everyNode_sub _ hst (reached_sub _ hn), reached_known d.node (fun r hr hu => ?_) n hn⟩
  rw [hc ⟨r, hr, hu⟩] at ho
  simp at ho

/-- **C95** (nullPrediction): a prediction of a tree with this strategy stands whatever fields are filled in. -/
theorem C95_null {dd : List DataField} {td td' : TD F} {d : TreeDoc F} {m : TreeModel F}
    (h : newTreeModel dd td d = (.ok m, td')) (hs : d.missingValueStrategy = .nullPrediction)
    (hst : everyNode steadyNode d.node = true) {r r' : GoMap (GoVal F)} (hf : FilledIn r r')
    (hu : UsesOnly (fun k => (r[k]?).isSome) d.localTransformations) {o : MapOrd} {out : GoMap (GoVal F)}
    (ho : (m.evaluate o (some r)).res = .ok (some out)) (o' : MapOrd) :
    (m.evaluate o' (some r')).res = .ok (some out) := by
  obtain ⟨q, q', h1, h2, h3, h4⟩ := handleInput_filled _ hf hu
  have hok : (handleInput d.localTransformations (some r)).1 = .ok () := by
    obtain ⟨-, -, hv, hc, hk, hm, -⟩ := newTreeModel_ok h
    have hlt : m.model.localTransformations = d.localTransformations := by rw [hm]
    have := (evaluate_eq hv hc (by rw [hk]; exact keysOk_empty) o (some r)).2.1
    rw [ho, hlt] at this
    rcases hh : handleInput d.localTransformations (some r) with ⟨_ | ⟨⟨⟩⟩, row'⟩
    · rw [hh] at this; simp at this
    · rfl
  have hq : handleInput d.localTransformations (some r) = (.ok (), some q) := Prod.ext hok h1
  have hq' : handleInput d.localTransformations (some r') = (.ok (), some q') := Prod.ext (h4.trans hok) h2
  rw [C95_tree h hq hq' h3 (null_known h hs hst hq ho) o', ← ho]
  have e1 := constructed_evaluate h hq o
  have e2 := constructed_evaluate h hq o'
  rw [e1, e2]
  simp [evalNode, docCtx, hs]

variable [Trans F]

/-- **C95** (regressions): an answer of a regression stands whatever fields are filled in. -/
theorem C95_regression {dd : List DataField} {d : RegressionDoc F} {td td' : TD F} {m : EModel F}
    (h : newModel dd (.regression d) td = (.ok m, td')) {r r' : GoMap (GoVal F)} (hf : FilledIn r r')
    {o : MapOrd} {out : Out F} (ho : (EModel.evaluate o m (some r)).res = .ok out) (o' : MapOrd) :
    (EModel.evaluate o' m (some r')).res = .ok out := by
  have hall : ∀ o, (EModel.evaluate o m (some r)).res = .ok out := by
    intro o2
    rw [C25_order_document (.regression d) h o2 o, ho]
  obtain ⟨q, q', -, -, -, h4⟩ := filled_persists h r r' hf (.regression hall) o'
  rw [h4, hall]

/-- **C95**: if nothing that is missing in a row plays a part in a model's answer, then every row with more fields
gets the same answer, or the same error; and afterwards it still has all the fields of the other row. This holds
of trees, regressions and ensembles nested to any depth, whatever was evaluated before. -/
theorem C95_model {dd : List DataField} {e : ModelElem F} {td td' : TD F} {m : EModel F}
    (h : newModel dd e td = (.ok m, td')) {r r' : GoMap (GoVal F)} (hf : FilledIn r r')
    (hd : Definite dd e m r) (hist : List (MapOrd × Row F)) (o : MapOrd) :
    (EModel.evaluate o (afterCalls m hist) (some r')).res = (EModel.evaluate o m (some r)).res ∧
    ∃ q q', (EModel.evaluate o m (some r)).row = some q ∧
      (EModel.evaluate o (afterCalls m hist) (some r')).row = some q' ∧ FilledIn q q' := by
  obtain ⟨q, q', h1, h2, h3, h4⟩ := filled_persists h r r' hf hd o
  obtain ⟨g1, g2⟩ := C26_history h hist o (some r')
  exact ⟨by rw [g1, h4], q, q', h1, by rw [g2, h2], h3⟩

/-- A tree that never answers on incomplete grounds: nullPrediction, no derived fields, no test that asks whether
fields are missing. -/
def cautious (e : ModelElem F) : Bool :=
  match e with
  | .tree d => d.missingValueStrategy == .nullPrediction && everyNode steadyNode d.node &&
      d.localTransformations.isEmpty
  | _ => false

theorem cautious_definite {dd : List DataField} {method : MultipleModelMethod} (hm : method ≠ .modelChain)
    {segs : List (SegDoc F)} {ms : List (EModel F)} {td td' : TD F} (h : SegModels dd segs td ms td')
    (hc : ∀ id ps e, SegDoc.mk id ps [e] ∈ segs → cautious e = true) {r : GoMap (GoVal F)} {o : MapOrd}
    (ha : ∀ m ∈ ms, ∃ out, (EModel.evaluate o m (some r)).res = .ok (some out)) (last : Out F) :
    DefiniteSegs dd method last segs ms r := by
  induction h generalizing last with
  | nil => exact .nil
  | @cons id ps e segs td td1 td2 m ms hn hrest ih =>
    have he := hc id ps e List.mem_cons_self
    cases e with
    | tree d =>
      simp only [cautious, Bool.and_eq_true, beq_iff_eq, List.isEmpty_iff] at he
      obtain ⟨⟨he1, he2⟩, he3⟩ := he
      obtain ⟨out, hout⟩ := ha m List.mem_cons_self
      have hord := fun o' => C25_order_document (.tree (by simp [he1]) (by simp [he1])) hn o' o (some r)
      rw [newModel] at hn
      rcases hnt : newTreeModel dd td d with ⟨_ | t, td''⟩
      · rw [hnt] at hn; simp at hn
      rw [hnt] at hn
      simp only [Prod.mk.injEq, Except.ok.injEq] at hn
      obtain ⟨rfl, rfl⟩ := hn
      have hq : handleInput d.localTransformations (some r) = (.ok (), some r) := by rw [he3]; rfl
      have hrow : (EModel.evaluate o (.tree t) (some r)).row = some r := by
        obtain ⟨-, -, hv, hcm, hk, hm, -⟩ := newTreeModel_ok hnt
        have hlt : t.model.localTransformations = d.localTransformations := by rw [hm]
        simp only [EModel.evaluate]
        rw [(evaluate_eq hv hcm (by rw [hk]; exact keysOk_empty) o (some r)).1, hlt, hq]
      refine .next (r1 := r) (q := r) (out := some out) (by rw [if_neg hm]) ?_ (fun o' => ?_)
        (ih (fun id ps e he => hc id ps e (List.mem_cons_of_mem _ he))
          (fun m hm => ha m (List.mem_cons_of_mem _ hm)) _)
      · refine .tree hnt (by rw [he3]; trivial) hq ?_
        simp only [EModel.evaluate] at hout
        exact null_known hnt he1 he2 hq hout
      · rw [hord o']
        exact ⟨hout, hrow⟩
    | regression d => simp [cautious] at he
    | mining h segs => simp [cautious] at he
    | other k => simp [cautious] at he

/-- **C95** (ensembles of trees): if every tree of a sum or an average answers, the ensemble's answer stands whatever
fields are filled in. -/
theorem C95_ensemble {dd : List DataField} {h : MiningHead F} {segs : List (SegDoc F)} {td td' : TD F}
    {s : MiningState F} {ms : List (EModel F)}
    (hn : newModel dd (.mining h segs) td = (.ok (.mining s ms), td'))
    (hm : h.method = .sum ∨ h.method = .average) (hrep : replaced h.miningFields = [])
    (hlt : h.localTransformations = [])
    (hc : ∀ id ps e, SegDoc.mk id ps [e] ∈ segs → cautious e = true) {r r' : GoMap (GoVal F)} (hf : FilledIn r r')
    {o : MapOrd} (ha : ∀ m ∈ ms, ∃ out, (EModel.evaluate o m (some r)).res = .ok (some out)) (o' : MapOrd) :
    (EModel.evaluate o' (.mining s ms) (some r')).res = (EModel.evaluate o' (.mining s ms) (some r)).res := by
  obtain ⟨s', ms', he, hseg, -⟩ := constructed_mining hn
  obtain ⟨rfl, rfl⟩ := by simpa using he
  refine (C95_model hn hf (.mining (q := r) (by simp [hrep]) (by rw [hlt]; trivial) (.row (row1 := r) ?_ (by rw [hlt]; rfl))
    (cautious_definite ?_ hseg hc ha _)) [] o').1
  · intro k
    have : replacement h.miningFields k = none := by
      cases hp : replacement h.miningFields k with
      | none => rfl
      | some t =>
        exfalso
        unfold replacement at hp
        cases hg : (h.miningFields.filter (fun g => g.name = k ∧ g.missingValueReplacement.isSome)).getLast? with
        | none => rw [hg] at hp; simp at hp
        | some g =>
          have := List.mem_of_getLast? hg
          simp only [List.mem_filter, decide_eq_true_eq] at this
          have : k ∈ replaced h.miningFields := by
            simp only [replaced, List.mem_map, List.mem_filter]
            exact ⟨g, ⟨this.1, this.2.2⟩, this.2.1⟩
          rw [hrep] at this
          simp at this
    rw [this]
  · rcases hm with hm | hm <;> rw [hm] <;> simp [effectiveMethod]

section
open Samples Replay

/-- Score 1 if the test holds, else 2 (or nothing, or the root's 0). -/
def choose (s : MissingValueStrategy) (p : P) : ModelElem F64 :=
  .tree { regTree "1" "2" with
    missingValueStrategy := s
    node := .mk "" "" "0" (num "0") [] [
      .mk "" "" "1" (num "0") [] [] (some p),
      .mk "" "" "2" (num "0") [] [] (some .true_)] (some .true_) }

def unreplaced (method : MultipleModelMethod) (p q : P) : ModelElem F64 :=
  .mining { head method with miningFields := [active "x"] }
    [seg (choose .nullPrediction p), seg (choose .nullPrediction q)]

-- C95: x < 5 or c = a on rows without c or without x; the two rows on the right have more fields.
example :
    let p : P := .compound .or [sp "x" .lessThan "5", sp "c" .equal "a"]
    steady p = true ∧ cautious (choose .nullPrediction p) = true ∧
    eval .sorted (choose .nullPrediction p) [("x", .int .int 3)] = some (.ok (some (mk [("score", .f64 (num "1"))]))) ∧
    eval .sorted (choose .nullPrediction p) [("x", .int .int 3), ("c", .str "b")] =
      some (.ok (some (mk [("score", .f64 (num "1"))]))) ∧
    eval .sorted (choose .nullPrediction p) [("x", .int .int 7)] = some (.ok none) ∧
    eval .sorted (unreplaced .sum p (sp "x" .lessThan "4")) [("x", .int .int 3)] =
      some (.ok (some (mk [("y", .f64 (num "5"))]))) ∧
    eval .sorted (unreplaced .sum p (sp "x" .lessThan "4")) [("x", .int .int 3), ("c", .str "a")] =
      some (.ok (some (mk [("y", .f64 (num "5"))]))) := by
  decide +kernel

example (v : GoVal F64) : FilledIn (mk [("x", .int .int 3)]) ((mk [("x", .int .int 3)]).insert "c" v) := by
  intro k w hw
  rw [GoMap.getElem?_insert]
  split
  · rename_i hk
    rw [← hk, show (mk [("x", .int .int 3)])["c"]? = none by decide +kernel] at hw
    cases hw
  · exact hw

-- The hypotheses are needed: a test for isMissing, a surrogate, the other strategies, replacement values, and sums
-- with a tree that does not answer.
example :
    let x7 : List (String × GoVal F64) := [("x", .int .int 7)]
    let y (s : String) : Option (Res (Out F64)) := some (.ok (some (mk [("score", .f64 (num s))])))
    let z (s : String) : Option (Res (Out F64)) := some (.ok (some (mk [("y", .f64 (num s))])))
    let p := sp "x" .isMissing "0"
    let q : P := .compound .surrogate [sp "x" .lessThan "5", sp "c" .equal "a"]
    let large := sp "x" .greaterThan "5"
    (eval .sorted (choose .nullPrediction p) [] = y "1" ∧ eval .sorted (choose .nullPrediction p) x7 = y "2") ∧
    (eval .sorted (choose .nullPrediction q) [("c", .str "a")] = y "1" ∧
      eval .sorted (choose .nullPrediction q) (("c", .str "a") :: x7) = y "2") ∧
    (eval .sorted (choose .none large) [] = y "2" ∧ eval .sorted (choose .none large) x7 = y "1") ∧
    (eval .sorted (ensemble .sum) [] = z "15" ∧ eval .sorted (ensemble .sum) x7 = z "141") ∧
    (eval .sorted (unreplaced .sum (sp "c" .equal "a") large) [("c", .str "a")] = z "3" ∧
      eval .sorted (unreplaced .sum (sp "c" .equal "a") large) (("c", .str "a") :: x7) = z "5") := by
  decide +kernel

end

end Gopmml.Props
