import Verif.Spec.Merge
import Verif.Props.Strategies
import Verif.Props.Construction
import Verif.Props.Counts
import Verif.Props.Mining
import Verif.Props.Format
import Verif.Model.Samples

/-!
# Property C101: a forest can be merged into one tree

Not only over the reals: float64 sums are rounded the same, and what goes wrong goes wrong the same.
-/

namespace Gopmml.Props
open Gopmml Spec F64

variable {dd : List DataField}

/-! ### The tests of the merged tree -/

mutual
theorem sub_graft (k : Node F64 → Node F64) : (n : Node F64) → ∀ x, Sub x (graft k n) →
    (∃ r, Sub r n ∧ x.pred = r.pred) ∨ ∃ r, Sub r n ∧ Sub x (k r)
  | .mk id dc score rc dists nodes pred => by
    intro x hx
    rw [graft] at hx
    cases hx with
    | refl => exact .inl ⟨_, .refl, rfl⟩
    | child hc hx =>
      simp only [Node.nodes, List.mem_append, List.mem_singleton] at hc
      rcases hc with hc | rfl
      · obtain ⟨n, hn, h⟩ := sub_grafts k nodes _ hc x hx
        rcases h with ⟨r, hr, hp⟩ | ⟨r, hr, hp⟩
        · exact .inl ⟨r, .child hn hr, hp⟩
        · exact .inr ⟨r, .child hn hr, hp⟩
      · exact .inr ⟨_, .refl, hx⟩
theorem sub_grafts (k : Node F64 → Node F64) : (ns : List (Node F64)) → ∀ c ∈ grafts k ns, ∀ x, Sub x c →
    ∃ n ∈ ns, (∃ r, Sub r n ∧ x.pred = r.pred) ∨ ∃ r, Sub r n ∧ Sub x (k r)
  | [] => by intro c hc; simp [grafts] at hc
  | n :: ns => by
    intro c hc x hx
    simp only [grafts, List.mem_cons] at hc
    rcases hc with rfl | hc
    · exact ⟨n, by simp, sub_graft k n x hx⟩
    · obtain ⟨n', hn, h⟩ := sub_grafts k ns c hc x hx
      exact ⟨n', by simp [hn], h⟩
end

theorem sub_leaf {text : String} {x : Node F64} (h : Sub x (leaf text)) : x.pred = some .true_ := by
  cases h with
  | refl => rfl
  | child hc _ => simp [leaf, Node.nodes] at hc

theorem sub_stuck {x : Node F64} (h : Sub x stuck) : x.pred = some .true_ ∨ x.pred = some .false_ := by
  cases h with
  | refl => exact .inl rfl
  | child hc hx =>
    simp only [stuck, Node.nodes, List.mem_singleton] at hc
    subst hc
    cases hx with
    | refl => exact .inr rfl
    | child hc _ => simp [Node.nodes] at hc

/-- Every test of the merged tree is one of the forest, or a constant. -/
theorem sub_merge : (ds : List (TreeDoc F64)) → ∀ acc x, Sub x (mergeFrom dd ds acc) →
    (∃ d ∈ ds, ∃ r, Sub r d.node ∧ x.pred = r.pred) ∨ x.pred = some .true_ ∨ x.pred = some .false_
  | [] => fun acc x hx => .inr (.inl (sub_leaf hx))
  | d :: ds => by
    have ih := sub_merge ds
    have lift : ∀ {x : Node F64}, ((∃ d ∈ ds, ∃ r, Sub r d.node ∧ x.pred = r.pred) ∨ x.pred = some .true_ ∨
        x.pred = some .false_) → ((∃ d' ∈ d :: ds, ∃ r, Sub r d'.node ∧ x.pred = r.pred) ∨ x.pred = some .true_ ∨
        x.pred = some .false_) := by
      rintro x (⟨d', hd, h⟩ | h)
      · exact .inl ⟨d', by simp [hd], h⟩
      · exact .inr h
    intro acc x hx
    rw [mergeFrom] at hx
    cases hx with
    | refl => exact .inr (.inl rfl)
    | child hc hx =>
      simp only [Node.nodes, List.mem_cons, List.not_mem_nil, or_false] at hc
      rcases hc with rfl | rfl
      · rcases sub_graft _ _ x hx with ⟨r, hr, hp⟩ | ⟨r, hr, hk⟩
        · exact .inl ⟨d, by simp, r, hr, hp⟩
        · unfold goOn at hk
          cases e : (ownDist dd d r).head? with
          | none => rw [e] at hk; exact .inr (sub_stuck hk)
          | some s =>
            rw [e] at hk
            cases e' : (Lib.parseFloat s.value : Option F64) with
            | none => simp only [e'] at hk; exact .inr (.inl (sub_leaf hk))
            | some y => simp only [e'] at hk; exact lift (ih _ x hk)
      · exact lift (ih _ x hx)

/-! ### Its answers -/

theorem graft_pred (k : Node F64 → Node F64) (n : Node F64) : (graft k n).pred = n.pred := by
  cases n; rw [graft]; rfl

theorem grafts_eq (k : Node F64 → Node F64) : (ns : List (Node F64)) → grafts k ns = ns.map (graft k)
  | [] => by simp [grafts]
  | n :: ns => by simp [grafts, grafts_eq k ns]

theorem graft_nodes (k : Node F64 → Node F64) (n : Node F64) :
    (graft k n).nodes = n.nodes.map (graft k) ++ [k n] := by
  cases n; rw [graft, grafts_eq]; rfl

section
variable {types : FieldTypes} {row : Row F64}

theorem nodeTest_pred {n n' : Node F64} (h : n.pred = n'.pred) : nodeTest types row n = nodeTest types row n' := by
  unfold nodeTest; rw [h]

theorem nodeTest_true {n : Node F64} (h : n.pred = some .true_) : nodeTest types row n = .t := by
  unfold nodeTest; rw [h]; rfl

theorem nodeTest_false {n : Node F64} (h : n.pred = some .false_) : nodeTest types row n = .f := by
  unfold nodeTest; rw [h]; rfl

/-- Where the tree ends, the graft goes on. -/
theorem firstTrue_graft {k : Node F64 → Node F64} (hk : ∀ n, nodeTest types row (k n) = .t) {n r x : Node F64}
    (h : FirstTrue (nodeTest types row) n r) (hx : FirstTrue (nodeTest types row) (k r) x) :
    FirstTrue (nodeTest types row) (graft k n) x := by
  induction h with
  | @stop n hs =>
    refine .step (pre := n.nodes.map (graft k)) (post := []) (graft_nodes k n) ?_ (hk n) hx
    intro c hc
    obtain ⟨b, hb, rfl⟩ := List.mem_map.1 hc
    rw [nodeTest_pred (graft_pred k b)]
    exact hs b hb
  | @step n c r pre post hn hpre hc _ ih =>
    refine .step (c := graft k c) (pre := pre.map (graft k)) (post := post.map (graft k) ++ [k n]) ?_ ?_ ?_ (ih hx)
    · rw [graft_nodes, hn]; simp
    · intro d hd
      obtain ⟨b, hb, rfl⟩ := List.mem_map.1 hd
      rw [nodeTest_pred (graft_pred k b)]
      exact hpre b hb
    · rw [nodeTest_pred (graft_pred k c)]; exact hc

theorem merge_true (ds : List (TreeDoc F64)) (acc : F64) : nodeTest types row (mergeFrom dd ds acc) = .t := by
  cases ds <;> exact nodeTest_true rfl

theorem goOn_true {d : TreeDoc F64} {ds : List (TreeDoc F64)} {acc : F64} (n : Node F64) :
    nodeTest types row (goOn dd d (mergeFrom dd ds) acc n) = .t := by
  unfold goOn
  cases (ownDist dd d n).head? with
  | none => exact nodeTest_true rfl
  | some s =>
    simp only
    cases (Lib.parseFloat s.value : Option F64) with
    | none => exact nodeTest_true rfl
    | some x => exact merge_true ds _

theorem firstTrue_leaf (text : String) : FirstTrue (nodeTest types row) (leaf text) (leaf text) :=
  .stop (by simp [leaf, Node.nodes])

theorem firstTrue_stuck : FirstTrue (nodeTest types row) stuck stuck :=
  .stop (by
    intro c hc
    simp only [stuck, Node.nodes, List.mem_singleton] at hc
    subst hc
    rw [nodeTest_false rfl]; simp)

end

/-- A number that is not changed when it is added to zero: all but the negative zero. -/
def NotMinus (x : F64) : Prop := Arith.add Arith.zero x = x

theorem ofRat_same {q : ℚ} (h : Rep q) : ofRat false q = .fin q h := by
  have hr : roundQ 53 (-1074) q = q := roundQ_val (x := .fin q h) rfl
  unfold ofRat
  simp only [hr, h.2, dite_true, Bool.false_eq_true, and_false, if_false]

theorem zero_fin : (Arith.zero : F64) = .fin 0 rep_zero := by rw [zero_eq, ofRat_same rep_zero]

theorem notMinus_iff {x : F64} : NotMinus x ↔ x ≠ negZero := by
  unfold NotMinus
  rw [zero_fin]
  change F64.add _ x = x ↔ _
  cases x with
  | nan => exact ⟨fun _ => nofun, fun _ => rfl⟩
  | inf b => exact ⟨fun _ => nofun, fun _ => rfl⟩
  | negZero => exact ⟨nofun, fun h => absurd rfl h⟩
  | fin q h =>
    refine ⟨fun _ => nofun, fun _ => ?_⟩
    change ofRat false (0 + q) = _
    rw [zero_add, ofRat_same h]

theorem notMinus_zero : NotMinus (Arith.zero : F64) := by
  rw [notMinus_iff, zero_fin]
  intro h; cases h

theorem ofRat_not_minus (q : ℚ) : ofRat false q ≠ negZero := by
  unfold ofRat
  simp only [Bool.false_eq_true, and_false, if_false]
  split_ifs <;> intro h <;> cases h

theorem notMinus_add {x : F64} (hx : NotMinus x) (y : F64) : NotMinus (Arith.add x y) := by
  rw [notMinus_iff] at *
  change F64.add x y ≠ negZero
  cases x with
  | nan => cases y <;> (intro h; cases h)
  | negZero => exact absurd rfl hx
  | inf a =>
    cases y with
    | inf b =>
      by_cases e : a = b
      · simp [F64.add, e]
      · simp [F64.add, e]
    | nan => intro h; cases h
    | negZero => intro h; cases h
    | fin q h => intro h; cases h
  | fin p hp =>
    cases y with
    | fin q hq => exact ofRat_not_minus _
    | inf b => intro h; cases h
    | nan => intro h; cases h
    | negZero => intro h; cases h

theorem notMinus_foldl (l : List F64) {x : F64} (h : NotMinus x) : NotMinus (l.foldl Arith.add x) := by
  induction l generalizing x with
  | nil => exact h
  | cons y l ih => exact ih (notMinus_add h y)

/-- The number a segment adds. -/
def scoreOf (out : Out F64) : Option F64 := (out.bind (fun m => m["score"]?)).map GoVal.float64

/-- The forest run to its end, or to its first failure, and where the merged tree then is. -/
def Meets (acc : F64) (r : Res (List (Out F64))) (x : Node F64) : Prop :=
  match r with
  | .ok outs => x = leaf (GoVal.f64 ((outs.filterMap scoreOf).foldl Arith.add acc)).string
  | .error e => (e = .panic .indexOutOfRange ∧ x = stuck) ∨
      ∃ text, e = .err (.parse text) ∧ (Lib.parseFloat text : Option F64) = none ∧ x = leaf text

theorem Meets.map {acc acc' : F64} {r : Res (List (Out F64))} {x : Node F64} (h : Meets acc' r x) {out : Out F64}
    (ho : acc' = match scoreOf out with | some y => Arith.add acc y | none => acc) :
    Meets acc (r.map (out :: ·)) x := by
  cases r with
  | error e => exact h
  | ok outs =>
    simp only [Meets, Except.map] at h ⊢
    rw [h, ho]
    cases e : scoreOf out with
    | none => rw [List.filterMap_cons_none e]
    | some y => rw [List.filterMap_cons_some e]; rfl

theorem tree_row {td td' : TD F64} {d : TreeDoc F64} {m : TreeModel F64} (h : newTreeModel dd td d = (.ok m, td'))
    (hl : d.localTransformations = []) (o : MapOrd) (row : Row F64) : (m.evaluate o row).row = row := by
  obtain ⟨-, -, hv, hc, hk, hm, -, -, -⟩ := newTreeModel_ok h
  rw [(evaluate_eq hv hc (by rw [hk]; exact keysOk_empty) o row).1, hm]
  simp [hl, handleInput]

variable [Trans F64]

/-- The merged tree goes where the forest goes. -/
theorem merge_run {td : TD F64} : (ds : List (TreeDoc F64)) → {segs : List (SegDoc F64)} → {ms : List (EModel F64)} →
    {td' : TD F64} → SegModels dd segs td ms td' → List.Forall₂ IsTree segs ds → (∀ d ∈ ds, Mergeable d) →
    {row row' : Row F64} → {r : Res (List (Out F64))} → SegsRun ms row r row' → (acc : F64) →
    row' = row ∧ ∃ x, FirstTrue (nodeTest (buildTypes dd td) row) (mergeFrom dd ds acc) x ∧ Meets acc r x
  | [], segs, ms, td', hm, hs, hd, row, row', r, hr, acc => by
    cases hs
    cases hm
    cases hr
    exact ⟨rfl, _, firstTrue_leaf _, rfl⟩
  | d :: ds, segs, ms, td', hm, hs, hd, row, row', r, hr, acc => by
    cases hs with
    | cons h1 h2 =>
      obtain ⟨id, ps, rfl⟩ := h1
      cases hm with
      | @cons _ _ _ _ _ td1 _ m ms h3 h4 =>
        obtain ⟨hreg, hst, hpr, hl⟩ := hd d (by simp)
        rw [newModel] at h3
        cases e : newTreeModel dd td d with
        | mk res tdx =>
        rw [e] at h3
        cases res with
        | error e' => simp at h3
        | ok t =>
          simp only [Prod.mk.injEq, Except.ok.injEq] at h3
          obtain ⟨rfl, rfl⟩ := h3
          have htd := (newTreeModel_ok e).2.1
          rw [hl, List.append_nil] at htd
          subst htd
          have hty : treeTypes dd tdx d = buildTypes dd tdx := by simp [treeTypes, hl]
          have hrow : ∀ o, (EModel.evaluate o (.tree t) row).row = row := fun o => tree_row e hl o row
          have hres : ∀ o, (EModel.evaluate o (.tree t) row).res = (t.evaluate o row).res := fun o => rfl
          have hc := fun o => C12_first_true_child e hpr hst (row := row) (row' := row) (by simp [hl, handleInput]) o
          rw [hty] at hc
          -- the first tree, then the others
          have hfirst : ∀ o, (nodeTest (buildTypes dd tdx) row d.node ≠ .t ∧ (t.evaluate o row).res = .ok none) ∨
              ∃ q, (∀ x, FirstTrue (nodeTest (buildTypes dd tdx) row) (goOn dd d (mergeFrom dd ds) acc q) x →
                FirstTrue (nodeTest (buildTypes dd tdx) row) (mergeFrom dd (d :: ds) acc) x) ∧
                (t.evaluate o row).res = report .regression (targetOf d.miningFields) (ownDist dd d q, .t) := by
            intro o
            by_cases ht : nodeTest (buildTypes dd tdx) row d.node = .t
            · obtain ⟨q, hq, -, hq2⟩ := (hc o).2 ht
              refine .inr ⟨q, fun x hx => ?_, by rw [hq2, hreg]⟩
              rw [mergeFrom]
              refine .step (pre := []) (post := [mergeFrom dd ds acc]) rfl (by simp) ?_
                (firstTrue_graft goOn_true hq hx)
              rw [nodeTest_pred (graft_pred _ _)]; exact ht
            · exact .inl ⟨ht, (hc o).1.1 ht⟩
          have hskip : nodeTest (buildTypes dd tdx) row d.node ≠ .t → ∀ x,
              FirstTrue (nodeTest (buildTypes dd tdx) row) (mergeFrom dd ds acc) x →
              FirstTrue (nodeTest (buildTypes dd tdx) row) (mergeFrom dd (d :: ds) acc) x := by
            intro ht x hx
            rw [mergeFrom]
            refine .step (c := mergeFrom dd ds acc) (pre := [graft (goOn dd d (mergeFrom dd ds) acc) d.node]) (post := [])
              rfl ?_ (merge_true _ _) hx
            intro b hb
            simp only [List.mem_singleton] at hb
            subst hb
            rw [nodeTest_pred (graft_pred _ _)]; exact ht
          cases hr with
          | @fail _ _ _ o e' he =>
            refine ⟨hrow o, ?_⟩
            rw [hres] at he
            rcases hfirst o with ⟨-, h⟩ | ⟨q, hq, h⟩
            · rw [h] at he; simp at he
            · rw [h] at he
              unfold goOn at hq
              cases hd : ownDist dd d q with
              | nil =>
                rw [hd] at he hq
                simp [report] at he
                exact ⟨stuck, hq _ firstTrue_stuck, .inl ⟨he.symm, rfl⟩⟩
              | cons s l =>
                rw [hd] at he hq
                simp only [List.head?_cons] at hq
                cases hp : (Lib.parseFloat s.value : Option F64) with
                | none =>
                  simp only [hp] at hq
                  simp [report, hp] at he
                  exact ⟨_, hq _ (firstTrue_leaf _), .inr ⟨_, he.symm, hp, rfl⟩⟩
                | some y => simp [report, hp] at he
          | @cons _ _ _ o out r _ he hrun =>
            rw [hrow] at hrun
            rw [hres] at he
            rcases hfirst o with ⟨ht, h⟩ | ⟨q, hq, h⟩
            · obtain ⟨rfl, x, hx, hm⟩ := merge_run ds h4 h2 (fun d hd' => hd d (by simp [hd'])) hrun acc
              rw [h] at he
              cases he
              exact ⟨rfl, x, hskip ht x hx, hm.map (by simp [scoreOf])⟩
            · rw [h] at he
              unfold goOn at hq
              cases hdq : ownDist dd d q with
              | nil => rw [hdq] at he; simp [report] at he
              | cons s l =>
                rw [hdq] at he hq
                simp only [List.head?_cons] at hq
                cases hp : (Lib.parseFloat s.value : Option F64) with
                | none => simp [report, hp] at he
                | some y =>
                  simp only [hp] at hq
                  simp only [report, ne_eq, not_true_eq_false, if_false, hp, Except.ok.injEq] at he
                  subst he
                  obtain ⟨rfl, x, hx, hm⟩ := merge_run ds h4 h2 (fun d hd' => hd d (by simp [hd'])) hrun (Arith.add acc y)
                  exact ⟨rfl, x, hq x hx, hm.map (by simp [scoreOf, GoVal.float64])⟩

omit [Trans F64] in
/-- A plain tree whose tests make sense is accepted. -/
theorem plain_built {td : TD F64} {n : Node F64} (h : TreeOk (buildTypes dd td) n) :
    ∃ m, newTreeModel dd td (plainTree n) = (.ok m, td) := by
  have := newTreeModel_good (dd := dd) (td := td) (d := plainTree n) (by simp [plainTree])
  obtain ⟨c, hc⟩ := (newNode_ok_iff n).2 h
  have e : treeTypes dd td (plainTree n) = buildTypes dd td := by simp [treeTypes, plainTree]
  rw [e, show (plainTree n).node = n from rfl, hc] at this
  obtain ⟨m, hm⟩ := this
  exact ⟨m, by simpa [plainTree] using hm⟩

omit [Trans F64] in
theorem ownDist_leaf (n : Node F64) (text : String) :
    ownDist dd (plainTree n) (leaf text) = [⟨text, Arith.zero, Arith.zero, Arith.zero⟩] := by
  simp [ownDist, plainTree, leaf, Node.nodes, Node.dists, Node.score, Node.recordCount, targetOf]

omit [Trans F64] in
theorem ownDist_stuck (n : Node F64) : ownDist dd (plainTree n) stuck = [] := by
  simp [ownDist, plainTree, stuck, Node.nodes]

omit [Trans F64] in
theorem plain_eval {td : TD F64} {n : Node F64} {m : TreeModel F64}
    (h : newTreeModel dd td (plainTree n) = (.ok m, td)) (hp : AllPreds n) {row : Row F64} (o : MapOrd) :
    (nodeTest (buildTypes dd td) row n ≠ .t → (m.evaluate o row).res = .ok none) ∧
    ∀ x, nodeTest (buildTypes dd td) row n = .t → FirstTrue (nodeTest (buildTypes dd td) row) n x →
      (m.evaluate o row).res = report .regression "" (ownDist dd (plainTree n) x, .t) := by
  have e : treeTypes dd td (plainTree n) = buildTypes dd td := by simp [treeTypes, plainTree]
  have hc := C12_first_true_child h hp (.inl rfl) (row := row) (row' := row) rfl o
  rw [e] at hc
  refine ⟨hc.1.1, fun x ht hx => ?_⟩
  obtain ⟨r, hr, hu, he⟩ := hc.2 ht
  rw [he, hu x hx]
  rfl

omit [Trans F64] in
/-- The trees of an accepted forest make sense. -/
theorem forest_ok {td td' : TD F64} : (ds : List (TreeDoc F64)) → {segs : List (SegDoc F64)} → {ms : List (EModel F64)} →
    SegModels dd segs td ms td' → List.Forall₂ IsTree segs ds → (∀ d ∈ ds, Mergeable d) →
    td' = td ∧ ∀ d ∈ ds, TreeOk (buildTypes dd td) d.node
  | [], segs, ms, hm, hs, hd => by
    cases hs
    cases hm
    simp
  | d :: ds, segs, ms, hm, hs, hd => by
    cases hs with
    | cons h1 h2 =>
      obtain ⟨id, ps, rfl⟩ := h1
      cases hm with
      | @cons _ _ _ _ _ td1 _ m ms h3 h4 =>
        have hl := (hd d (by simp)).noLocals
        rw [newModel] at h3
        cases e : newTreeModel dd td d with
        | mk res tdx =>
        rw [e] at h3
        cases res with
        | error e' => simp at h3
        | ok t =>
          simp only [Prod.mk.injEq, Except.ok.injEq] at h3
          obtain ⟨rfl, rfl⟩ := h3
          have hok := newTreeModel_ok e
          have htd := hok.2.1
          rw [hl, List.append_nil] at htd
          subst htd
          obtain ⟨h5, h6⟩ := forest_ok ds h4 h2 (fun d hd' => hd d (by simp [hd']))
          refine ⟨h5, fun d' hd' => ?_⟩
          rcases List.mem_cons.1 hd' with rfl | hd'
          · have := (newNode_ok_iff d'.node).1 ⟨_, hok.2.2.2.2.2.2.2.2⟩
            simpa [treeTypes, hl] using this
          · exact h6 d' hd'

omit [Trans F64] in
theorem merge_ok {types : FieldTypes} {ds : List (TreeDoc F64)} (h : ∀ d ∈ ds, TreeOk types d.node) (acc : F64) :
    TreeOk types (mergeFrom dd ds acc) := by
  intro x hx q hq s hs
  rcases sub_merge ds acc x hx with ⟨d, hd, r, hr, hp⟩ | hp | hp
  · exact h d hd r hr q (hp ▸ hq) s hs
  · rw [hp] at hq; cases hq; simp [simples] at hs
  · rw [hp] at hq; cases hq; simp [simples] at hs

omit [Trans F64] in
theorem merge_preds {ds : List (TreeDoc F64)} (h : ∀ d ∈ ds, AllPreds d.node) (acc : F64) :
    AllPreds (mergeFrom dd ds acc) := by
  intro x hx
  rcases sub_merge ds acc x hx with ⟨d, hd, r, hr, hp⟩ | hp | hp
  · rw [hp]; exact h d hd r hr
  · exact ⟨_, hp⟩
  · exact ⟨_, hp⟩

omit [Trans F64] in
theorem silent_models {td : TD F64} {m : TreeModel F64} (h : newTreeModel dd td silentTree = (.ok m, td)) :
    (k : Nat) → SegModels dd (List.replicate k (treeSegment silentTree)) td (List.replicate k (.tree m)) td
  | 0 => .nil
  | k + 1 => .cons (by rw [newModel, h]) (silent_models h k)

theorem silent_run {td : TD F64} {m : TreeModel F64} (h : newTreeModel dd td silentTree = (.ok m, td)) {row row' : Row F64} :
    (k : Nat) → {r : Res (List (Out F64))} → SegsRun (List.replicate k (.tree m)) row r row' →
    r = .ok (List.replicate k none) ∧ row' = row
  | 0, r, hr => by cases hr; simp
  | k + 1, r, hr => by
    have hp : AllPreds (Node.mk "" "" "" (Arith.zero : F64) [] [] (some .false_)) := by
      intro x hx
      cases hx with
      | refl => exact ⟨_, rfl⟩
      | child hc _ => simp [Node.nodes] at hc
    have hn : ∀ o, (EModel.evaluate o (.tree m) row).res = .ok none := fun o =>
      (plain_eval h hp o).1 (by rw [nodeTest_false rfl]; simp)
    have hw : ∀ o, (EModel.evaluate o (.tree m) row).row = row := fun o => tree_row h rfl o row
    cases hr with
    | @fail _ _ _ o e he => rw [hn] at he; simp at he
    | @cons _ _ _ o out r _ he hrun =>
      rw [hn] at he
      cases he
      rw [hw] at hrun
      obtain ⟨rfl, rfl⟩ := silent_run h k hrun
      exact ⟨rfl, rfl⟩

omit [Trans F64] in
theorem leaf_reported (x : F64) :
    report .regression "" ([⟨(GoVal.f64 x).string, Arith.zero, Arith.zero, Arith.zero⟩], .t) =
      .ok (some ((∅ : GoMap (GoVal F64)).insert "score" (.f64 x))) := by
  have h : (Lib.parseFloat (GoVal.f64 x).string : Option F64) = some x :=
    parseF64_iff.mpr (C77_roundtrip x).1
  simp [report, h]

/-- A forest and the merged tree, with any number of silent trees: they fail alike, or add up alike. -/
theorem merged_segments {td td' : TD F64} {ds : List (TreeDoc F64)} {segs : List (SegDoc F64)}
    {ms : List (EModel F64)} (hms : SegModels dd segs td ms td') (hs : List.Forall₂ IsTree segs ds)
    (hd : ∀ d ∈ ds, Mergeable d) (k : Nat) :
    ∃ ms', SegModels dd (treeSegment (mergedTree dd ds) :: List.replicate k (treeSegment silentTree)) td ms' td' ∧
      ∀ {row r row1 r' row2}, SegsRun ms row r row1 → SegsRun ms' row r' row2 → row1 = row2 ∧
        match r, r' with
        | .error e, .error e' => e = e'
        | .ok outs, .ok outs' => sum (outs.filterMap scoreOf) = sum (outs'.filterMap scoreOf)
        | _, _ => False := by
  obtain ⟨rfl, hok⟩ := forest_ok ds hms hs hd
  obtain ⟨m, hm⟩ := plain_built (merge_ok (dd := dd) hok Arith.zero)
  obtain ⟨q, hq⟩ : ∃ q, newTreeModel dd td' silentTree = (.ok q, td') := by
    refine plain_built ?_
    intro x hx p hp s hs
    cases hx with
    | refl => cases hp; simp [simples] at hs
    | child hc _ => simp [Node.nodes] at hc
  refine ⟨.tree m :: List.replicate k (.tree q), .cons (by rw [newModel]; unfold mergedTree; rw [hm]) (silent_models hq k), ?_⟩
  intro row r row1 r' row2 h1 h2
  obtain ⟨rfl, x, hx, hmeet⟩ := merge_run ds hms hs hd h1 Arith.zero
  have hev : ∀ o, (EModel.evaluate o (.tree m) row1).res = _ := fun o =>
    (plain_eval hm (merge_preds (fun d h => (hd d h).preds) Arith.zero) o).2 x (merge_true _ _) hx
  have hw : ∀ o, (EModel.evaluate o (.tree m) row1).row = row1 := fun o => tree_row hm rfl o row1
  cases h2 with
  | @fail _ _ _ o e he =>
    refine ⟨(hw o).symm, ?_⟩
    rw [hev] at he
    cases r with
    | ok outs =>
      simp only [Meets] at hmeet
      rw [hmeet, ownDist_leaf, leaf_reported] at he
      cases he
    | error e' =>
      rcases hmeet with ⟨rfl, rfl⟩ | ⟨text, rfl, hp, rfl⟩
      · rw [ownDist_stuck] at he
        simpa [report] using he
      · rw [ownDist_leaf] at he
        simpa [report, hp] using he
  | @cons _ _ _ o out r _ he hrun =>
    rw [hw] at hrun
    obtain ⟨rfl, rfl⟩ := silent_run hq k hrun
    refine ⟨rfl, ?_⟩
    rw [hev] at he
    cases r with
    | ok outs =>
      simp only [Meets] at hmeet
      rw [hmeet, ownDist_leaf, leaf_reported] at he
      cases he
      have h0 : (List.replicate k (none : Out F64)).filterMap scoreOf = [] := by
        clear hrun
        induction k with
        | zero => rfl
        | succ k ih => rw [List.replicate_succ, List.filterMap_cons_none (by rfl)]; exact ih
      simp only [Except.map]
      rw [List.filterMap_cons_some (b := (outs.filterMap scoreOf).foldl Arith.add Arith.zero) (by simp [scoreOf, GoVal.float64]), h0]
      exact (notMinus_foldl _ notMinus_zero).symm
    | error e' =>
      rcases hmeet with ⟨rfl, rfl⟩ | ⟨text, rfl, hp, rfl⟩
      · rw [ownDist_stuck] at he
        simp [report] at he
      · rw [ownDist_leaf] at he
        simp [report, hp] at he

/-- **C101**: an ensemble that adds up regression trees (default strategy, no derived fields of their own) answers
like the ensemble with the one merged tree, on every row, also when it fails; further trees that never predict change
nothing. An ensemble that averages does so too, if there are as many segments as before. -/
theorem C101_merged {h : MiningHead F64} {segs : List (SegDoc F64)} {ds : List (TreeDoc F64)} {td td' : TD F64}
    {M : EModel F64} (hM : newModel dd (.mining h segs) td = (.ok M, td')) (hf : h.functionName ≠ .classification)
    (hs : List.Forall₂ IsTree segs ds) (hd : ∀ d ∈ ds, Mergeable d) (k : Nat)
    (hk : usesMethod h .sum ∨ usesMethod h .average ∧ segs.length = k + 1) :
    ∃ M', newModel dd (.mining h (treeSegment (mergedTree dd ds) :: List.replicate k (treeSegment silentTree))) td
        = (.ok M', td') ∧
      ∀ o o' row, (EModel.evaluate o' M' row).res = (EModel.evaluate o M row).res ∧
        (EModel.evaluate o' M' row).row = (EModel.evaluate o M row).row := by
  obtain ⟨s, ms, hMs, hms, -, -, -, -, hev⟩ := constructed_mining hM
  obtain ⟨ms', hms', hrun⟩ := merged_segments hms hs hd k
  have hex : ∃ M', newModel dd (.mining h (treeSegment (mergedTree dd ds) ::
      List.replicate k (treeSegment silentTree))) td = (.ok M', td') := by
    have hM0 := hM
    rw [newModel] at hM0 ⊢
    rcases mining_validate (MiningState.init dd h segs) with ⟨a, b, hv⟩ | ⟨-, e, s', hv⟩
    · rcases mining_validate (MiningState.init dd h (treeSegment (mergedTree dd ds) ::
          List.replicate k (treeSegment silentTree))) with ⟨-, -, hv'⟩ | ⟨hn, -⟩
      · rw [hv']
        simp only [MiningState.init]
        rw [hms'.compile]
        exact ⟨_, rfl⟩
      · exact absurd ⟨a, b⟩ hn
    · rw [hv] at hM0; simp at hM0
  obtain ⟨M', hM'⟩ := hex
  refine ⟨M', hM', fun o o' row => ?_⟩
  obtain ⟨s', ms2, hMs', hms2, -, -, -, -, hev'⟩ := constructed_mining hM'
  rcases hev o row with ⟨e, row3, hp, he⟩ | ⟨row3, hp, he⟩ <;>
    rcases hev' o' row with ⟨e', row3', hp', he'⟩ | ⟨row3', hp', he'⟩
  · obtain ⟨h1, rfl⟩ := prepared_unique hp hp'
    simp at h1; subst h1
    rw [he, he']; exact ⟨rfl, rfl⟩
  · have := (prepared_unique hp hp').1; simp at this
  · have := (prepared_unique hp hp').1; simp at this
  · clear he he' hp'
    have unique : ∀ {segs : List (SegDoc F64)} {td a b : TD F64} {ms ms' : List (EModel F64)},
        SegModels dd segs td ms a → SegModels dd segs td ms' b → ms = ms' := by
      intro segs td a b ms ms' h1 h2
      have := h1.compile.symm.trans h2.compile
      simp at this; exact this.1
    have key : ∀ {k1 k2 : String → F64 → F64}, (∀ k x, k1 k x = k2 k x) →
        ∀ {r r' : Res (List (Out F64))} {row1 row2 : Row F64}, SegsRun ms row3 r row1 → SegsRun ms' row3 r' row2 →
        ∀ {a a' : Res (Out F64)}, (∀ e, r = .error e → a = .error e) → (∀ e, r' = .error e → a' = .error e) →
        (∀ outs, r = .ok outs → ∃ out, a = .ok (some out) ∧
          ∀ k, out[k]? = if k ∈ ensembleKeys h then some (.f64 (k1 k (ensembleSum h outs k))) else none) →
        (∀ outs, r' = .ok outs → ∃ out, a' = .ok (some out) ∧
          ∀ k, out[k]? = if k ∈ ensembleKeys h then some (.f64 (k2 k (ensembleSum h outs k))) else none) →
        a' = a ∧ row2 = row1 := by
      intro k1 k2 hkk r r' row1 row2 h1 h2 a a' e1 e2 o1 o2
      obtain ⟨g1, g2⟩ := hrun h1 h2
      refine ⟨?_, g1.symm⟩
      cases r with
      | error e =>
        cases r' with
        | error e' => rw [e1 e rfl, e2 e' rfl]; exact congrArg _ (Eq.symm g2)
        | ok outs' => exact g2.elim
      | ok outs =>
        cases r' with
        | error e' => exact g2.elim
        | ok outs' =>
          obtain ⟨x, rfl, hx⟩ := o1 outs rfl
          obtain ⟨y, rfl, hy⟩ := o2 outs' rfl
          have hc : ∀ k, contribution h.functionName k = scoreOf := by
            intro k; funext out; simp [contribution, scoreOf, hf]
          have : y = x := by
            ext1 k
            rw [hx, hy]
            have : ensembleSum h outs' k = ensembleSum h outs k := by
              unfold ensembleSum; rw [hc, show sum _ = sum _ from g2.symm]
            rw [this, hkk]
          rw [this]
    rcases hk with hm | ⟨hm, hlen⟩
    · obtain ⟨ms1, r, row1, a1, a2, a3, a4, a5⟩ := C36_sum hM hm hp o
      obtain ⟨ms1', r', row1', b1, b2, b3, b4, b5⟩ := C36_sum hM' hm hp o'
      obtain rfl := unique a1 hms
      obtain rfl := unique b1 hms'
      rw [a3, b3]
      exact key (k1 := fun _ x => x) (k2 := fun _ x => x) (fun _ _ => rfl) a2 b2 a4 b4 a5 b5
    · obtain ⟨ms1, r, row1, a1, a2, a3, a4, a5⟩ := C37_average hM hm hp o
      obtain ⟨ms1', r', row1', b1, b2, b3, b4, b5⟩ := C37_average hM' hm hp o'
      obtain rfl := unique a1 hms
      obtain rfl := unique b1 hms'
      rw [a3, b3]
      exact key (k1 := fun _ x => Arith.div x (Arith.ofInt segs.length))
        (k2 := fun _ x => Arith.div x (Arith.ofInt (treeSegment (mergedTree dd ds) ::
          List.replicate k (treeSegment silentTree)).length)) (fun _ _ => by simp [hlen]) a2 b2 a4 b4 a5 b5

section Examples
open Replay Samples
attribute [local instance] Samples.standIn

/-- `lo` when x < 5, else `hi`; 0.5 without x. -/
def splitNode (lo hi : String) : Node F64 :=
  .mk "" "" "0.5" (num "0") [] [
    .mk "" "" lo (num "0") [] [] (some (sp "x" .lessThan "5")),
    .mk "" "" hi (num "0") [] [] (some (sp "x" .greaterOrEqual "5"))] (some .true_)

def splitTree (lo hi : String) : TreeDoc F64 :=
  { regTree lo hi with missingValueStrategy := .none, node := splitNode lo hi }

omit [Trans F64] in
theorem split_mergeable (lo hi : String) : Mergeable (splitTree lo hi) where
  regression := rfl
  strategy := .inl rfl
  preds := by
    intro x hx
    cases hx with
    | refl => exact ⟨_, rfl⟩
    | child hc hx =>
      simp only [splitTree, splitNode, Node.nodes, List.mem_cons, List.not_mem_nil, or_false] at hc
      rcases hc with rfl | rfl
      · cases hx with
        | refl => exact ⟨_, rfl⟩
        | child hc _ => simp [Node.nodes] at hc
      · cases hx with
        | refl => exact ⟨_, rfl⟩
        | child hc _ => simp [Node.nodes] at hc
  noLocals := rfl

/-- Three stumps. The scores below x = 5 are 0.1, 0.2 and 0.3. -/
def splitTrees : List (TreeDoc F64) := [splitTree "0.1" "10", splitTree "0.2" "20", splitTree "0.3" "oops"]

example : ∀ d ∈ splitTrees, Mergeable d := by
  intro d hd
  simp only [splitTrees, List.mem_cons, List.not_mem_nil, or_false] at hd
  rcases hd with rfl | rfl | rfl <;> exact split_mergeable _ _

example : List.Forall₂ IsTree (splitTrees.map treeSegment) splitTrees := by
  simp [splitTrees, treeSegment, IsTree]

-- C101: the forest is accepted; the merged tree has the same answers, among them the sum 0.6000000000000001 rounded
-- twice and the complaint about "oops". Average needs the silent trees. The other way round the stumps add up to 0.6.
example :
    let h (m : MultipleModelMethod) : MiningHead F64 := { head m with miningFields := [] }
    let forest m : ModelElem F64 := .mining (h m) (splitTrees.map treeSegment)
    let merged m k : ModelElem F64 := .mining (h m)
      (treeSegment (mergedTree Samples.dd splitTrees) :: List.replicate k (treeSegment silentTree))
    let rows : List (List (String × GoVal F64)) := [[("x", .int .int 3)], [("x", .int .int 7)], []]
    (newModel Samples.dd (forest .sum) []).1.toOption.isSome ∧
    rows.map (eval .sorted (forest .sum)) =
      [some (.ok (some (mk [("y", .f64 (num "2.2"))]))), some (fail (.parse "oops")),
        some (.ok (some (mk [("y", .f64 (num "4"))])))] ∧
    rows.map (eval .sorted (merged .sum 0)) = rows.map (eval .sorted (forest .sum)) ∧
    rows.map (eval .sorted (merged .sum 2)) = rows.map (eval .sorted (forest .sum)) ∧
    rows.map (eval .sorted (merged .average 2)) = rows.map (eval .sorted (forest .average)) ∧
    rows.map (eval .sorted (merged .average 0)) ≠ rows.map (eval .sorted (forest .average)) := by
  decide +kernel

example : sum [num "0.1", num "0.2", num "0.3"] = num "0.6000000000000001" ∧
    sum [num "0.3", num "0.2", num "0.1"] = num "0.6" := by
  decide +kernel

end Examples

end Gopmml.Props
