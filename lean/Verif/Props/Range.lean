import Verif.Proofs.F64Up
import Verif.Proofs.Memory
import Verif.Props.Mining
import Verif.Model.Samples

/-!
# Property C84: ensembles keep the order and the range of their segments

All in float64 arithmetic with its rounding: if no segment's score falls, the ensemble's answer does
not fall; and the answer of an ensemble of trees lies between the answers for the least and for the
greatest score of every tree.
-/

namespace Gopmml.Props
open Gopmml Spec F64

variable {dd : List DataField}

/-- The second answer adds at least as much to entry `k` as the first. -/
def NotAbove (fn : MiningFunction) (k : String) (out out' : Out F64) : Prop :=
  (contribution fn k out = none ∧ contribution fn k out' = none) ∨
  ∃ x y, contribution fn k out = some x ∧ contribution fn k out' = some y ∧ le x y = true

theorem sum_up {fn : MiningFunction} {k : String} {outs outs' : List (Out F64)}
    (h : List.Forall₂ (NotAbove fn k) outs outs') : ∀ z z', Up z z' →
    Up ((outs.filterMap (contribution fn k)).foldl Arith.add z)
      ((outs'.filterMap (contribution fn k)).foldl Arith.add z') := by
  induction h with
  | nil => intro z z' hz; exact hz
  | cons h1 _ ih =>
    intro z z' hz
    rcases h1 with ⟨e, e'⟩ | ⟨x, y, e, e', hxy⟩
    · rw [List.filterMap_cons_none e, List.filterMap_cons_none e']
      exact ih z z' hz
    · rw [List.filterMap_cons_some e, List.filterMap_cons_some e']
      exact ih _ _ (hz.add (Up.of_le hxy))

theorem ensembleSum_up {h : MiningHead F64} {k : String} {outs outs' : List (Out F64)}
    (hf : ∀ t ∈ h.targets, t.field = k → ∀ c, t.rescaleFactor = some c → le Arith.zero c = true)
    (ho : List.Forall₂ (NotAbove h.functionName k) outs outs') :
    Up (ensembleSum h outs k) (ensembleSum h outs' k) := by
  unfold ensembleSum
  refine Up.rescaled ?_ _ ?_
  · exact sum_up ho _ _ (Up.refl _)
  · intro t ht c hc
    simp only [List.mem_filter, decide_eq_true_eq] at ht
    exact hf t ht.1 ht.2 c hc

variable [Trans F64]

/-- **C84** (order): two rows, the same sum or average ensemble with factors that are not negative.
If no segment adds less on the second row, then neither does the ensemble answer less, unless one
answer is NaN. -/
theorem C84_order {h : MiningHead F64} {segs : List (SegDoc F64)} {td td' : TD F64} {M : EModel F64}
    (hM : newModel dd (.mining h segs) td = (.ok M, td')) (hm : usesMethod h .sum ∨ usesMethod h .average)
    {k : String} (hk : k ∈ ensembleKeys h)
    (hf : ∀ t ∈ h.targets, t.field = k → ∀ c, t.rescaleFactor = some c → le Arith.zero c = true)
    {row row2 row' row2' : Row F64} (hp : Prepared h row (.ok ()) row2) (hp' : Prepared h row' (.ok ()) row2')
    (o o' : MapOrd) {out out' : GoMap (GoVal F64)}
    (h1 : (EModel.evaluate o M row).res = .ok (some out)) (h2 : (EModel.evaluate o' M row').res = .ok (some out')) :
    ∃ ms outs outs' rowE rowE', SegModels dd segs (td ++ h.localTransformations) ms td' ∧
      SegsRun ms row2 (.ok outs) rowE ∧ SegsRun ms row2' (.ok outs') rowE' ∧
      (List.Forall₂ (NotAbove h.functionName k) outs outs' →
        ∃ x y : F64, out[k]? = some (.f64 x) ∧ out'[k]? = some (.f64 y) ∧
          (x ≠ nan → y ≠ nan → Arith.le x y = true)) := by
  rcases hm with hm | hm
  · obtain ⟨ms, r, rowE, hms, hrun, -, herr, hok⟩ := C36_sum hM hm hp o
    obtain ⟨ms', r', rowE', hms', hrun', -, herr', hok'⟩ := C36_sum hM hm hp' o'
    obtain rfl : ms = ms' := by
      have := hms.compile.symm.trans hms'.compile
      simp at this; exact this
    cases r with
    | error e => rw [herr e rfl] at h1; simp at h1
    | ok outs =>
      cases r' with
      | error e => rw [herr' e rfl] at h2; simp at h2
      | ok outs' =>
        obtain ⟨out0, e1, hv⟩ := hok outs rfl
        obtain ⟨out0', e2, hv'⟩ := hok' outs' rfl
        rw [e1] at h1; simp at h1; subst h1
        rw [e2] at h2; simp at h2; subst h2
        refine ⟨ms, outs, outs', rowE, rowE', hms, hrun, hrun', fun ho => ?_⟩
        exact ⟨_, _, by rw [hv, if_pos hk], by rw [hv', if_pos hk], ensembleSum_up hf ho⟩
  · obtain ⟨ms, r, rowE, hms, hrun, -, herr, hok⟩ := C37_average hM hm hp o
    obtain ⟨ms', r', rowE', hms', hrun', -, herr', hok'⟩ := C37_average hM hm hp' o'
    obtain rfl : ms = ms' := by
      have := hms.compile.symm.trans hms'.compile
      simp at this; exact this
    cases r with
    | error e => rw [herr e rfl] at h1; simp at h1
    | ok outs =>
      cases r' with
      | error e => rw [herr' e rfl] at h2; simp at h2
      | ok outs' =>
        obtain ⟨out0, e1, hv⟩ := hok outs rfl
        obtain ⟨out0', e2, hv'⟩ := hok' outs' rfl
        rw [e1] at h1; simp at h1; subst h1
        rw [e2] at h2; simp at h2; subst h2
        refine ⟨ms, outs, outs', rowE, rowE', hms, hrun, hrun', fun ho => ?_⟩
        refine ⟨_, _, by rw [hv, if_pos hk], by rw [hv', if_pos hk], ?_⟩
        by_cases hn : segs.length = 0
        · -- without segments both answers are the same
          have hs : segs = [] := List.eq_nil_of_length_eq_zero hn
          subst hs
          cases hms
          cases hrun
          cases hrun'
          exact Up.refl _
        · exact (ensembleSum_up hf ho).div (one_le_ofInt hn)

/-! ### The range of an ensemble of trees -/

omit [Trans F64] in
/-- Every score of a regression tree is the number some label of the document stands for. -/
theorem tree_score_in {td td' : TD F64} {d : TreeDoc F64} {m : TreeModel F64}
    (h : newTreeModel dd td d = (.ok m, td')) (hf : d.functionName = .regression) (o : MapOrd) (row : Row F64)
    {out : GoMap (GoVal F64)} (hr : (m.evaluate o row).res = .ok (some out)) :
    ∃ l ∈ treeLabels dd d, ∃ x, Lib.parseFloat l = some x ∧ out = (∅ : GoMap (GoVal F64)).insert "score" (.f64 x) := by
  obtain ⟨-, -, hv, hc, hk, hm, ht, hx, hn⟩ := newTreeModel_ok h
  have hd := treeModel_dd h
  rw [(evaluate_eq hv hc (by rw [hk]; exact keysOk_empty) o row).2.1] at hr
  rcases hin : handleInput m.model.localTransformations row with ⟨e | ⟨⟨⟩⟩, row1⟩ <;> rw [hin] at hr
  · simp at hr
  · simp only at hr
    cases hev : evalNode m.ctx o row1 m.root with
    | error e => rw [hev] at hr; simp at hr
    | ok a =>
      have hds : DistIn (treeLabels dd d) a.1 := by
        refine evalNode_in (c := m.ctx) ?_ row1 o m.root ?_ _ hev
        · intro v hv
          simp only [TreeModel.ctx, hd, ht] at hv
          simp only [treeLabels, List.mem_append]; exact .inr hv
        · rw [newNode_labels _ _ hn]; intro l hl; simp only [treeLabels, List.mem_append]; exact .inl hl
      rw [hev] at hr
      obtain ⟨ds, tv⟩ := a
      simp only [hm, hf, report] at hr
      split_ifs at hr with htv
      · simp at hr
      · cases ds with
        | nil => simp at hr
        | cons s ds =>
          simp only at hr
          cases hp : Lib.parseFloat (F := F64) s.value with
          | none => rw [hp] at hr; simp at hr
          | some x =>
            rw [hp] at hr
            simp at hr
            exact ⟨s.value, hds s (by simp), x, hp, hr.symm⟩

/-- The segment is a regression tree all of whose labels stand for numbers from `b.1` to `b.2` (or
for none). -/
def WithinSeg (dd : List DataField) (seg : SegDoc F64) (b : F64 × F64) : Prop :=
  ∃ id ps d, seg = .mk id ps [.tree d] ∧ d.functionName = .regression ∧
    ∀ l ∈ treeLabels dd d, ∀ x, Lib.parseFloat l = some x → le b.1 x = true ∧ le x b.2 = true

/-- A segment may give no prediction only if its range contains zero. -/
def MayBeNone (out : Out F64) (b : F64 × F64) : Prop :=
  out = none → le b.1 Arith.zero = true ∧ le Arith.zero b.2 = true

theorem segs_within {segs : List (SegDoc F64)} {bs : List (F64 × F64)} (hw : List.Forall₂ (WithinSeg dd) segs bs) :
    ∀ {td td' : TD F64} {ms : List (EModel F64)} {row rowE : Row F64} {outs : List (Out F64)},
    SegModels dd segs td ms td' → SegsRun ms row (.ok outs) rowE →
    List.Forall₂ (fun out b => ∀ o, out = some o →
      ∃ x, o = (∅ : GoMap (GoVal F64)).insert "score" (.f64 x) ∧ le b.1 x = true ∧ le x b.2 = true) outs bs := by
  induction hw with
  | nil =>
    intro td td' ms row rowE outs hms hrun
    cases hms
    cases hrun
    exact .nil
  | @cons seg b segs bs h1 _ ih =>
    intro td td' ms row rowE outs hms hrun
    cases hms with
    | @cons id ps e _ _ td1 _ m ms hm hms =>
      generalize hr : (Except.ok outs : Res (List (Out F64))) = r at hrun
      cases hrun with
      | fail he => simp at hr
      | @cons _ _ _ o out r' _ he hrest =>
        cases r' with
        | error e => simp [Except.map] at hr
        | ok outs' =>
          simp [Except.map] at hr
          subst hr
          refine .cons ?_ (ih hms hrest)
          rintro w rfl
          obtain ⟨id', ps', d, hs, hf, hb⟩ := h1
          simp only [SegDoc.mk.injEq, List.cons.injEq, and_true] at hs
          obtain ⟨-, -, rfl⟩ := hs
          rw [newModel] at hm
          rcases ht : newTreeModel dd td d with ⟨_ | t, td2⟩ <;> rw [ht] at hm
          · simp at hm
          · simp at hm
            obtain ⟨rfl, -⟩ := hm
            obtain ⟨l, hl, x, hx, hout⟩ := tree_score_in ht hf o row (by simpa [EModel.evaluate] using he)
            exact ⟨x, hout, hb l hl x hx⟩

omit [Trans F64] in
theorem range_up {k : String} {fn : MiningFunction} (hfn : fn ≠ .classification) {outs : List (Out F64)}
    {bs : List (F64 × F64)}
    (h : List.Forall₂ (fun out b => ∀ o, out = some o →
      ∃ x, o = (∅ : GoMap (GoVal F64)).insert "score" (.f64 x) ∧ le b.1 x = true ∧ le x b.2 = true) outs bs)
    (ha : List.Forall₂ MayBeNone outs bs) : ∀ lo z hi, Up lo z → Up z hi →
    Up ((bs.map (·.1)).foldl Arith.add lo) ((outs.filterMap (contribution fn k)).foldl Arith.add z) ∧
    Up ((outs.filterMap (contribution fn k)).foldl Arith.add z) ((bs.map (·.2)).foldl Arith.add hi) := by
  induction h with
  | nil => intro lo z hi h1 h2; exact ⟨h1, h2⟩
  | @cons out b outs bs h1 _ ih =>
    intro lo z hi hlo hhi
    cases ha with
    | cons ha1 ha2 =>
      cases out with
      | none =>
        have hc : contribution fn k (none : Out F64) = none := rfl
        rw [List.filterMap_cons_none hc]
        obtain ⟨hb1, hb2⟩ := ha1 rfl
        exact ih ha2 _ _ _ (hlo.add_left hb1) (hhi.add_right hb2)
      | some w =>
        obtain ⟨x, rfl, hb1, hb2⟩ := h1 w rfl
        have hc : contribution fn k (some ((∅ : GoMap (GoVal F64)).insert "score" (.f64 x))) = some x := by
          simp [contribution, hfn, GoVal.float64]
        rw [List.filterMap_cons_some hc]
        exact ih ha2 _ _ _ (hlo.add (Up.of_le hb1)) (hhi.add (Up.of_le hb2))

/-- The answer of an ensemble whose segments add the given numbers. -/
def answerFor (h : MiningHead F64) (n : Nat) (k : String) (xs : List F64) : F64 :=
  let x := rescaled (sum xs) (h.targets.filter (fun t => t.field = k))
  if effectiveMethod h.method = .average then Arith.div x (Arith.ofInt n) else x

/-- **C84** (range): a sum or average ensemble of regression trees, every tree with a range for its
scores (containing zero if the tree may give no prediction).  On every row every answer lies
between the float64 answers for the least and for the greatest scores, unless NaN is involved. -/
theorem C84_range {h : MiningHead F64} {segs : List (SegDoc F64)} {td td' : TD F64} {M : EModel F64}
    (hM : newModel dd (.mining h segs) td = (.ok M, td')) (hm : usesMethod h .sum ∨ usesMethod h .average)
    (hfn : h.functionName ≠ .classification) {k : String} (hk : k ∈ ensembleKeys h)
    (hf : ∀ t ∈ h.targets, t.field = k → ∀ c, t.rescaleFactor = some c → le Arith.zero c = true)
    {bs : List (F64 × F64)} (hb : List.Forall₂ (WithinSeg dd) segs bs)
    {row row2 : Row F64} (hp : Prepared h row (.ok ()) row2) (o : MapOrd) {out : GoMap (GoVal F64)}
    (h1 : (EModel.evaluate o M row).res = .ok (some out)) :
    ∃ ms outs rowE, SegModels dd segs (td ++ h.localTransformations) ms td' ∧ SegsRun ms row2 (.ok outs) rowE ∧
      (List.Forall₂ MayBeNone outs bs → ∃ x : F64, out[k]? = some (.f64 x) ∧
        (x ≠ nan → answerFor h segs.length k (bs.map (·.1)) ≠ nan →
          Arith.le (answerFor h segs.length k (bs.map (·.1))) x = true) ∧
        (x ≠ nan → answerFor h segs.length k (bs.map (·.2)) ≠ nan →
          Arith.le x (answerFor h segs.length k (bs.map (·.2))) = true)) := by
  have hts : ∀ t ∈ h.targets.filter (fun t => t.field = k), ∀ c, t.rescaleFactor = some c →
      le Arith.zero c = true := by
    intro t ht c hc
    simp only [List.mem_filter, decide_eq_true_eq] at ht
    exact hf t ht.1 ht.2 c hc
  rcases hm with hm | hm
  · obtain ⟨ms, r, rowE, hms, hrun, -, herr, hok⟩ := C36_sum hM hm hp o
    cases r with
    | error e => rw [herr e rfl] at h1; simp at h1
    | ok outs =>
      obtain ⟨out0, e1, hv⟩ := hok outs rfl
      rw [e1] at h1; simp at h1; subst h1
      refine ⟨ms, outs, rowE, hms, hrun, fun ha => ⟨_, by rw [hv, if_pos hk], ?_⟩⟩
      have hr := range_up (k := k) hfn (segs_within hb hms hrun) ha _ _ _ (Up.refl Arith.zero) (Up.refl Arith.zero)
      have hmeth : effectiveMethod h.method ≠ .average := by
        have : effectiveMethod h.method = .sum := hm
        rw [this]; simp
      simp only [answerFor, if_neg hmeth]
      exact ⟨fun a b => (hr.1.rescaled _ hts) b a, fun a b => (hr.2.rescaled _ hts) a b⟩
  · obtain ⟨ms, r, rowE, hms, hrun, -, herr, hok⟩ := C37_average hM hm hp o
    cases r with
    | error e => rw [herr e rfl] at h1; simp at h1
    | ok outs =>
      obtain ⟨out0, e1, hv⟩ := hok outs rfl
      rw [e1] at h1; simp at h1; subst h1
      refine ⟨ms, outs, rowE, hms, hrun, fun ha => ⟨_, by rw [hv, if_pos hk], ?_⟩⟩
      have hr := range_up (k := k) hfn (segs_within hb hms hrun) ha _ _ _ (Up.refl Arith.zero) (Up.refl Arith.zero)
      have hmeth : effectiveMethod h.method = .average := hm
      simp only [answerFor, if_pos hmeth]
      by_cases hn : segs.length = 0
      · have hs : segs = [] := List.eq_nil_of_length_eq_zero hn
        subst hs
        cases hms
        cases hrun
        cases hb
        exact ⟨fun a _ => le_refl a, fun a _ => le_refl a⟩
      · exact ⟨fun a b => ((hr.1.rescaled _ hts).div (one_le_ofInt hn)) b a,
          fun a b => ((hr.2.rescaled _ hts).div (one_le_ofInt hn)) a b⟩

end Gopmml.Props

namespace Gopmml.Props
open Gopmml Spec F64

section
open Samples Replay

/-- A tree that always scores the given number. -/
def always (label : String) : TreeDoc F64 :=
  { regTree label label with node := .mk "" "" label (num "0") [] [] (some .true_) }

/-- The average of three such trees. -/
def threeTimes (label : String) : ModelElem F64 :=
  .mining { head .average with miningFields := [], targets := [⟨"y", none, none⟩] }
    [seg (.tree (always label)), seg (.tree (always label)), seg (.tree (always label))]

/-- **C84**: the range cannot be had from the scores alone: the float64 average of three trees that
all score 0.1 is above 0.1.  (In exact arithmetic it is between the least and the greatest
score, C37_between.) -/
theorem C84_average_outside : eval .sorted (threeTimes "0.1") [] =
      some (.ok (some (mk [("y", .f64 (num "0.10000000000000002"))]))) ∧
    Arith.lt (num "0.1") (num "0.10000000000000002" : F64) = true := by
  decide +kernel

-- The bound of C84_range for it is reached.
example : answerFor { head .average with targets := [⟨"y", none, none⟩] } 3 "y" [num "0.1", num "0.1", num "0.1"] =
    num "0.10000000000000002" := by
  decide +kernel

-- The ranges of the three trees of the sample ensemble: root label 0, leaves as given.
example : List.Forall₂ (WithinSeg Samples.dd)
    [seg (.tree (regTree "1" "10")), seg (.tree (regTree "2" "20")), seg (.tree (regTree "4" "40"))]
    [(num "0", num "10"), (num "0", num "20"), (num "0", num "40")] := by
  have key : ∀ lo hi : String, (∀ l ∈ treeLabels Samples.dd (regTree lo hi), l = "0" ∨ l = lo ∨ l = hi) := by
    intro lo hi l hl
    simp only [treeLabels, labels, labelsList, regTree, List.map_nil, List.nil_append, List.append_nil,
      List.cons_append, List.mem_cons, targetValues, Samples.dd, targetOf, active] at hl
    revert hl
    simp
  have within : ∀ l (b : F64 × F64), ((Lib.parseFloat l : Option F64).all fun x => le b.1 x && le x b.2) = true →
      ∀ x, Lib.parseFloat l = some x → le b.1 x = true ∧ le x b.2 = true := by
    intro l b h x hx
    rw [hx] at h
    simpa using h
  refine .cons ⟨"", [.true_], _, rfl, rfl, ?_⟩ (.cons ⟨"", [.true_], _, rfl, rfl, ?_⟩
    (.cons ⟨"", [.true_], _, rfl, rfl, ?_⟩ .nil))
  all_goals
    intro l hl
    refine within l _ ?_
    rcases key _ _ l hl with rfl | rfl | rfl <;> decide +kernel

-- Its answers: from 1 (no tree answers more than 0) to 141.
example : answerFor (head .sum) 3 "y" [num "0", num "0", num "0"] = num "1" ∧
    answerFor (head .sum) 3 "y" [num "10", num "20", num "40"] = num "141" := by
  decide +kernel

-- Segments that add more and more.
example : List.Forall₂ (NotAbove .regression "y") [some (mk [("score", .f64 (num "1"))]), none]
    [some (mk [("score", .f64 (num "10"))]), none] := by
  refine .cons (.inr ⟨num "1", num "10", ?_, ?_, ?_⟩) (.cons (.inl ⟨rfl, rfl⟩) .nil) <;> decide +kernel

end

end Gopmml.Props
