import Verif.Proofs.F64Error
import Verif.Props.Mining
import Verif.Props.Regression
import Verif.Props.Strategies
import Verif.Proofs.Best

/-!
# C72: rounding errors of float64 answers
-/

namespace Gopmml.Props
open Gopmml Spec F64

variable [Lib F64] [Trans F64] {dd : List DataField} {td td' : TD F64} {o : MapOrd} {row row2 : Row F64}

/-- No target rescales entry `k`. -/
def Unscaled (h : MiningHead F64) (k : String) : Prop :=
  ∀ t ∈ h.targets, t.field = k → t.rescaleFactor = none ∧ t.rescaleConstant = none

omit [Lib F64] [Trans F64] in
theorem rescaled_id {x : F64} {ts : List (Target F64)}
    (h : ∀ t ∈ ts, t.rescaleFactor = none ∧ t.rescaleConstant = none) : rescaled x ts = x := by
  induction ts with
  | nil => rfl
  | cons t ts ih =>
    obtain ⟨h1, h2⟩ := h t (List.mem_cons_self ..)
    rw [rescaled, h1, h2]
    exact ih (fun t ht => h t (List.mem_cons_of_mem _ ht))

omit [Trans F64] in
theorem ensembleSum_unscaled {h : MiningHead F64} {k : String} (hu : Unscaled h k) (outs : List (Out F64)) :
    ensembleSum h outs k = (outs.filterMap (contribution h.functionName k)).foldl F64.add F64.zero := by
  unfold ensembleSum
  rw [rescaled_id]
  · unfold Spec.sum
    rw [arith_zero]
    change List.foldl F64.add _ _ = _
    congr 1
  · intro t ht
    rw [List.mem_filter, decide_eq_true_eq] at ht
    exact hu t ht.1 ht.2

omit [Lib F64] [Trans F64] in
theorem sum_error {xs : List F64} {c : ℚ} (h : (xs.foldl F64.add F64.zero).val = some c) :
    ∃ qs : List ℚ, xs.map val = qs.map some ∧
      |c - qs.sum| ≤ ((1 + uu) ^ qs.length - 1) * (qs.map (|·|)).sum := by
  obtain ⟨-, qs, hqs⟩ := foldl_val_of h
  refine ⟨qs, hqs, ?_⟩
  have := foldl_error (z := F64.zero) (a := 0) rfl hqs h
  simpa using this

/-- **C72**: entry `k` of a sum ensemble, when it is a finite number: the numbers its segments
contribute are finite, and it differs from their exact sum by at most `((1 + 2^-53)^n - 1)` times
the sum of their absolute values, `n` the number of contributions. -/
theorem C72_sum {h : MiningHead F64} {segs : List (SegDoc F64)} {M : EModel F64}
    (hM : newModel dd (.mining h segs) td = (.ok M, td')) (hm : usesMethod h .sum)
    (hp : Prepared h row (.ok ()) row2) {k : String} (hu : Unscaled h k) {out : GoMap (GoVal F64)}
    (hr : (EModel.evaluate o M row).res = .ok (some out)) {x : F64} (hx : out[k]? = some (.f64 x))
    {c : ℚ} (hc : x.val = some c) :
    ∃ ms outs row', SegModels dd segs (td ++ h.localTransformations) ms td' ∧
      SegsRun ms row2 (.ok outs) row' ∧
      ∃ qs : List ℚ, (outs.filterMap (contribution h.functionName k)).map val = qs.map some ∧
        |c - qs.sum| ≤ ((1 + uu) ^ qs.length - 1) * (qs.map (|·|)).sum := by
  obtain ⟨ms, r, row', h1, h2, -, h4, h5⟩ := C36_sum hM hm hp o
  cases r with
  | error e => rw [h4 e rfl] at hr; cases hr
  | ok outs =>
    obtain ⟨out', ho, hk⟩ := h5 outs rfl
    rw [hr] at ho
    cases ho
    refine ⟨ms, outs, row', h1, h2, ?_⟩
    rw [hk] at hx
    split_ifs at hx
    cases hx
    rw [ensembleSum_unscaled hu] at hc
    exact sum_error hc

omit [Lib F64] [Trans F64] in
theorem ofInt_val {n : Nat} (h : n ≤ 2 ^ 53) : (Arith.ofInt (n : Int) : F64).val = some (n : ℚ) := by
  have hg : Grid 53 (-1074) (n : ℚ) := by
    refine ⟨n, 0, ?_, by norm_num, by simp [pow2]⟩
    rw [abs_of_nonneg (by positivity)]
    exact_mod_cast h
  have hr := roundQ_exact (by norm_num) hg
  change (F64.ofRat false ((n : Int) : ℚ)).val = _
  rw [show (((n : Int) : ℚ)) = (n : ℚ) by norm_cast, ofRat_fin (by
    rw [hr, abs_of_nonneg (by positivity)]
    have h1 : (n : ℚ) ≤ pow2 53 := by
      rw [show (53 : Int) = ((53 : Nat) : Int) by rfl, pow2_nat]; exact_mod_cast h
    exact lt_of_le_of_lt h1 (pow2_lt_iff.mpr (by norm_num))), hr]

/-- **C72**: entry `k` of an averaging ensemble of `N` segments, when the sum it divides is finite:
it differs from the exact sum of the contributions, over `N`, by at most `((1 + 2^-53)^(n+1) - 1)`
times the sum of their absolute values, over `N`, plus `2^-1075`. -/
theorem C72_average {h : MiningHead F64} {segs : List (SegDoc F64)} {M : EModel F64}
    (hM : newModel dd (.mining h segs) td = (.ok M, td')) (hm : usesMethod h .average)
    (hp : Prepared h row (.ok ()) row2) {k : String} (hu : Unscaled h k) (hN : segs.length ≤ 2 ^ 53)
    {out : GoMap (GoVal F64)}
    (hr : (EModel.evaluate o M row).res = .ok (some out)) {x : F64} (hx : out[k]? = some (.f64 x))
    {c : ℚ} (hc : x.val = some c) :
    ∃ ms outs row', SegModels dd segs (td ++ h.localTransformations) ms td' ∧
      SegsRun ms row2 (.ok outs) row' ∧ segs ≠ [] ∧
      ∃ qs : List ℚ, (outs.filterMap (contribution h.functionName k)).map val = qs.map some ∧
        |c - qs.sum / segs.length| ≤
          ((1 + uu) ^ (qs.length + 1) - 1) * ((qs.map (|·|)).sum / segs.length) + eta := by
  obtain ⟨ms, r, row', h1, h2, -, h4, h5⟩ := C37_average hM hm hp o
  cases r with
  | error e => rw [h4 e rfl] at hr; cases hr
  | ok outs =>
    obtain ⟨out', ho, hk⟩ := h5 outs rfl
    rw [hr] at ho
    cases ho
    rw [hk] at hx
    split_ifs at hx
    cases hx
    rw [ensembleSum_unscaled hu] at hc
    generalize hxs : outs.filterMap (contribution h.functionName k) = xs at *
    have hn := ofInt_val hN
    change (F64.div (xs.foldl F64.add F64.zero) (Arith.ofInt (segs.length : Int))).val = some c at hc
    -- a quotient by a finite number is finite only if the dividend is
    have hs : ∃ s, (xs.foldl F64.add F64.zero).val = some s := by
      generalize xs.foldl F64.add F64.zero = y at hc
      generalize (Arith.ofInt (segs.length : Int) : F64) = w at hc hn
      cases y with
      | nan => simp [F64.div, val] at hc
      | inf b => cases w <;> simp [F64.div, val] at hc hn
      | negZero => exact ⟨_, rfl⟩
      | fin q hq => exact ⟨_, rfl⟩
    obtain ⟨s, hs⟩ := hs
    obtain ⟨h0, h6⟩ := div_error hs hn hc
    obtain ⟨qs, hqs, h7⟩ := sum_error hs
    refine ⟨ms, outs, row', h1, h2, ?_, qs, hxs ▸ hqs, ?_⟩
    · rintro rfl; simp at h0
    have hNpos : (0 : ℚ) < segs.length := lt_of_le_of_ne (by positivity) (Ne.symm h0)
    have hA := abs_list_sum_nonneg qs
    have hT : |qs.sum| ≤ (qs.map (|·|)).sum := abs_sum_le_sum qs
    have hg := pow_one_le qs.length
    have hu := uu_pos
    rw [pow_succ]
    generalize (1 + uu) ^ qs.length = g at *
    generalize (qs.map (|·|)).sum = A at *
    generalize (segs.length : ℚ) = N at *
    have h8 : |s / N - qs.sum / N| ≤ (g - 1) * (A / N) := by
      rw [← sub_div, abs_div, abs_of_pos hNpos, ← mul_div_assoc]
      exact div_le_div_of_nonneg_right h7 hNpos.le
    have h9 : |s / N| ≤ g * (A / N) := by
      rw [abs_div, abs_of_pos hNpos, ← mul_div_assoc]
      apply div_le_div_of_nonneg_right _ hNpos.le
      have := abs_add_le (s - qs.sum) qs.sum
      rw [sub_add_cancel] at this
      linarith
    have h10 := abs_add_le (c - s / N) (s / N - qs.sum / N)
    rw [show c - s / N + (s / N - qs.sum / N) = c - qs.sum / N by ring] at h10
    have h11 : uu * |s / N| ≤ uu * (g * (A / N)) := mul_le_mul_of_nonneg_left h9 hu.le
    nlinarith

/-- **C72**: the linear predictor of a regression.  The reported number is the link function at
some float64 `y`; if `y` is finite, so are the intercept, the coefficients and the values, and `y`
differs from the exact value of the linear predictor by at most `((1 + 2^-53)^(n+1) - 1)` times the
sum of the absolute values of its terms, plus `(1 + 2^-53)^n n 2^-1075`. -/
theorem C72_regression {d : RegressionDoc F64} {m : EModel F64} (h : newModel dd (.regression d) td = (.ok m, td'))
    (hf : d.functionName = .regression) {t : RegressionTable F64} (ht : d.tables = [t])
    {f : OutputField} (ho : d.outputs = [f]) {out : GoMap (GoVal F64)}
    (hr : (m.evaluate o row).res = .ok (some out)) :
    ∃ g y, link d.normalization = some g ∧ out[f.name]? = some (.f64 (g y)) ∧
      ∀ c, y.val = some c → ∃ (a : ℚ) (qs : List (ℚ × ℚ)), t.intercept.val = some a ∧
        t.predictors.map (fun np => (np.coefficient.val, ((row.get np.name).getD .nil).float64.val)) =
          qs.map (fun q => (some q.1, some q.2)) ∧
        |c - (a + (qs.map fun q => q.1 * q.2).sum)| ≤
          ((1 + uu) ^ (t.predictors.length + 1) - 1) * (|a| + (qs.map fun q => |q.1 * q.2|).sum) +
          (1 + uu) ^ t.predictors.length * t.predictors.length * eta := by
  have hev := C45_regression h hf ht ho o row
  rw [hr] at hev
  cases hm : firstMissing row t.predictors with
  | some k => rw [hm] at hev; cases hev
  | none =>
    cases hg : link (F := F64) d.normalization with
    | none => rw [hm, hg] at hev; cases hev
    | some g =>
      rw [hm, hg] at hev
      simp only [Except.ok.injEq, Option.some.injEq] at hev
      refine ⟨g, linear row t, rfl, by rw [hev]; simp, ?_⟩
      intro c hc
      have hl : linear row t = ((t.predictors.map fun np => (np.coefficient, valueOf row np.name)).map
          fun p => F64.mul p.1 p.2).foldl F64.add t.intercept := by
        unfold linear; rw [List.map_map]; rfl
      rw [hl] at hc
      obtain ⟨a, qs, h1, h2, h3⟩ := linear_error hc
      rw [List.map_map] at h2
      have hlen : qs.length = t.predictors.length := by
        have := congrArg List.length h2; simpa using this.symm
      rw [hlen] at h3
      exact ⟨a, qs, h1, h2, h3⟩

/-- The entries under the given names are finite numbers between nought and one, whose exact sum
is one up to `3 (n + 1) 2^-53`. -/
def NearlyOne (out : GoMap (GoVal F64)) (names : List String) : Prop :=
  ∃ ps : List ℚ, (names.map fun k => (out[k]?).bind fun v => match v with | .f64 x => x.val | _ => none) = ps.map some ∧
    (∀ p ∈ ps, 0 ≤ p ∧ p ≤ 1) ∧ |ps.sum - 1| ≤ 3 * (names.length + 1) * uu

omit [Trans F64] in
/-- **C72**: a tree whose answering node is a leaf listing record counts: with finite counts that are not
negative, and a finite total that is not zero, the probabilities reported lie between nought and
one and their exact sum is one up to `3 (n + 1) 2^-53`, `n` the number of labels. -/
theorem C72_probabilities {d : TreeDoc F64} {m : TreeModel F64} {row' : Row F64}
    (h : newTreeModel dd td d = (.ok m, td')) (hp : AllPreds d.node)
    (hs : d.missingValueStrategy = .none ∨ ∃ s, d.missingValueStrategy = .other s)
    (hf : d.functionName = .classification)
    (hi : handleInput d.localTransformations row = (.ok (), row'))
    (hT : nodeTest (treeTypes dd td d) row' d.node = .t) {r : Node F64}
    (hr : FirstTrue (nodeTest (treeTypes dd td d) row') d.node r) (hleaf : r.nodes = [])
    (hpr : ∀ s ∈ r.dists, s.probability = none) (hnd : (r.dists.map (·.value)).Nodup)
    (hct : ∀ s ∈ r.dists, ∃ q, s.recordCount.val = some q ∧ 0 ≤ q)
    {t : ℚ} (ht : ((r.dists.map (·.recordCount)).foldl F64.add F64.zero).val = some t) (ht0 : t ≠ 0)
    (hl : r.dists.length ≤ 2 ^ 50) :
    ∃ out : GoMap (GoVal F64), (m.evaluate o row).res = .ok (some out) ∧
      NearlyOne out (r.dists.map fun s => "probability(" ++ s.value ++ ")") := by
  obtain ⟨r', h1, -, h2⟩ := (C12_first_true_child h hp hs hi o).2 hT
  rw [firstTrue_unique h1 hr, hf] at h2
  have hne : r.dists ≠ [] := by
    intro e
    rw [e] at ht
    exact ht0 (by simpa [F64.zero, val] using ht.symm)
  have hown : ownDist dd d r = declaredDist r.dists := by
    unfold ownDist
    rw [if_neg (by simp [hleaf]), if_pos hne]
  rw [hown] at h2
  simp only [report, ne_eq, not_true_eq_false, if_false] at h2
  refine ⟨_, h2, ?_⟩
  have hex : ∃ qs : List ℚ, (r.dists.map (·.recordCount)).map val = qs.map some ∧ ∀ q ∈ qs, 0 ≤ q := by
    clear ht hl hnd hne hown h2 hpr
    generalize r.dists = l at hct
    induction l with
    | nil => exact ⟨[], rfl, by simp⟩
    | cons s l ih =>
      obtain ⟨q, hq, hq0⟩ := hct s (List.mem_cons_self ..)
      obtain ⟨qs, hqs, hqs0⟩ := ih (fun s hs => hct s (List.mem_cons_of_mem _ hs))
      refine ⟨q :: qs, by simp [hq, ← hqs], ?_⟩
      intro q' hq'
      rcases List.mem_cons.mp hq' with rfl | hq'
      · exact hq0
      · exact hqs0 q' hq'
  obtain ⟨qs, hqs, hqs0⟩ := hex
  obtain ⟨ps, hps, h01, hsum⟩ := shares_error hqs hqs0 ht ht0 (by simpa using hl)
  refine ⟨ps, ?_, h01, by simpa using hsum⟩
  rw [← hps, List.map_map, List.map_map, List.map_map]
  apply List.map_congr_left
  intro s hs
  simp only [Function.comp]
  rw [classRow_prob]
  have hvals : (declaredDist r.dists).map (·.value) = r.dists.map (·.value) := by
    unfold declaredDist; rw [List.map_map]; rfl
  obtain ⟨s', hmem, hval, hprob⟩ : ∃ s' ∈ declaredDist r.dists, s'.value = s.value ∧
      s'.probability = F64.div s.recordCount ((r.dists.map (·.recordCount)).foldl F64.add F64.zero) := by
    refine ⟨_, List.mem_map.mpr ⟨s, hs, rfl⟩, rfl, ?_⟩
    simp only [hpr s hs, ← arith_zero]
    rfl
  cases hl : ((declaredDist r.dists).filter (fun t => decide (t.value = s.value))).getLast? with
  | none =>
    rw [List.getLast?_eq_none_iff, List.filter_eq_nil_iff] at hl
    exact absurd (hl s' hmem) (by simp [hval])
  | some t =>
    have := List.mem_of_getLast? hl
    simp only [List.mem_filter, decide_eq_true_eq] at this
    rw [List.inj_on_of_nodup_map (hvals ▸ hnd) this.1 hmem (this.2.trans hval.symm)]
    simp only [Option.bind_some, hprob]

/-- **C72**: a classification with softmax or simplemax and differently named tables: with finite
weights that are not negative, and a finite total that is not zero, the numbers reported lie between nought
and one and their exact sum is one up to `3 (n + 1) 2^-53`, `n` the number of tables. -/
theorem C72_multiclass {d : RegressionDoc F64} {m : EModel F64}
    (h : newModel dd (.regression d) td = (.ok m, td')) (hf : d.functionName = .classification)
    (ho : d.outputs.length ≠ 2) {g : F64 → F64} (hg : weight d.normalization = some g)
    (hd : (d.tables.map fun t => reportedAs d.outputs t.targetCategory).Nodup)
    (hp : firstMissing row (allPredictors d) = none)
    (hw : ∀ t ∈ d.tables, ∃ q, (g (linear row t)).val = some q ∧ 0 ≤ q)
    {b : ℚ} (hb : ((d.tables.map fun t => g (linear row t)).foldl F64.add F64.zero).val = some b) (hb0 : b ≠ 0)
    (hl : d.tables.length ≤ 2 ^ 50) :
    ∃ out : GoMap (GoVal F64), (m.evaluate o row).res = .ok (some out) ∧
      NearlyOne out (d.tables.map fun t => reportedAs d.outputs t.targetCategory) := by
  have H := C46_multiclass h hf ho o row
  rw [hp, hg] at H
  obtain ⟨out, h1, h2⟩ := H
  refine ⟨out, h1, ?_⟩
  have hex : ∃ qs : List ℚ, (d.tables.map fun t => g (linear row t)).map val = qs.map some ∧ ∀ q ∈ qs, 0 ≤ q := by
    clear hb hl hd h2
    generalize d.tables = l at hw
    induction l with
    | nil => exact ⟨[], rfl, by simp⟩
    | cons s l ih =>
      obtain ⟨q, hq, hq0⟩ := hw s (List.mem_cons_self ..)
      obtain ⟨qs, hqs, hqs0⟩ := ih (fun s hs => hw s (List.mem_cons_of_mem _ hs))
      refine ⟨q :: qs, by simp [hq, ← hqs], ?_⟩
      intro q' hq'
      rcases List.mem_cons.mp hq' with rfl | hq'
      · exact hq0
      · exact hqs0 q' hq'
  obtain ⟨qs, hqs, hqs0⟩ := hex
  obtain ⟨ps, hps, h01, hsum⟩ := shares_error hqs hqs0 hb hb0 (by simpa using hl)
  refine ⟨ps, ?_, h01, by simpa using hsum⟩
  rw [← hps, List.map_map, List.map_map, List.map_map]
  apply List.map_congr_left
  intro t ht
  simp only [Function.comp]
  rw [h2, getLast?_filter_nodup hd ht]
  simp only [Option.map_some, Option.bind_some, share, List.map_map, arith_zero]
  rfl

end Gopmml.Props

namespace Gopmml.Props
open Gopmml Spec F64 Replay Samples

/-- Trees whose scores are tenths. -/
def tenths (method : MultipleModelMethod) (scores : List String) : ModelElem F64 :=
  .mining { head method with targets := [⟨"y", none, none⟩] }
    (scores.map fun s => seg (.tree (regTree s s)))

/-- **C72** (the error is real, and depends on the order of the segments): trees answering 0.1, 0.2
and 0.3 sum to 0.6000000000000001; listed in the opposite order they sum to 0.6. -/
theorem C72_order :
    eval .sorted (tenths .sum ["0.1", "0.2", "0.3"]) [] =
      some (.ok (some (mk [("y", .f64 (num "0.6000000000000001"))]))) ∧
    eval .sorted (tenths .sum ["0.3", "0.2", "0.1"]) [] = some (.ok (some (mk [("y", .f64 (num "0.6"))]))) ∧
    num "0.6000000000000001" ≠ num "0.6" := by decide +kernel

-- C72_sum, C72_average: no target rescales "y", the answers are finite and not exact; the bound
-- of the sum for three contributions.
example : Unscaled { head .sum with targets := [⟨"y", none, none⟩] } "y" := by
  simp [Unscaled]
example :
    let x := num "0.6000000000000001"; let qs := ["0.1", "0.2", "0.3"].map (fun s => (num s).val.getD 0)
    x.val ≠ some qs.sum ∧ x.val.isSome ∧
      |x.val.getD 0 - qs.sum| ≤ ((1 + uu) ^ qs.length - 1) * (qs.map (|·|)).sum := by decide +kernel
example : (eval .sorted (tenths .average ["0.1", "0.2", "0.4"]) [] =
    some (.ok (some (mk [("y", .f64 (num "0.23333333333333336"))])))) := by decide +kernel

-- C72_regression: with the stand-in for `exp` (1 + x) and the method exp; 0.1 + 0.3 * 0.7 is not exact.
def lin : RegressionDoc F64 where
  functionName := .regression
  normalization := .exp
  tables := [⟨num "0.1", "", [⟨"x", num "0.3", 1⟩]⟩]
  outputs := [⟨"y", .other "", ""⟩]
  verification := none
example :
    (eval .sorted (.regression lin) [("x", .f64 (num "0.7"))] = some (.ok (some (mk [("y", .f64 (num "1.31"))])))) ∧
    (linear (some (mk [("x", .f64 (num "0.7"))])) ⟨num "0.1", "", [⟨"x", num "0.3", 1⟩]⟩).val ≠
      some ((num "0.1").val.getD 0 + (num "0.3").val.getD 0 * (num "0.7").val.getD 0) := by decide +kernel

/-- A leaf listing record counts. -/
def counted : TreeDoc F64 :=
  doc .none "1" (.mk "" "" "a" (num "0") [⟨"a", num "1", none, none⟩, ⟨"b", num "2", none, none⟩] [] (some .true_))

/-- **C72** (the sum need not be one): 1 / 3 and 2 / 3 as float64s fall short by `2^-54`. -/
theorem C72_not_one :
    let ps := ["probability(a)", "probability(b)"].map fun k =>
      match lookup (run counted []) k with
      | some (.f64 x) => x.val.getD 0
      | _ => 0
    ps.sum = 1 - 1 / 2 ^ 54 ∧ |ps.sum - 1| ≤ 3 * (2 + 1) * uu := by decide +kernel

-- C72_multiclass: the weights of the softmax sample are 4, 5 and 1.
example : NearlyOne (mk [("pa", .f64 (num "0.4")), ("pb", .f64 (num "0.5")), ("pc", .f64 (num "0.1"))])
    ["pa", "pb", "pc"] :=
  ⟨[(num "0.4").val.getD 0, (num "0.5").val.getD 0, (num "0.1").val.getD 0], by decide +kernel,
    by decide +kernel, by decide +kernel⟩

end Gopmml.Props
