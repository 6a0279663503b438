import Verif.Proofs.F64Nan
import Verif.Props.Monotone
import Verif.Props.Rounding

/-!
# Property C104: when the answers of regression models are numbers

In float64 arithmetic `∞/∞`, `0/0` and `∞-∞` are not numbers.  Exactly when this happens to the
answers of a regression model, and conditions under which it does not.
-/

namespace Gopmml.Props
open Gopmml Spec F64

section
variable [Trans F64]

/-- The values of `exp` are not negative. -/
theorem GoMath.exp_weight (T : GoMath) {x : F64} (hx : x ≠ nan) : NonNeg (Trans.exp x : F64) :=
  nonNeg_iff.mpr (T.exp_nonneg hx)

theorem GoMath.exp_eq_nan (T : GoMath) {x : F64} : (Trans.exp x : F64) = nan ↔ x = nan := by
  constructor
  · intro h
    by_contra hx
    exact (GoMath.exp_weight T hx).1 h
  · rintro rfl; exact T.exp_nan

omit [Trans F64] in
theorem one_val : (Arith.one : F64).val = some 1 := by
  rw [val_ext]; exact ⟨ext_one, one_ne_nan⟩

omit [Trans F64] in
theorem unit_of_le {x : F64} (h0 : NonNeg x) (h1 : Arith.le x Arith.one = true) : ∃ q, x.val = some q ∧ 0 ≤ q ∧ q ≤ 1 := by
  rcases (show UnitOrNaN x from .inr ⟨nonNeg_iff.mp h0, h1⟩).cases with rfl | rfl | ⟨q, hq, rfl, h⟩
  · exact absurd rfl h0.1
  · exact ⟨0, rfl, le_rfl, zero_le_one⟩
  · exact ⟨q, rfl, h⟩

omit [Trans F64] in
theorem one_minus {x : F64} {q : ℚ} (hx : x.val = some q) (h0 : 0 ≤ q) (h1 : q ≤ 1) :
    Arith.sub Arith.one x ≠ nan ∧ UnitOrNaN (Arith.sub Arith.one x) := by
  have hneg : ∃ r : ℚ, r = -q ∧ (neg x = negZero ∧ r = 0 ∨ ∃ h, neg x = fin r h) := by
    rcases val_iff.mp hx with ⟨rfl, rfl⟩ | ⟨h, rfl⟩
    · exact ⟨0, by simp, .inr ⟨rep_zero, rfl⟩⟩
    · by_cases hq : q = 0
      · exact ⟨0, by simp [hq], .inl ⟨by simp [neg, hq], rfl⟩⟩
      · exact ⟨-q, rfl, .inr ⟨⟨h.1.neg, by rw [abs_neg]; exact h.2⟩, by simp only [neg, if_neg hq]⟩⟩
  obtain ⟨r, rfl, hr⟩ := hneg
  obtain ⟨hn, he⟩ := add_finite (finite_of_val one_val) hr
  refine ⟨hn, unit_of_ext hn ?_ ?_⟩
  · show _ ≤ ext (add _ _)
    rw [he, ← ext_ofRat_exact rep_zero false]
    exact ext_ofRat_mono (by linarith) _ _
  · show ext (add _ _) ≤ _
    rw [he, ← ext_ofRat_exact rep_one false]
    exact ext_ofRat_mono (by linarith) _ _

/-- **C104** (link functions): a link function gives NaN exactly for NaN; its values are not negative,
and but for `exp` not above one. -/
theorem C104_link (T : GoMath) {n : Normalization} {g : F64 → F64} (hg : link n = some g) (x : F64) :
    (g x = nan ↔ x = nan) ∧
      (x ≠ nan → Arith.le Arith.zero (g x) = true ∧ (n ≠ .exp → Arith.le (g x) Arith.one = true)) := by
  suffices h : x ≠ nan → g x ≠ nan ∧ Arith.le Arith.zero (g x) = true ∧ (n ≠ .exp → Arith.le (g x) Arith.one = true) by
    refine ⟨⟨fun h0 => by_contra fun hx => (h hx).1 h0, ?_⟩, fun hx => (h hx).2⟩
    rintro rfl
    have hnn : Arith.neg (nan : F64) = nan := rfl
    cases n with
    | softmax => cases hg; simp only [hnn, T.exp_nan]; rw [add_nan_right, div_nan_right]
    | logit => cases hg; simp only [hnn, T.exp_nan]; rw [add_nan_right, div_nan_right]
    | exp => cases hg; exact T.exp_nan
    | cloglog => cases hg; simp only [T.exp_nan, hnn]; exact add_nan_right _
    | cauchit =>
      cases hg
      simp only [T.atan_nan]
      have : Arith.mul (Trans.invPi : F64) nan = nan := by
        show mul _ nan = nan
        cases (Trans.invPi : F64) <;> rfl
      rw [this]; exact add_nan_right _
    | none => cases hg
    | simplemax => cases hg
    | empty => cases hg
    | other s => cases hg
  intro hx
  have hlogit : Arith.div Arith.one (Arith.add Arith.one (Trans.exp (Arith.neg x))) ≠ (nan : F64) ∧
      Arith.le Arith.zero (Arith.div Arith.one (Arith.add Arith.one (Trans.exp (Arith.neg x))) : F64) = true ∧
      (n ≠ .exp → Arith.le (Arith.div Arith.one (Arith.add Arith.one (Trans.exp (Arith.neg x))) : F64) Arith.one = true) := by
    have h1 : NonNeg (Arith.one : F64) := by rw [one_eq]; exact nonNeg_ofRat zero_le_one _
    have he := GoMath.exp_weight T (neg_ne_nan.2 hx)
    have hs := (ext_add h1 he).1
    have hle := le_add h1 he
    have hne : div (Arith.one : F64) (add Arith.one (Trans.exp (neg x))) ≠ nan := by
      rw [Ne, div_eq_nan]
      rintro (h | h | ⟨⟨a, h⟩, -⟩ | ⟨h, -⟩)
      · exact one_ne_nan h
      · exact hs.1 h
      · have := one_val; rw [h] at this; cases this
      · rw [one_val] at h; exact one_ne_zero (Option.some.inj h)
    rcases unit_div h1 hs hle with h | h
    · exact absurd h hne
    · exact ⟨hne, h.1, fun _ => h.2⟩
  cases n with
  | softmax => cases hg; exact hlogit
  | logit => cases hg; exact hlogit
  | exp => cases hg; exact ⟨(GoMath.exp_weight T hx).1, T.exp_nonneg hx, fun h => absurd rfl h⟩
  | cloglog =>
    cases hg
    have h1 := GoMath.exp_weight T hx
    have h2 : neg (Trans.exp x : F64) ≠ nan := neg_ne_nan.2 h1.1
    have h3 : Arith.le (neg (Trans.exp x : F64)) Arith.zero = true := by
      have := neg_le (nonNeg_iff.mp h1)
      refine F64.le_trans this ?_
      rw [arith_zero]; decide
    have h4 := GoMath.exp_weight T h2
    obtain ⟨q, hq, h0, h1⟩ := unit_of_le h4 (T.exp_le_one h3)
    obtain ⟨h5, h6⟩ := one_minus hq h0 h1
    rcases h6 with h6 | h6
    · exact absurd h6 h5
    · exact ⟨h5, h6.1, fun _ => h6.2⟩
  | cauchit =>
    cases hg
    have hlo := T.atan_low hx
    have hhi := T.atan_high hx
    have hpi : le Arith.zero (Trans.invPi : F64) = true := by rw [T.invPi_eq]; decide +kernel
    have hat : (Trans.atan x : F64) ≠ nan := (le_not_nan hlo).2
    have hfin : ∃ q, (Trans.atan x : F64).val = some q := by
      rcases finite_or hat with h | h | ⟨q, -, h⟩
      · rw [h] at hlo
        have := eq_negInf_of_le hlo
        exact absurd this (by decide +kernel)
      · rw [h] at hhi
        have := eq_posInf_of_le hhi
        exact absurd this (by decide +kernel)
      · exact ⟨q, val_iff.mpr h⟩
    obtain ⟨q, hq⟩ := hfin
    have hpv : ∃ p, (Trans.invPi : F64).val = some p := by
      rw [T.invPi_eq]
      exact Option.isSome_iff_exists.mp (by decide +kernel)
    obtain ⟨p, hp⟩ := hpv
    have hm := (mul_finite (finite_of_val hp) (finite_of_val hq)).1
    have e1 : mul (Trans.invPi : F64) (Arith.lit (-7074237752028440) (2 ^ 52)) = Arith.lit (-1) 2 := by
      rw [T.invPi_eq]; decide +kernel
    have e2 : mul (Trans.invPi : F64) (Arith.lit 7074237752028440 (2 ^ 52)) = Arith.lit 1 2 := by
      rw [T.invPi_eq]; decide +kernel
    have n1 : (Arith.lit (-1) 2 : F64) ≠ nan := by decide +kernel
    have n2 : (Arith.lit 1 2 : F64) ≠ nan := by decide +kernel
    have hl := mul_le hpi hlo (by rw [e1]; exact n1) hm
    have hh := mul_le hpi hhi hm (by rw [e2]; exact n2)
    rw [e1] at hl
    rw [e2] at hh
    have hmf : ∃ r, (mul (Trans.invPi : F64) (Trans.atan x)).val = some r := by
      rcases finite_or hm with h | h | ⟨r, -, h⟩
      · rw [h] at hl
        have := eq_negInf_of_le hl
        exact absurd this (by decide +kernel)
      · rw [h] at hh
        have := eq_posInf_of_le hh
        exact absurd this (by decide +kernel)
      · exact ⟨r, val_iff.mpr h⟩
    obtain ⟨r, hr⟩ := hmf
    have h12 : ∃ s, (Arith.lit 1 2 : F64).val = some s := Option.isSome_iff_exists.mp (by decide +kernel)
    obtain ⟨s, hs⟩ := h12
    have ha := (add_finite (finite_of_val hs) (finite_of_val hr)).1
    have e3 : add (Arith.lit 1 2 : F64) (Arith.lit (-1) 2) = Arith.zero := by decide +kernel
    have e4 : add (Arith.lit 1 2 : F64) (Arith.lit 1 2) = Arith.one := by decide +kernel
    refine ⟨ha, ?_, fun _ => ?_⟩
    · have := add_le (F64.le_refl n2) hl (by rw [e3]; exact zero_ne_nan) ha
      rwa [e3] at this
    · have := add_le (F64.le_refl n2) hh ha (by rw [e4]; exact one_ne_nan)
      rwa [e4] at this
  | none => cases hg
  | simplemax => cases hg
  | empty => cases hg
  | other s => cases hg

/-- **C104** (regression): the answer is NaN exactly if the linear score is. -/
theorem C104_regression (T : GoMath) {dd : List DataField} {td td' : TD F64} {d : RegressionDoc F64} {m : EModel F64}
    (h : newModel dd (.regression d) td = (.ok m, td')) (hf : d.functionName = .regression)
    {t : RegressionTable F64} (ht : d.tables = [t]) {f : OutputField} (ho : d.outputs = [f])
    (o : MapOrd) {row : Row F64} {out : GoMap (GoVal F64)} (hr : (m.evaluate o row).res = .ok (some out)) :
    ∃ p : F64, out[f.name]? = some (.f64 p) ∧ (p = nan ↔ linear row t = nan) ∧
      (p ≠ nan → Arith.le Arith.zero p = true ∧ (d.normalization ≠ .exp → Arith.le p Arith.one = true)) := by
  rw [C45_regression h hf ht ho] at hr
  cases e1 : firstMissing row t.predictors with
  | some k => rw [e1] at hr; cases hr
  | none =>
    rw [e1] at hr
    cases hg : link (F := F64) d.normalization with
    | none => rw [hg] at hr; cases hr
    | some g =>
      rw [hg] at hr
      cases hr
      obtain ⟨h1, h2⟩ := C104_link T hg (linear row t)
      exact ⟨g (linear row t), by simp, h1, fun hp => h2 fun h => hp (h1.mpr h)⟩

omit [Trans F64] in
/-- **C104** (linear scores): if no term is larger than `2^e` and `n` of them and the intercept stay
below the largest float64, the score is finite.  In particular no NaN arises. -/
theorem C104_linear {row : Row F64} {t : RegressionTable F64} {e : Int} (he : -1074 ≤ e)
    (hi : ∃ q, t.intercept.val = some q ∧ |q| ≤ pow2 e)
    (hp : ∀ np ∈ t.predictors, ∃ a b, np.coefficient.val = some a ∧ (valueOf row np.name).val = some b ∧
      |a * b| ≤ pow2 e)
    (hn : 1 + t.predictors.length ≤ 2 ^ 53)
    (hb : ((1 + t.predictors.length : Nat) : ℚ) * pow2 e < pow2 1024) :
    ∃ q, (linear row t).val = some q ∧ |q| ≤ (1 + t.predictors.length : Nat) * pow2 e := by
  have he' : e < 1024 := by
    have hp := pow2_pos e
    rw [← pow2_lt_iff]
    refine lt_of_le_of_lt ?_ hb
    have : (1 : ℚ) ≤ ((1 + t.predictors.length : Nat) : ℚ) := by exact_mod_cast Nat.le_add_right _ _
    nlinarith
  have hl : ∀ x ∈ t.predictors.map fun np => Arith.mul np.coefficient (valueOf row np.name), Within x (pow2 e) := by
    intro x hx
    obtain ⟨np, hnp, rfl⟩ := List.mem_map.mp hx
    obtain ⟨a, b, ha, hb, hab⟩ := hp np hnp
    exact Within.mul ha hb hab he he'
  have hz : Within t.intercept ((1 : Nat) * pow2 e) := by
    obtain ⟨q, hq, hq'⟩ := hi
    exact ⟨q, hq, by simpa using hq'⟩
  have := Within.foldl hl hz (by simpa using hn) he (by simpa using hb)
  rw [List.length_map] at this
  exact this

/-! ### Shares -/

omit [Trans F64] in
/-- The share of a weight in a total of weights that are not negative (or NaN): exactly when it is
not a number. -/
theorem share_eq_nan {g : F64 → F64} {ys : List F64} (hg : ∀ y ∈ ys, g y = nan ∨ NonNeg (g y)) {y : F64} (hy : y ∈ ys) :
    share g ys y = nan ↔ (∃ z ∈ ys, g z = nan) ∨ g y = inf false ∨ ∀ z ∈ ys, (g z).val = some 0 := by
  by_cases hn : ∃ z ∈ ys, g z = nan
  · refine ⟨fun _ => .inl hn, fun _ => ?_⟩
    obtain ⟨z, hz, hzn⟩ := hn
    unfold share
    rw [foldl_nan_mem (List.mem_map.mpr ⟨z, hz, hzn⟩), div_nan_right]
  · have hnn : ∀ x ∈ ys.map g, NonNeg x := by
      intro x hx
      obtain ⟨z, hz, rfl⟩ := List.mem_map.mp hx
      exact (hg z hz).resolve_left fun h => hn ⟨z, hz, h⟩
    have hy' : g y ∈ ys.map g := List.mem_map.mpr ⟨y, hy, rfl⟩
    have hzero : NonNeg zero := by rw [← arith_zero]; exact nonNeg_zero
    have hS := foldl_nonNeg hnn hzero
    have hall : ((ys.map g).foldl add zero).val = some 0 ↔ ∀ z ∈ ys, (g z).val = some 0 := by
      rw [foldl_zero_iff hnn]
      simp
    show div (g y) ((ys.map g).foldl add Arith.zero) = nan ↔ _
    rw [arith_zero, div_eq_nan, hall]
    constructor
    · rintro (h | h | ⟨⟨a, h⟩, -⟩ | ⟨-, h⟩)
      · exact absurd ⟨y, hy, h⟩ hn
      · exact absurd h hS.1
      · rcases (hnn _ hy').cases with e | e | ⟨q, hq, e, -⟩
        · exact .inr (.inl e)
        · rw [h] at e; cases e
        · rw [h] at e; cases e
      · exact .inr (.inr h)
    · rintro (h | h | h)
      · exact absurd h hn
      · exact .inr (.inr (.inl ⟨⟨false, h⟩, false, foldl_inf hnn (h ▸ hy') hzero⟩))
      · exact .inr (.inr (.inr ⟨h y hy, h⟩))

omit [Trans F64] in
/-- Beside an infinite weight the finite ones have no share at all. -/
theorem share_beside_inf {g : F64 → F64} {ys : List F64} (hg : ∀ y ∈ ys, NonNeg (g y)) {y z : F64} (hy : y ∈ ys)
    (hz : z ∈ ys) (hi : g z = inf false) (hy' : g y ≠ inf false) : (share g ys y).val = some 0 := by
  have hnn : ∀ x ∈ ys.map g, NonNeg x := by
    intro x hx
    obtain ⟨z, hz, rfl⟩ := List.mem_map.mp hx
    exact hg z hz
  have hzero : NonNeg zero := by rw [← arith_zero]; exact nonNeg_zero
  show (div (g y) ((ys.map g).foldl add Arith.zero)).val = some 0
  rw [arith_zero, foldl_inf hnn (hi ▸ List.mem_map.mpr ⟨z, hz, rfl⟩) hzero]
  have hzv : ∀ b, (zeroOf b).val = some 0 := by decide
  rcases (hg y hy).cases with e | e | ⟨q, hq, e, -⟩
  · exact absurd e hy'
  · rw [e]; exact hzv _
  · rw [e]; exact hzv _

omit [Trans F64] in
/-- Shares are in the order of the weights. -/
theorem share_le {g : F64 → F64} {ys : List F64} (hg : ∀ y ∈ ys, NonNeg (g y)) {y z : F64} (hy : y ∈ ys) (hz : z ∈ ys)
    (h : Arith.le (g y) (g z) = true) (hn : share g ys y ≠ nan) (hn' : share g ys z ≠ nan) :
    Arith.le (share g ys y) (share g ys z) = true := by
  have hnn : ∀ x ∈ ys.map g, NonNeg x := by
    intro x hx
    obtain ⟨z, hz, rfl⟩ := List.mem_map.mp hx
    exact hg z hz
  exact div_le_div (hg y hy) (hg z hz) (foldl_nonNeg hnn nonNeg_zero)
    ((le_iff (hg y hy).1 (hg z hz).1).mp h) hn hn'

/-! ### Softmax -/

variable {dd : List DataField} {td td' : TD F64} {d : RegressionDoc F64} {m : EModel F64}

/-- The number reported for a table, its name being its own. -/
theorem reported (h : newModel dd (.regression d) td = (.ok m, td')) (hf : d.functionName = .classification)
    (ho : d.outputs.length ≠ 2) {g : F64 → F64} (hg : weight d.normalization = some g)
    (hd : (d.tables.map fun t => reportedAs d.outputs t.targetCategory).Nodup)
    (o : MapOrd) {row : Row F64} {out : GoMap (GoVal F64)} (hr : (m.evaluate o row).res = .ok (some out))
    {t : RegressionTable F64} (ht : t ∈ d.tables) :
    out[reportedAs d.outputs t.targetCategory]? = some (.f64 (share g (d.tables.map (linear row)) (linear row t))) := by
  have H := C46_multiclass h hf ho o row
  rw [hr, hg] at H
  cases hm : firstMissing row (allPredictors d) with
  | some k => rw [hm] at H; cases H
  | none =>
    rw [hm] at H
    obtain ⟨out', e, hk⟩ := H
    cases e
    rw [hk]
    have hfil : (d.tables.filter fun s => decide (reportedAs d.outputs s.targetCategory = reportedAs d.outputs t.targetCategory)) = [t] := by
      clear hk hm hr h
      generalize d.tables = l at *
      induction l with
      | nil => cases ht
      | cons a l ih =>
        rw [List.map_cons, List.nodup_cons] at hd
        rcases List.mem_cons.mp ht with rfl | ht
        · rw [List.filter_cons_of_pos (by simp), List.filter_eq_nil_iff.mpr]
          intro s hs
          simp only [decide_eq_true_eq]
          intro he
          exact hd.1 (List.mem_map.mpr ⟨s, hs, he⟩)
        · rw [List.filter_cons_of_neg, ih hd.2 ht]
          simp only [decide_eq_true_eq]
          intro he
          exact hd.1 (List.mem_map.mpr ⟨t, ht, he.symm⟩)
    rw [hfil]
    rfl

/-- **C104** (softmax): with differently named tables the number reported for a table is NaN exactly if some
score is NaN, or the weight e^score of this table overflows, or the weights of all tables underflow. -/
theorem C104_softmax (T : GoMath) (h : newModel dd (.regression d) td = (.ok m, td'))
    (hf : d.functionName = .classification) (ho : d.outputs.length ≠ 2) (hn : d.normalization = .softmax)
    (hd : (d.tables.map fun t => reportedAs d.outputs t.targetCategory).Nodup)
    (o : MapOrd) {row : Row F64} {out : GoMap (GoVal F64)} (hr : (m.evaluate o row).res = .ok (some out))
    {t : RegressionTable F64} (ht : t ∈ d.tables) :
    ∃ p : F64, out[reportedAs d.outputs t.targetCategory]? = some (.f64 p) ∧
      (p = nan ↔ (∃ s ∈ d.tables, linear row s = nan) ∨ Trans.exp (linear row t) = inf false ∨
        ∀ s ∈ d.tables, (Trans.exp (linear row s)).val = some 0) := by
  refine ⟨_, reported h hf ho (by rw [hn]; rfl) hd o hr ht, ?_⟩
  rw [share_eq_nan (fun y _ => ?_) (List.mem_map.mpr ⟨t, ht, rfl⟩)]
  · simp only [List.mem_map, exists_exists_and_eq_and, forall_exists_index, and_imp, forall_apply_eq_imp_iff₂,
      GoMath.exp_eq_nan T]
  · by_cases hy : y = nan
    · exact .inl ((GoMath.exp_eq_nan T).mpr hy)
    · exact .inr (GoMath.exp_weight T hy)

/-- **C104** (finding: overflow): a table with a score from 710 on is reported as NaN, also if it is the clear
favourite; the tables with scores up to 700 beside it are then reported as nought. -/
theorem C104_overflow (T : GoMath) (h : newModel dd (.regression d) td = (.ok m, td'))
    (hf : d.functionName = .classification) (ho : d.outputs.length ≠ 2) (hn : d.normalization = .softmax)
    (hd : (d.tables.map fun t => reportedAs d.outputs t.targetCategory).Nodup)
    (o : MapOrd) {row : Row F64} {out : GoMap (GoVal F64)} (hr : (m.evaluate o row).res = .ok (some out))
    {t : RegressionTable F64} (ht : t ∈ d.tables) (hbig : Arith.le (Arith.lit 710 1) (linear row t) = true) :
    out[reportedAs d.outputs t.targetCategory]? = some (.f64 nan) ∧
      ∀ s ∈ d.tables, (∀ s' ∈ d.tables, linear row s' ≠ nan) → Arith.le (linear row s) (Arith.lit 700 1) = true →
        ∃ p : F64, out[reportedAs d.outputs s.targetCategory]? = some (.f64 p) ∧ p.val = some 0 := by
  have hinf := T.exp_overflow hbig
  constructor
  · obtain ⟨p, h1, h2⟩ := C104_softmax T h hf ho hn hd o hr ht
    rw [h1, h2.mpr (.inr (.inl hinf))]
  · intro s hs hnum hsmall
    refine ⟨_, reported h hf ho (by rw [hn]; rfl) hd o hr hs, ?_⟩
    refine share_beside_inf (fun y hy => ?_) (List.mem_map.mpr ⟨s, hs, rfl⟩) (List.mem_map.mpr ⟨t, ht, rfl⟩) hinf
      fun he => ?_
    · obtain ⟨s', hs', rfl⟩ := List.mem_map.mp hy
      exact GoMath.exp_weight T (hnum s' hs')
    · have := T.exp_bounded hsmall
      rw [he] at this
      have := eq_posInf_of_le this
      exact absurd this (by decide +kernel)

/-- **C104** (finding: underflow): if all scores are -746 or less, all tables are reported as NaN. -/
theorem C104_underflow (T : GoMath) (h : newModel dd (.regression d) td = (.ok m, td'))
    (hf : d.functionName = .classification) (ho : d.outputs.length ≠ 2) (hn : d.normalization = .softmax)
    (hd : (d.tables.map fun t => reportedAs d.outputs t.targetCategory).Nodup)
    (o : MapOrd) {row : Row F64} {out : GoMap (GoVal F64)} (hr : (m.evaluate o row).res = .ok (some out))
    (hsmall : ∀ s ∈ d.tables, Arith.le (linear row s) (Arith.lit (-746) 1) = true)
    {t : RegressionTable F64} (ht : t ∈ d.tables) :
    out[reportedAs d.outputs t.targetCategory]? = some (.f64 nan) := by
  obtain ⟨p, h1, h2⟩ := C104_softmax T h hf ho hn hd o hr ht
  rw [h1, h2.mpr (.inr (.inr fun s hs => ?_))]
  have hnn := GoMath.exp_weight T (le_not_nan (hsmall s hs)).1
  rw [nonNeg_zero_iff hnn, ← ext_zero]
  exact (le_iff hnn.1 zero_ne_nan).mp (T.exp_underflow (hsmall s hs))

/-- **C104** (softmax): with scores from -700 to 700 and fewer than 2^13 tables all is well: the numbers
reported lie between nought and one, sum to one up to rounding, and are in the order of the scores. -/
theorem C104_ordinary (T : GoMath) (h : newModel dd (.regression d) td = (.ok m, td'))
    (hf : d.functionName = .classification) (ho : d.outputs.length ≠ 2) (hn : d.normalization = .softmax)
    (hd : (d.tables.map fun t => reportedAs d.outputs t.targetCategory).Nodup)
    (o : MapOrd) {row : Row F64} {out : GoMap (GoVal F64)} (hr : (m.evaluate o row).res = .ok (some out))
    (hlo : ∀ s ∈ d.tables, Arith.le (Arith.lit (-700) 1) (linear row s) = true)
    (hhi : ∀ s ∈ d.tables, Arith.le (linear row s) (Arith.lit 700 1) = true)
    (hne : d.tables ≠ []) (hl : d.tables.length < 2 ^ 13) :
    NearlyOne out (d.tables.map fun t => reportedAs d.outputs t.targetCategory) ∧
      ∀ s ∈ d.tables, ∀ t ∈ d.tables, ∃ p q : F64,
        out[reportedAs d.outputs s.targetCategory]? = some (.f64 p) ∧
        out[reportedAs d.outputs t.targetCategory]? = some (.f64 q) ∧ p ≠ nan ∧
        (Arith.le (linear row s) (linear row t) = true → Arith.le p q = true) := by
  have hnum : ∀ s ∈ d.tables, linear row s ≠ nan := fun s hs => (le_not_nan (hlo s hs)).2
  have hw : ∀ s ∈ d.tables, NonNeg (Trans.exp (linear row s) : F64) := fun s hs => GoMath.exp_weight T (hnum s hs)
  have hin : ∀ s ∈ d.tables, ∃ q, (Trans.exp (linear row s) : F64).val = some q ∧ 0 < q ∧ q ≤ pow2 1010 := by
    intro s hs
    have hb := T.exp_bounded (hhi s hs)
    have hp := T.exp_positive (hlo s hs)
    have hlit : (Arith.lit (2 ^ 1010) 1 : F64).val = some (pow2 1010) := by decide +kernel
    rcases (hw s hs).cases with e | e | ⟨q, hq, e, h0⟩
    · rw [e] at hb
      have := eq_posInf_of_le hb
      rw [this] at hlit; cases hlit
    · rw [e, arith_zero] at hp; exact absurd hp (by decide)
    · refine ⟨q, by rw [e]; rfl, ?_, ?_⟩
      · rw [e, arith_zero] at hp
        have h1 := (lt_iff (by simp [zero]) (by simp)).mp hp
        simp only [ext, zero] at h1
        exact_mod_cast h1
      · rw [e] at hb
        have hl' := le_not_nan hb
        have h1 := (le_iff hl'.1 hl'.2).mp hb
        rw [(val_ext.mp hlit).1] at h1
        simp only [ext] at h1
        exact_mod_cast h1
  have hshare : ∀ s ∈ d.tables, share Trans.exp (d.tables.map (linear row)) (linear row s) ≠ nan := by
    intro s hs
    rw [Ne, share_eq_nan (fun y hy => ?_) (List.mem_map.mpr ⟨s, hs, rfl⟩)]
    · obtain ⟨q, hq, h0, -⟩ := hin s hs
      rintro (⟨y, hy, hyn⟩ | h | h)
      · obtain ⟨s', hs', rfl⟩ := List.mem_map.mp hy
        exact (hw s' hs').1 hyn
      · rw [h] at hq; cases hq
      · have := h _ (List.mem_map.mpr ⟨s, hs, rfl⟩)
        rw [hq] at this
        exact h0.ne' (Option.some.inj this)
    · obtain ⟨s', hs', rfl⟩ := List.mem_map.mp hy
      exact .inr (hw s' hs')
  refine ⟨?_, fun s hs t ht => ?_⟩
  · have hp : firstMissing row (allPredictors d) = none := by
      have H := C46_multiclass h hf ho o row
      cases hm : firstMissing row (allPredictors d) with
      | none => rfl
      | some k => rw [hr, hm] at H; cases H
    have hlist : ∀ x ∈ d.tables.map fun t => (Trans.exp (linear row t) : F64), Within x (pow2 1010) := by
      intro x hx
      obtain ⟨s, hs, rfl⟩ := List.mem_map.mp hx
      obtain ⟨q, hq, h0, h1⟩ := hin s hs
      exact ⟨q, hq, by rw [abs_of_pos h0]; exact h1⟩
    have hz : Within zero ((0 : Nat) * pow2 1010) := ⟨0, rfl, by simp⟩
    have hlt : ((0 + (d.tables.map fun t => (Trans.exp (linear row t) : F64)).length : Nat) : ℚ) * pow2 1010 < pow2 1024 := by
      rw [List.length_map, Nat.zero_add]
      have h1 : (d.tables.length : ℚ) < pow2 14 := by
        rw [show (14 : Int) = ((14 : Nat) : Int) from rfl, pow2_nat]
        have : (d.tables.length : ℚ) < ((2 ^ 13 : Nat) : ℚ) := by exact_mod_cast hl
        push_cast at this ⊢
        linarith
      have h2 : pow2 1024 = pow2 14 * pow2 1010 := by rw [← pow2_add]; norm_num
      rw [h2]
      exact mul_lt_mul_of_pos_right h1 (pow2_pos _)
    obtain ⟨b, hb, -⟩ := Within.foldl hlist hz (by rw [List.length_map]; omega) (by norm_num) hlt
    have hb0 : b ≠ 0 := by
      rintro rfl
      have hnn : ∀ x ∈ d.tables.map fun t => (Trans.exp (linear row t) : F64), NonNeg x := by
        intro x hx
        obtain ⟨s, hs, rfl⟩ := List.mem_map.mp hx
        exact hw s hs
      have hall := (foldl_zero_iff hnn).mp hb
      obtain ⟨s, hs⟩ := List.exists_mem_of_ne_nil _ hne
      obtain ⟨q, hq, h0, -⟩ := hin s hs
      have := hall _ (List.mem_map.mpr ⟨s, hs, rfl⟩)
      rw [hq] at this
      exact h0.ne' (Option.some.inj this)
    obtain ⟨out', e, hN⟩ := C72_multiclass (o := o) h hf ho (g := Trans.exp) (by rw [hn]; rfl) hd hp
      (fun t ht => by obtain ⟨q, hq, h0, -⟩ := hin t ht; exact ⟨q, hq, h0.le⟩) hb hb0 (by omega)
    rw [hr] at e
    cases e
    exact hN
  · refine ⟨_, _, reported h hf ho (by rw [hn]; rfl) hd o hr hs, reported h hf ho (by rw [hn]; rfl) hd o hr ht,
      hshare s hs, fun hle => ?_⟩
    refine share_le (fun y hy => ?_) (List.mem_map.mpr ⟨s, hs, rfl⟩) (List.mem_map.mpr ⟨t, ht, rfl⟩)
      (T.exp_mono hle) (hshare s hs) (hshare t ht)
    obtain ⟨s', hs', rfl⟩ := List.mem_map.mp hy
    exact hw s' hs'

/-- **C104** (simplemax): with scores that are NaN or not negative, the number reported for a table is NaN exactly if
some score is NaN, or the score of this table is infinite, or all scores are nought. -/
theorem C104_simplemax (h : newModel dd (.regression d) td = (.ok m, td'))
    (hf : d.functionName = .classification) (ho : d.outputs.length ≠ 2) (hn : d.normalization = .simplemax)
    (hd : (d.tables.map fun t => reportedAs d.outputs t.targetCategory).Nodup)
    (o : MapOrd) {row : Row F64} {out : GoMap (GoVal F64)} (hr : (m.evaluate o row).res = .ok (some out))
    (hs : ∀ s ∈ d.tables, linear row s = nan ∨ Arith.le Arith.zero (linear row s) = true)
    {t : RegressionTable F64} (ht : t ∈ d.tables) :
    ∃ p : F64, out[reportedAs d.outputs t.targetCategory]? = some (.f64 p) ∧
      (p = nan ↔ (∃ s ∈ d.tables, linear row s = nan) ∨ linear row t = inf false ∨
        ∀ s ∈ d.tables, (linear row s).val = some 0) := by
  refine ⟨_, reported h hf ho (by rw [hn]; rfl) hd o hr ht, ?_⟩
  rw [share_eq_nan (fun y hy => ?_) (List.mem_map.mpr ⟨t, ht, rfl⟩)]
  · simp only [List.mem_map, exists_exists_and_eq_and, forall_exists_index, and_imp, forall_apply_eq_imp_iff₂, id_eq]
  · obtain ⟨s, hs', rfl⟩ := List.mem_map.mp hy
    exact (hs s hs').imp id nonNeg_iff.mpr

/-! ### Two classes -/

/-- **C104** (two classes): with a finite intercept the sum of the transformed inputs, and what is left of one, are
NaN exactly if one of the inputs is. -/
theorem C104_binary (T : GoMath) {n : Normalization} {g : F64 → F64} (hg : link n = some g) (row : Row F64)
    {t : RegressionTable F64} (hi : ∃ q, t.intercept.val = some q) :
    (transformed g row t = nan ↔ ∃ np ∈ t.predictors, valueOf row np.name = nan) ∧
      (Arith.sub Arith.one (transformed g row t) = nan ↔ ∃ np ∈ t.predictors, valueOf row np.name = nan) := by
  have key : (transformed g row t = nan ↔ ∃ np ∈ t.predictors, valueOf row np.name = nan) ∧
      transformed g row t ≠ inf true := by
    unfold transformed
    by_cases hn : ∃ np ∈ t.predictors, valueOf row np.name = nan
    · obtain ⟨np, hnp, e⟩ := hn
      have : (t.predictors.map fun np => g (valueOf row np.name)).foldl Arith.add t.intercept = nan :=
        foldl_nan_mem (List.mem_map.mpr ⟨np, hnp, (C104_link T hg _).1.mpr e⟩) _
      rw [this]
      exact ⟨⟨fun _ => ⟨np, hnp, e⟩, fun _ => rfl⟩, by simp⟩
    · have hnn : ∀ x ∈ t.predictors.map fun np => g (valueOf row np.name), NonNeg x := by
        intro x hx
        obtain ⟨np, hnp, rfl⟩ := List.mem_map.mp hx
        exact nonNeg_iff.mpr ((C104_link T hg _).2 fun h => hn ⟨np, hnp, h⟩).1
      obtain ⟨q, hq⟩ := hi
      have hz : AboveBottom t.intercept := by
        refine ⟨fun h => ?_, fun h => ?_⟩ <;> rw [h] at hq <;> cases hq
      have hA := hz.foldl hnn
      exact ⟨⟨fun h => absurd h hA.1, fun h => absurd h hn⟩, hA.2⟩
  refine ⟨key.1, ?_⟩
  rw [← key.1]
  generalize transformed g row t = x at key
  constructor
  · intro h
    by_contra hx
    revert h
    show add Arith.one (neg x) ≠ nan
    rcases finite_or hx with rfl | rfl | ⟨q, -, hq⟩
    · exact absurd rfl key.2
    · rcases finite_of_val one_val with ⟨h, -⟩ | ⟨h, e⟩
      · have := one_val; rw [h] at this; cases this
      · rw [e]; simp [add, neg]
    · have hneg : ∃ r : ℚ, neg x = negZero ∧ r = 0 ∨ ∃ h, neg x = fin r h := by
        rcases hq with ⟨rfl, rfl⟩ | ⟨h, rfl⟩
        · exact ⟨0, .inr ⟨rep_zero, rfl⟩⟩
        · by_cases h0 : q = 0
          · exact ⟨0, .inl ⟨by simp [neg, h0], rfl⟩⟩
          · exact ⟨-q, .inr ⟨⟨h.1.neg, by rw [abs_neg]; exact h.2⟩, by simp only [neg, if_neg h0]⟩⟩
      obtain ⟨r, hr⟩ := hneg
      exact (add_finite (finite_of_val one_val) hr).1
  · rintro rfl
    exact add_nan_right _

end

section
open Samples Replay

/-- A step function in place of `exp`, and one in place of `atan`, to show that the requirements can be met. -/
@[instance_reducible] def rough : Trans F64 where
  exp x := if x = nan then nan else if Arith.le (Arith.lit 710 1) x then inf false
    else if Arith.le x (Arith.lit (-746) 1) then Arith.zero
    else if Arith.le x Arith.zero then num "0.5" else num "2"
  atan x := if x = nan then nan else if Arith.le Arith.zero x then Arith.lit 7074237752028440 (2 ^ 52)
    else Arith.lit (-7074237752028440) (2 ^ 52)
  invPi := Arith.lit 5734161139222659 (2 ^ 54)

theorem rough_fits : @GoMath rough := by
  let := rough
  have hexp : ∀ x : F64, Trans.exp x = if x = nan then nan else if Arith.le (Arith.lit 710 1) x then inf false
      else if Arith.le x (Arith.lit (-746) 1) then Arith.zero
      else if Arith.le x Arith.zero then num "0.5" else num "2" := fun x => rfl
  have hatan : ∀ x : F64, Trans.atan x = if x = nan then nan else
      if Arith.le Arith.zero x then Arith.lit 7074237752028440 (2 ^ 52)
      else Arith.lit (-7074237752028440) (2 ^ 52) := fun x => rfl
  have hconst : le (inf false) (inf false) = true ∧ Arith.le (num "0.5") (num "2" : F64) = true ∧
      Arith.le Arith.zero (num "0.5" : F64) = true ∧ Arith.le Arith.zero (num "2" : F64) = true ∧
      Arith.le (num "0.5") (num "0.5" : F64) = true ∧ Arith.le (num "2") (num "2" : F64) = true ∧
      Arith.le Arith.zero (Arith.zero : F64) = true ∧ le (num "0.5") (inf false) = true ∧
      le (num "2") (inf false) = true ∧ le (Arith.zero) (inf false) = true ∧
      Arith.le (num "0.5" : F64) Arith.one = true ∧ Arith.le Arith.zero (Arith.one : F64) = true := by decide +kernel
  obtain ⟨ii, h52, h05, h02, h55, h22, h00, h5i, h2i, h0i, h51, h01⟩ := hconst
  have hconst2 : Arith.le (num "0.5" : F64) (Arith.lit (2 ^ 1010) 1) = true ∧
      Arith.le (num "2" : F64) (Arith.lit (2 ^ 1010) 1) = true ∧
      Arith.le (Arith.zero : F64) (Arith.lit (2 ^ 1010) 1) = true ∧
      Arith.lt (Arith.zero : F64) (num "0.5") = true ∧ Arith.lt (Arith.zero : F64) (num "2") = true ∧
      Arith.lt (Arith.zero : F64) (inf false) = true ∧
      Arith.le (Arith.lit 710 1 : F64) (Arith.lit 700 1) = false ∧
      Arith.le (Arith.lit (-700) 1 : F64) (Arith.lit (-746) 1) = false ∧
      Arith.le (Arith.lit 710 1 : F64) (Arith.lit (-746) 1) = false ∧
      Arith.le (Arith.lit 710 1 : F64) Arith.zero = false ∧
      Arith.le (Arith.lit (-746) 1 : F64) Arith.zero = true := by decide +kernel
  obtain ⟨b5, b2, b0, p5, p2, pi, q1, q2, q3, q4, q5⟩ := hconst2
  have hnn : ∀ {x : F64}, x ≠ nan → Arith.le Arith.zero (Trans.exp x) = true := by
    intro x hx
    rw [hexp, if_neg hx]
    split_ifs
    · exact h0i
    · exact h00
    · exact h05
    · exact h02
  refine ⟨by rw [hexp]; simp, ?_, hnn, ?_, ?_, ?_, ?_, ?_, by rw [hatan]; simp, ?_, ?_, rfl⟩
  · intro x y h
    obtain ⟨hx, hy⟩ := le_not_nan h
    rw [hexp y, if_neg hy]
    by_cases y1 : Arith.le (Arith.lit 710 1) y = true
    · rw [if_pos y1]
      exact le_posInf (nonNeg_iff.mpr (hnn hx)).1
    · rw [if_neg y1]
      have x1 : ¬ Arith.le (Arith.lit 710 1) x = true := fun h' => y1 (F64.le_trans h' h)
      by_cases y2 : Arith.le y (Arith.lit (-746) 1) = true
      · have x2 : Arith.le x (Arith.lit (-746) 1) = true := F64.le_trans h y2
        rw [if_pos y2, hexp x, if_neg hx, if_neg x1, if_pos x2]
        exact h00
      · rw [if_neg y2]
        by_cases y3 : Arith.le y Arith.zero = true
        · have x3 : Arith.le x Arith.zero = true := F64.le_trans h y3
          rw [if_pos y3, hexp x, if_neg hx, if_neg x1, if_pos x3]
          split_ifs
          · exact h05
          · exact h55
        · rw [if_neg y3, hexp x, if_neg hx, if_neg x1]
          split_ifs
          · exact h02
          · exact h52
          · exact h22
  · intro x h
    have hx := (le_not_nan h).1
    rw [hexp, if_neg hx, if_neg (fun h' : Arith.le (Arith.lit 710 1) x = true => absurd (F64.le_trans h' h) (by rw [← arith_le, q4]; simp)), if_pos h]
    split_ifs
    · exact h01
    · exact h51
  · intro x h
    rw [hexp, if_neg (le_not_nan h).2, if_pos h]
  · intro x h
    rw [hexp, if_neg (le_not_nan h).1, if_neg (fun h' : Arith.le (Arith.lit 710 1) x = true => absurd (F64.le_trans h' h) (by rw [← arith_le, q3]; simp)),
      if_pos h]
    exact h00
  · intro x h
    rw [hexp, if_neg (le_not_nan h).1, if_neg (fun h' : Arith.le (Arith.lit 710 1) x = true => absurd (F64.le_trans h' h) (by rw [← arith_le, q1]; simp))]
    split_ifs
    · exact b0
    · exact b5
    · exact b2
  · intro x h
    rw [hexp, if_neg (le_not_nan h).2]
    split_ifs with h1 h2 h3
    · exact pi
    · have := F64.le_trans h h2
      rw [← arith_le, q2] at this; cases this
    · exact p5
    · exact p2
  · intro x hx
    rw [hatan, if_neg hx]
    split_ifs <;> decide +kernel
  · intro x hx
    rw [hatan, if_neg hx]
    split_ifs <;> decide +kernel

end

section
open Samples Replay
attribute [local instance] rough

/-- Three classes; the first score is 1 + 2x, the second 3 + z, the third 0. -/
def wide : ModelElem F64 := .regression (three .softmax)

-- C104: at ordinary scores shares come out; a score of 801 gives NaN beside noughts.
example : ((newModel Samples.dd wide []).1.toOption.map fun m =>
      ((EModel.evaluate .sorted m (some (mk [("x", .int .int 5), ("z", .int .int (-7))]))).res,
       (EModel.evaluate .sorted m (some (mk [("x", .int .int 400), ("z", .int .int (-7))]))).res)) =
    some (.ok (some (mk [("pa", .f64 (Arith.div (num "2") (num "3"))), ("pb", .f64 (Arith.div (num "0.5") (num "3"))),
        ("pc", .f64 (Arith.div (num "0.5") (num "3")))])),
      .ok (some (mk [("pa", .f64 nan), ("pb", .f64 (num "0")), ("pc", .f64 (num "0"))]))) := by
  decide +kernel

/-- The third table has a score of -800, like the other two for suitable inputs. -/
def low : RegressionDoc F64 :=
  { three .softmax with
    tables := [⟨num "1", "a", [⟨"x", num "2", 1⟩]⟩, ⟨num "3", "b", [⟨"z", num "1", 1⟩]⟩, ⟨num "-800", "c", []⟩] }

-- C104_underflow: all scores below -746.
example : ((newModel Samples.dd (.regression low) []).1.toOption.map fun m =>
      (EModel.evaluate .sorted m (some (mk [("x", .int .int (-400)), ("z", .int .int (-900))]))).res) =
    some (.ok (some (mk [("pa", .f64 nan), ("pb", .f64 nan), ("pc", .f64 nan)]))) := by
  decide +kernel

-- The hypotheses of C104_overflow and C104_ordinary are met.
example : Arith.le (Arith.lit 710 1)
      (linear (some (mk [("x", .int .int 400), ("z", .int .int (-7))])) ⟨num "1", "a", [⟨"x", num "2", 1⟩]⟩ : F64) = true ∧
    ((three .softmax).tables.all fun t =>
      let y : F64 := linear (some (mk [("x", .int .int 5), ("z", .int .int (-7))])) t
      Arith.le (Arith.lit (-700) 1) y && Arith.le y (Arith.lit 700 1)) = true := by
  decide +kernel

-- C104_overflow applied: the first table at x = 400.
example (o : MapOrd) {out : GoMap (GoVal F64)}
    (hr : (EModel.evaluate o (.regression (three .softmax)) (some (mk [("x", .int .int 400), ("z", .int .int (-7))]))).res =
      .ok (some out)) : out["pa"]? = some (.f64 nan) := by
  have h := C104_overflow rough_fits (dd := []) (td := []) (td' := []) (d := three .softmax)
    (m := .regression (three .softmax)) rfl rfl (by decide) rfl (by decide) o hr
    (t := ⟨num "1", "a", [⟨"x", num "2", 1⟩]⟩) (List.mem_cons_self ..) (by decide +kernel)
  exact h.1

-- C104_linear: the terms of 1 + 2x at x = 400 are at most 2^10.
example : ∃ q, (linear (some (mk [("x", .int .int 400)])) ⟨num "1", "a", [⟨"x", num "2", 1⟩]⟩ : F64).val = some q ∧
    |q| ≤ 2 * pow2 10 := by
  have h := C104_linear (row := some (mk [("x", .int .int 400)])) (t := ⟨num "1", "a", [⟨"x", num "2", 1⟩]⟩)
    (e := 10) (by norm_num) ⟨1, by decide +kernel, by decide +kernel⟩ ?_ (by decide) (by decide +kernel)
  · obtain ⟨q, h1, h2⟩ := h
    exact ⟨q, h1, by simpa using h2⟩
  · intro np hnp
    rw [List.mem_singleton] at hnp
    subst hnp
    exact ⟨2, 400, by decide +kernel, by decide +kernel, by decide +kernel⟩

/-- **C104** (finding: simplemax): scores that cancel are reported as infinite. -/
theorem C104_cancelled : ((newModel (F := F64) Samples.dd (.regression { three .simplemax with
        tables := [⟨num "1", "a", []⟩, ⟨num "-1", "b", []⟩, ⟨num "0", "c", []⟩] }) []).1.toOption.map fun m =>
      (EModel.evaluate .sorted m (some (mk []))).res) =
    some (.ok (some (mk [("pa", .f64 (inf false)), ("pb", .f64 (inf true)), ("pc", .f64 nan)]))) := by
  decide +kernel

-- C104_binary: the two-class sample, with a number and with NaN.
example : transformed (F := F64) (fun x => Arith.div Arith.one (Arith.add Arith.one (Trans.exp (Arith.neg x))))
      (some (mk [("x", .str "nan")])) ⟨num "0.25", "yes", [⟨"x", num "2", 1⟩]⟩ = nan ∧
    transformed (F := F64) (fun x => Arith.div Arith.one (Arith.add Arith.one (Trans.exp (Arith.neg x))))
      (some (mk [("x", .str "1e400")])) ⟨num "0.25", "yes", [⟨"x", num "2", 1⟩]⟩ ≠ nan := by
  decide +kernel

end

end Gopmml.Props
