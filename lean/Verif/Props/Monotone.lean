import Verif.Proofs.F64Mono
import Verif.Props.Regression

/-!
# Property C65: regression answers are monotone in every input

With a coefficient that is not negative a larger input never gives a smaller answer, in float64
arithmetic and for every link function, as long as no NaN is involved.
-/

namespace Gopmml.Props
open Gopmml Spec F64

/-- What is asked of `math.Exp`, `math.Atan` and `1/math.Pi` in float64: they are monotone, `Exp` is
not negative, NaN stays NaN. -/
structure MonotoneTrans [Trans F64] : Prop where
  exp_nan : Trans.exp nan = (nan : F64)
  exp_mono : ∀ {x y : F64}, Arith.le x y = true → Arith.le (Trans.exp x) (Trans.exp y) = true
  exp_nonneg : ∀ {x : F64}, x ≠ nan → Arith.le Arith.zero (Trans.exp x) = true
  atan_nan : Trans.atan nan = (nan : F64)
  atan_mono : ∀ {x y : F64}, Arith.le x y = true → Arith.le (Trans.atan x) (Trans.atan y) = true
  invPi_nonneg : Arith.le Arith.zero (Trans.invPi : F64) = true

/-- Every predictor moves in the direction of its coefficient. -/
def Rises {F : Type} [Arith F] [Lib F] (row row' : Row F) (t : RegressionTable F) : Prop :=
  ∀ np ∈ t.predictors,
    (Arith.le Arith.zero np.coefficient = true ∧ Arith.le (valueOf row np.name) (valueOf row' np.name) = true) ∨
    (Arith.le np.coefficient Arith.zero = true ∧ Arith.le (valueOf row' np.name) (valueOf row np.name) = true)

/-- **C65** (linear score, float64): if no NaN results, the score does not fall. -/
theorem C65_linear {row row' : Row F64} {t : RegressionTable F64} (hr : Rises row row' t)
    (hn : linear row t ≠ nan) (hn' : linear row' t ≠ nan) :
    Arith.le (linear row t) (linear row' t) = true := by
  have key : ∀ (nps : List (NumericPredictor F64)) (z z' : F64), (∀ np ∈ nps,
      (Arith.le Arith.zero np.coefficient = true ∧ Arith.le (valueOf row np.name) (valueOf row' np.name) = true) ∨
      (Arith.le np.coefficient Arith.zero = true ∧ Arith.le (valueOf row' np.name) (valueOf row np.name) = true)) →
      ((nps.map fun np => Arith.mul np.coefficient (valueOf row np.name)).foldl Arith.add z) ≠ nan →
      ((nps.map fun np => Arith.mul np.coefficient (valueOf row' np.name)).foldl Arith.add z') ≠ nan →
      (z ≠ nan → z' ≠ nan → Arith.le z z' = true) →
      Arith.le ((nps.map fun np => Arith.mul np.coefficient (valueOf row np.name)).foldl Arith.add z)
        ((nps.map fun np => Arith.mul np.coefficient (valueOf row' np.name)).foldl Arith.add z') = true := by
    intro nps
    induction nps with
    | nil => intro z z' _ h h' hz; exact hz h h'
    | cons np nps ih =>
      intro z z' hs h h' hz
      refine ih _ _ (fun np hnp => hs np (by simp [hnp])) h h' fun h1 h2 => ?_
      obtain ⟨h3, h4⟩ := add_ne_nan h1
      obtain ⟨h5, h6⟩ := add_ne_nan h2
      refine add_le (hz h3 h5) ?_ h1 h2
      rcases hs np (by simp) with ⟨hc, hv⟩ | ⟨hc, hv⟩
      · exact mul_le hc hv h4 h6
      · exact mul_le_neg hc hv h6 h4
  refine key t.predictors t.intercept t.intercept hr hn hn' fun h _ => F64.le_refl h

/-- Every link function is monotone in float64 arithmetic, NaN aside. -/
theorem C65_link [Trans F64] (T : MonotoneTrans) {n : Normalization} {g : F64 → F64} (hg : link n = some g) :
    g nan = nan ∧ ∀ x y : F64, Arith.le x y = true → g x ≠ nan → g y ≠ nan → Arith.le (g x) (g y) = true := by
  have hlogit : ∀ g : F64 → F64,
      g = (fun x => Arith.div Arith.one (Arith.add Arith.one (Trans.exp (Arith.neg x)))) →
      g nan = nan ∧ ∀ x y : F64, Arith.le x y = true → g x ≠ nan → g y ≠ nan → Arith.le (g x) (g y) = true := by
    rintro g rfl
    have hnn : Arith.neg (nan : F64) = nan := rfl
    refine ⟨?_, fun x y h _ _ => ?_⟩
    · simp only [hnn, T.exp_nan]
      rw [add_nan_right, div_nan_right]
    · have hxy := le_not_nan h
      have h1 : NonNeg (Arith.one : F64) := by rw [one_eq]; exact nonNeg_ofRat zero_le_one _
      have hex : ∀ {z : F64}, z ≠ nan → NonNeg (Trans.exp (Arith.neg z) : F64) := fun hz =>
        nonNeg_iff.mpr (T.exp_nonneg (neg_ne_nan.2 hz))
      refine div_one_le ?_ ?_
      · exact (le_iff one_ne_nan (ext_add h1 (hex hxy.2)).1.1).mpr (le_add h1 (hex hxy.2))
      · exact add_le (F64.le_refl one_ne_nan) (T.exp_mono (neg_le h)) (ext_add h1 (hex hxy.2)).1.1
          (ext_add h1 (hex hxy.1)).1.1
  cases n with
  | softmax => exact hlogit g (Option.some.inj hg).symm
  | logit => exact hlogit g (Option.some.inj hg).symm
  | exp =>
    have : g = fun x => Trans.exp x := (Option.some.inj hg).symm
    subst this
    exact ⟨T.exp_nan, fun x y h _ _ => T.exp_mono h⟩
  | cloglog =>
    have : g = fun x => Arith.sub Arith.one (Trans.exp (Arith.neg (Trans.exp x))) := (Option.some.inj hg).symm
    subst this
    have hnn : Arith.neg (nan : F64) = nan := rfl
    refine ⟨?_, fun x y h hx hy => ?_⟩
    · simp only [T.exp_nan, hnn]; exact add_nan_right _
    · exact add_le (F64.le_refl one_ne_nan) (neg_le (T.exp_mono (neg_le (T.exp_mono h)))) hx hy
  | cauchit =>
    have : g = fun x => Arith.add (Arith.lit 1 2) (Arith.mul Trans.invPi (Trans.atan x)) :=
      (Option.some.inj hg).symm
    subst this
    refine ⟨?_, fun x y h hx hy => ?_⟩
    · simp only [T.atan_nan]
      have : Arith.mul (Trans.invPi : F64) nan = nan := by
        show mul _ nan = nan
        cases (Trans.invPi : F64) <;> rfl
      rw [this]; exact add_nan_right _
    · have h1 := (add_ne_nan hx)
      have h2 := (add_ne_nan hy)
      exact add_le (F64.le_refl h1.1) (mul_le T.invPi_nonneg (T.atan_mono h) h1.2 h2.2) hx hy
  | none => cases hg
  | simplemax => cases hg
  | empty => cases hg
  | other s => cases hg

variable {dd : List DataField}

/-- **C65** (float64): if every predictor moves in the direction of its coefficient, the answer of a
regression model does not fall, unless one of the two answers is NaN. -/
theorem C65_answers [Trans F64] (T : MonotoneTrans) {td td' : TD F64} {d : RegressionDoc F64} {m : EModel F64}
    (h : newModel dd (.regression d) td = (.ok m, td')) (hf : d.functionName = .regression)
    {t : RegressionTable F64} (ht : d.tables = [t]) {f : OutputField} (ho : d.outputs = [f])
    (o o' : MapOrd) {row row' : Row F64} (hr : Rises row row' t) {out out' : GoMap (GoVal F64)}
    (h1 : (m.evaluate o row).res = .ok (some out)) (h2 : (m.evaluate o' row').res = .ok (some out')) :
    ∃ p p' : F64, out[f.name]? = some (.f64 p) ∧ out'[f.name]? = some (.f64 p') ∧
      (p ≠ nan → p' ≠ nan → Arith.le p p' = true) := by
  rw [C45_regression h hf ht ho] at h1 h2
  cases e1 : firstMissing row t.predictors with
  | some k => rw [e1] at h1; cases h1
  | none =>
    cases e2 : firstMissing row' t.predictors with
    | some k => rw [e2] at h2; cases h2
    | none =>
      rw [e1] at h1
      rw [e2] at h2
      cases hg : link (F := F64) d.normalization with
      | none => rw [hg] at h1; cases h1
      | some g =>
        rw [hg] at h1 h2
        cases h1
        cases h2
        obtain ⟨hnan, hmono⟩ := C65_link T hg
        refine ⟨g (linear row t), g (linear row' t), by simp, by simp, fun hp hp' => ?_⟩
        have hl : linear row t ≠ nan := fun h => hp (by rw [h, hnan])
        have hl' : linear row' t ≠ nan := fun h => hp' (by rw [h, hnan])
        exact hmono _ _ (C65_linear hr hl hl') hp hp'

/-- **C65** (exact arithmetic): the same over the real numbers, without provisos. -/
theorem C65_exact [Lib ℝ] {td td' : TD ℝ} {d : RegressionDoc ℝ} {m : EModel ℝ}
    (h : newModel dd (.regression d) td = (.ok m, td')) (hf : d.functionName = .regression)
    {t : RegressionTable ℝ} (ht : d.tables = [t]) {f : OutputField} (ho : d.outputs = [f])
    (o : MapOrd) {row row' : Row ℝ} (hr : Rises row row' t) {out out' : GoMap (GoVal ℝ)}
    (h1 : (m.evaluate o row).res = .ok (some out)) (h2 : (m.evaluate o row').res = .ok (some out')) :
    ∃ p p' : ℝ, out[f.name]? = some (.f64 p) ∧ out'[f.name]? = some (.f64 p') ∧ p ≤ p' := by
  obtain ⟨p', p, e1, e2, -, -, hlt⟩ := C49_answers h hf ht ho o h2 h1
  refine ⟨p, p', e2, e1, not_lt.mp fun hp => ?_⟩
  have hl := hlt.mp hp
  refine absurd hl (not_lt.mpr ?_)
  unfold linear
  have hle : ∀ x y : ℝ, Arith.le x y = true ↔ x ≤ y := fun x y => by
    show decide (x ≤ y) = true ↔ _
    simp
  have h0 : (Arith.zero : ℝ) = 0 := Real'.zero_eq
  have key : ∀ (nps : List (NumericPredictor ℝ)) (z z' : ℝ), (∀ np ∈ nps, np ∈ t.predictors) → z ≤ z' →
      (nps.map fun np => Arith.mul np.coefficient (valueOf row np.name)).foldl Arith.add z ≤
      (nps.map fun np => Arith.mul np.coefficient (valueOf row' np.name)).foldl Arith.add z' := by
    intro nps
    induction nps with
    | nil => intro z z' _ h; exact h
    | cons np nps ih =>
      intro z z' hs hz
      refine ih _ _ (fun np hnp => hs np (by simp [hnp])) ?_
      show z + np.coefficient * valueOf row np.name ≤ z' + np.coefficient * valueOf row' np.name
      rcases hr np (hs np (by simp)) with ⟨hc, hv⟩ | ⟨hc, hv⟩
      · rw [hle, h0] at hc
        rw [hle] at hv
        have := mul_le_mul_of_nonneg_left hv hc
        linarith
      · rw [hle, h0] at hc
        rw [hle] at hv
        have := mul_le_mul_of_nonpos_left hv hc
        linarith
  exact key t.predictors t.intercept t.intercept (fun _ h => h) le_rfl

section
open Samples Replay

/-- A step function in place of `exp`, to show that the requirements can be met. -/
@[instance_reducible] def steps : Trans F64 where
  exp x := if x = nan then nan else if Arith.le Arith.zero x then num "2" else num "0.5"
  atan x := x
  invPi := num "0.3183098861837907"

theorem steps_monotone : @MonotoneTrans steps := by
  have hne : (num "2" : F64) ≠ nan ∧ (num "0.5" : F64) ≠ nan ∧ Arith.le (num "0.5") (num "2" : F64) = true ∧
      Arith.le Arith.zero (num "0.5" : F64) = true ∧ Arith.le Arith.zero (num "2" : F64) = true ∧
      Arith.le Arith.zero (num "0.3183098861837907" : F64) = true ∧
      Arith.le (num "0.5") (num "0.5" : F64) = true ∧ Arith.le (num "2") (num "2" : F64) = true := by
    decide +kernel
  obtain ⟨n2, n5, h52, h05, h02, hpi, h55, h22⟩ := hne
  let := steps
  have hexp : ∀ x : F64, Trans.exp x =
      if x = nan then nan else if Arith.le Arith.zero x then num "2" else num "0.5" := fun x => rfl
  refine ⟨by rw [hexp]; simp, ?_, ?_, rfl, fun h => h, hpi⟩
  · intro x y h
    obtain ⟨hx, hy⟩ := le_not_nan h
    rw [hexp, hexp, if_neg hx, if_neg hy]
    by_cases h0 : Arith.le Arith.zero x = true
    · have hy0 : Arith.le Arith.zero y = true := F64.le_trans h0 h
      rw [if_pos h0, if_pos hy0]; exact h22
    · rw [if_neg h0]
      split
      · exact h52
      · exact h55
  · intro x hx
    rw [hexp, if_neg hx]
    split
    · exact h02
    · exact h05

-- C65: larger x and smaller w (whose coefficient is negative) raise the score 1 + 2*x - 3*w.
example : Rises (some (mk [("x", .f64 (num "1")), ("w", .int .int 5)]))
    (some (mk [("x", .f64 (num "1.5")), ("w", .int .int (-2))]))
    (⟨num "1", "", [⟨"x", num "2", 1⟩, ⟨"w", num "-3", 1⟩]⟩ : RegressionTable F64) := by
  have : Arith.le Arith.zero (num "2" : F64) = true ∧ Arith.le (num "-3" : F64) Arith.zero = true ∧
      Arith.le (valueOf (some (mk [("x", .f64 (num "1")), ("w", .int .int 5)])) "x" : F64)
        (valueOf (some (mk [("x", .f64 (num "1.5")), ("w", .int .int (-2))])) "x") = true ∧
      Arith.le (valueOf (some (mk [("x", .f64 (num "1.5")), ("w", .int .int (-2))])) "w" : F64)
        (valueOf (some (mk [("x", .f64 (num "1")), ("w", .int .int 5)])) "w") = true := by decide +kernel
  intro np hnp
  simp only [List.mem_cons, List.not_mem_nil, or_false] at hnp
  rcases hnp with rfl | rfl
  · exact .inl ⟨this.1, this.2.2.1⟩
  · exact .inr ⟨this.2.1, this.2.2.2⟩

end

section
open Replay
attribute [local instance] steps

-- C65: a whole run with the step function for exp: 1 + 2*x + 3*z, at x = -3 and at x = 5.
example : (newModel Samples.dd (.regression (line .exp)) []).1.toOption.map (fun m =>
      ((EModel.evaluate .sorted m (some (mk [("x", .int .int (-3)), ("z", .str "0.5")]))).res,
       (EModel.evaluate .sorted m (some (mk [("x", .int .int 5), ("z", .str "0.5")]))).res)) =
    some (.ok (some (mk [("out", .f64 (num "0.5"))])), .ok (some (mk [("out", .f64 (num "2"))]))) := by
  decide +kernel

end

end Gopmml.Props
