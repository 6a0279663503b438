import Verif.Proofs.Fused
import Verif.Proofs.Nearest
import Verif.Proofs.NumbersModel
import Verif.Props.Numbers
import Verif.Props.Regression

/-!
# Property C82: machines that fuse multiplication and addition
-/

namespace Gopmml
open Spec F64

variable {fuse : F64 → F64 → F64 → Bool}

theorem Fused.lift_goes [Trans F64] : GoesAlong (Fused.lift : F64 → Fused fuse) where
  lit _ _ := rfl
  add _ _ := rfl
  sub _ _ := rfl
  div _ _ := rfl
  neg _ := rfl
  abs _ := rfl
  lt _ _ := rfl
  le _ _ := rfl
  eq _ _ := rfl
  ofInt _ := rfl
  parse _ := rfl
  text64 _ := rfl
  text32 _ := rfl
  exp _ := rfl
  atan _ := rfl
  invPi := rfl

/-- The machine that never fuses. -/
abbrev Unfused := Fused fun _ _ _ => false

theorem Fused.add_never (x y : Unfused) : Fused.add x y = F64.add x.val y.val := by
  obtain ⟨x, _ | p⟩ := x <;> obtain ⟨y, _ | q⟩ := y <;> rfl

theorem Fused.val_goes [Trans F64] : GoesAlong (Fused.val : Unfused → F64) where
  lit _ _ := rfl
  add x y := Fused.add_never x y
  sub x y := Fused.add_never x (Fused.neg y)
  div _ _ := rfl
  neg _ := rfl
  abs _ := rfl
  lt _ _ := rfl
  le _ _ := rfl
  eq _ _ := rfl
  ofInt _ := rfl
  parse s := by
    change Lib.parseFloat s = ((Lib.parseFloat s).map Fused.lift).map Fused.val
    rw [Option.map_map]
    exact Option.map_id'.symm
  text64 _ := rfl
  text32 _ := rfl
  exp _ := rfl
  atan _ := rfl
  invPi := rfl

namespace Props

/-- The fused operation is the one of IEEE-754: of finite numbers it gives, unless it overflows, the float64
nearest to the exact `x * y + z`, ties to even. -/
theorem C82_once {x y z : F64} {a b d c : ℚ} (hx : x.val = some a) (hy : y.val = some b) (hz : z.val = some d)
    (h : (fma x y z).val = some c) : Nearest 53 (-1074) (a * b + d) c := by
  rw [fma_val hx hy hz h]
  exact roundQ_nearest (by norm_num) _ _

/-- All cases: the exact value is rounded, to an infinity if it is too large, to a zero of its own sign if it is
too small; infinities and NaN are not changed by finite products however large; and where the product is zero or
not finite, rounding it first makes no difference. -/
theorem C82_cases (x y z : F64) :
    (∀ a b d, x.val = some a → y.val = some b → z.val = some d → a * b ≠ 0 →
      Rounded (a * b + d < 0) (a * b + d) (fma x y z)) ∧
    (∀ a b, x.val = some a → y.val = some b → a * b = 0 → (z.val.isSome → fma x y z = F64.add (F64.mul x y) z)) ∧
    (∀ a b, x.val = some a → y.val = some b → z.val = none → fma x y z = z) ∧
    (x.val = none ∨ y.val = none → fma x y z = F64.add (F64.mul x y) z) := by
  refine ⟨fun a b d ha hb hd h0 => ?_, fun a b ha hb h0 hz => ?_, fun a b ha hb hz => ?_, fun h => ?_⟩
  · rw [rounded_iff]
    simp only [fma, ha, hb, hd, if_neg h0]
  · obtain ⟨d, hd⟩ := Option.isSome_iff_exists.mp hz
    simp only [fma, ha, hb, hd, if_pos h0]
  · simp only [fma, ha, hb, hz]
  · unfold fma
    rcases h with h | h <;> rw [h]
    cases x.val <;> rfl

/-- What a number may stand for in a sum: its rounded value, or the exact product of its factors. -/
inductive StandsFor (x : Fused fuse) : Bool → ℚ → Prop
  | rounded {q : ℚ} : x.val.val = some q → StandsFor x false q
  | exact {a b : F64} {p q : ℚ} : x.prod = some (a, b) → a.val = some p → b.val = some q → StandsFor x true (p * q)

theorem standsFor_neg {x : Fused fuse} {b : Bool} {q : ℚ} (h : StandsFor (Fused.neg x) b q) : StandsFor x b (-q) := by
  have hv : ∀ {y : F64} {r : ℚ}, (F64.neg y).val = some r → y.val = some (-r) := by
    intro y r h
    cases y with
    | nan => cases h
    | inf b => cases h
    | negZero => simp only [F64.neg, val, zero, Option.some.injEq] at h ⊢; subst h; simp
    | fin q hq =>
      simp only [F64.neg] at h
      split_ifs at h with h0 <;> simp only [val, Option.some.injEq] at h ⊢
      · rw [h0, ← h]; simp
      · rw [← h, neg_neg]
  cases h with
  | rounded h => exact .rounded (hv h)
  | @exact a b p q h hp hq =>
    obtain ⟨v, _ | ⟨a', b'⟩⟩ := x
    · cases h
    · cases h
      have := StandsFor.exact (x := (⟨v, some (a', b')⟩ : Fused fuse)) rfl (hv hp) hq
      rwa [neg_mul] at this

theorem ofRat_neg (s : Bool) (q : ℚ) (h : q ≠ 0 → s = decide (q < 0)) : ofRat (!s) (-q) = F64.neg (ofRat s q) := by
  unfold ofRat
  simp only [roundQ_neg, abs_neg]
  have hz : ∀ (r : ℚ) hr, r = 0 → F64.fin r hr = F64.zero := fun r hr h => by subst h; rfl
  by_cases hr : |roundQ 53 (-1074) q| < pow2 1024
  · rw [dif_pos hr, dif_pos hr]
    by_cases h0 : roundQ 53 (-1074) q = 0
    · cases s
      · simp [h0, F64.neg]
      · simp [h0, F64.neg, F64.zero]
    · simp [h0, F64.neg]
  · rw [dif_neg hr, dif_neg hr]
    have h0 : roundQ 53 (-1074) q ≠ 0 := by
      intro h; rw [h] at hr; exact hr (by simpa using pow2_pos 1024)
    simp only [F64.neg, F64.inf.injEq]
    rcases lt_or_gt_of_ne h0 with h1 | h1
    · simp [h1, h1.le]
    · simp [h1, h1.le]

theorem isNeg_fin_eq (q : ℚ) (hq : Rep q) : (F64.fin q hq).isNeg = decide (q < 0) := rfl

theorem neg_mul_f64 (a b : F64) : F64.mul (F64.neg a) b = F64.neg (F64.mul a b) := by
  cases a with
  | nan => cases b <;> rfl
  | inf s =>
    cases b with
    | nan => rfl
    | inf t => cases s <;> cases t <;> rfl
    | negZero => rfl
    | fin q hq =>
      simp only [F64.neg, F64.mul]
      split_ifs
      · rfl
      · cases s <;> cases (F64.fin q hq).isNeg <;> rfl
  | negZero =>
    cases b with
    | nan => rfl
    | inf t => simp [F64.neg, F64.mul, F64.zero]
    | negZero => simp [F64.neg, F64.mul, F64.zero, isNeg_fin_eq]
    | fin q hq =>
      simp only [F64.neg, F64.mul, F64.zero, isNeg_fin_eq, zero_mul]
      by_cases h : q < 0
      · simp [h, ofRat, roundQ_zero', pow2_pos 1024]
      · simp [h, ofRat, roundQ_zero', pow2_pos 1024]
  | fin p hp =>
    by_cases h : p = 0
    · subst h
      have e : F64.neg (F64.fin 0 hp) = .negZero := by simp [F64.neg]
      rw [e]
      cases b with
      | nan => rfl
      | inf t => simp [F64.mul, F64.neg]
      | negZero => simp [F64.mul, F64.neg, isNeg_fin_eq, F64.zero]
      | fin q hq =>
        simp only [F64.mul, isNeg_fin_eq, zero_mul]
        by_cases h : q < 0
        · simp [h, ofRat, roundQ_zero', pow2_pos 1024, F64.neg, F64.zero]
        · simp [h, ofRat, roundQ_zero', pow2_pos 1024, F64.neg]
    · obtain ⟨hn, e⟩ : ∃ hn : Rep (-p), F64.neg (F64.fin p hp) = .fin (-p) hn := by
        exact ⟨⟨hp.1.neg, by rw [abs_neg]; exact hp.2⟩, by simp only [F64.neg, if_neg h]⟩
      rw [e]
      cases b with
      | nan => rfl
      | inf t =>
        simp only [F64.mul, isNeg_fin_eq, neg_eq_zero, if_neg h, F64.neg]
        rcases lt_or_gt_of_ne h with h1 | h1
        · cases t <;> simp [h1, h1.not_gt]
        · cases t <;> simp [h1, h1.not_gt]
      | negZero =>
        simp only [F64.mul, isNeg_fin_eq]
        rcases lt_or_gt_of_ne h with h1 | h1
        · simp [h1, h1.not_gt, F64.neg, F64.zero]
        · simp [h1, h1.not_gt, F64.neg, F64.zero]
      | fin q hq =>
        simp only [F64.mul, isNeg_fin_eq]
        have e : (decide (-p < 0) != decide (q < 0)) = !(decide (p < 0) != decide (q < 0)) := by
          rcases lt_or_gt_of_ne h with h1 | h1 <;> simp [h1, h1.not_gt]
        rw [e, neg_mul]
        apply ofRat_neg
        intro hpq
        rcases lt_trichotomy p 0 with h1 | h1 | h1
        · rcases lt_trichotomy q 0 with h2 | h2 | h2
          · simp [h1, h2, (mul_pos_of_neg_of_neg h1 h2).le]
          · exact absurd (by rw [h2, mul_zero]) hpq
          · simp [h1, h2.le, mul_neg_of_neg_of_pos h1 h2]
        · exact absurd h1 h
        · rcases lt_trichotomy q 0 with h2 | h2 | h2
          · simp [h1.le, h2, mul_neg_of_pos_of_neg h1 h2]
          · exact absurd (by rw [h2, mul_zero]) hpq
          · simp [h1.not_gt, h2.not_gt, (mul_pos h1 h2).not_gt]
/-- What a number remembers is where it comes from: rounding the product of its factors gives the number. -/
def FromFactors (x : Fused fuse) : Prop := ∀ a b, x.prod = some (a, b) → x.val = F64.mul a b

/-- Every operation keeps this, whatever the machine fuses: numbers that are no products remember no factors,
negation changes the sign of one factor. So only what has just been multiplied is ever fused. -/
theorem C82_factors [Trans F64] {x y : Fused fuse} (hx : FromFactors x) :
    FromFactors (Arith.mul x y) ∧ FromFactors (Arith.neg x) ∧ FromFactors (Arith.add x y) ∧
      FromFactors (Arith.sub x y) ∧ FromFactors (Arith.div x y) ∧ FromFactors (Arith.abs x) ∧
      FromFactors (Arith.toF32 x) ∧ FromFactors (Trans.exp x) ∧ FromFactors (Trans.atan x) ∧
      FromFactors (Trans.invPi : Fused fuse) ∧ (∀ n d, FromFactors (Arith.lit n d : Fused fuse)) ∧
      (∀ n, FromFactors (Arith.ofInt n : Fused fuse)) ∧ (∀ n, FromFactors (Arith.ofInt32 n : Fused fuse)) ∧
      ∀ s z, Lib.parseFloat (F := Fused fuse) s = some z → FromFactors z := by
  have hl : ∀ z : F64, FromFactors (Fused.lift z : Fused fuse) := fun z a b h => by cases h
  refine ⟨?_, ?_, hl _, hl _, hl _, hl _, hl _, hl _, hl _, hl _, fun _ _ => hl _, fun _ => hl _, fun _ => hl _, ?_⟩
  · intro a b h
    cases h
    rfl
  · intro a b h
    obtain ⟨p, hp, e⟩ := Option.map_eq_some_iff.mp h
    cases e
    exact (congrArg F64.neg (hx p.1 p.2 hp)).trans (neg_mul_f64 _ _).symm
  · intro s z h
    obtain ⟨v, -, rfl⟩ := Option.map_eq_some_iff.mp h
    exact hl v

/-- Every finite sum is the float64 nearest to the sum of what its operands stand for, at most one of them
standing for an exact product. -/
theorem C82_sum {x y : Fused fuse} {c : ℚ} (h : (Arith.add x y).val.val = some c) :
    ∃ i j p q, StandsFor x i p ∧ StandsFor y j q ∧ (i && j) = false ∧ Nearest 53 (-1074) (p + q) c := by
  have h0 : (F64.add x.val y.val).val = some c →
      ∃ i j p q, StandsFor x i p ∧ StandsFor y j q ∧ (i && j) = false ∧ Nearest 53 (-1074) (p + q) c := by
    intro h
    obtain ⟨⟨p, hp⟩, q, hq⟩ := add_val_of h
    refine ⟨false, false, p, q, .rounded hp, .rounded hq, rfl, ?_⟩
    rw [add_val hp hq h]
    exact roundQ_nearest (by norm_num) _ _
  have h1 : ∀ {a b : F64}, x.prod = some (a, b) → (fma a b y.val).val = some c →
      ∃ i j p q, StandsFor x i p ∧ StandsFor y j q ∧ (i && j) = false ∧ Nearest 53 (-1074) (p + q) c := by
    intro a b hx h
    obtain ⟨⟨p, hp⟩, ⟨q, hq⟩, r, hr⟩ := fma_val_of h
    exact ⟨true, false, p * q, r, .exact hx hp hq, .rounded hr, rfl, C82_once hp hq hr h⟩
  have h2 : ∀ {a b : F64}, y.prod = some (a, b) → (fma a b x.val).val = some c →
      ∃ i j p q, StandsFor x i p ∧ StandsFor y j q ∧ (i && j) = false ∧ Nearest 53 (-1074) (p + q) c := by
    intro a b hx h
    obtain ⟨⟨p, hp⟩, ⟨q, hq⟩, r, hr⟩ := fma_val_of h
    exact ⟨false, true, r, p * q, .rounded hr, .exact hx hp hq, rfl, add_comm r (p * q) ▸ C82_once hp hq hr h⟩
  change (Fused.add x y).val = some c at h
  obtain ⟨v, _ | ⟨a, b⟩⟩ := x <;> obtain ⟨w, _ | ⟨a', b'⟩⟩ := y <;> simp only [Fused.add] at h
  · exact h0 h
  · split_ifs at h
    · exact h2 rfl h
    · exact h0 h
  · split_ifs at h
    · exact h1 rfl h
    · exact h0 h
  · split_ifs at h
    · exact h1 rfl h
    · exact h2 rfl h
    · exact h0 h

/-- Every finite difference likewise. -/
theorem C82_difference {x y : Fused fuse} {c : ℚ} (h : (Arith.sub x y).val.val = some c) :
    ∃ i j p q, StandsFor x i p ∧ StandsFor y j q ∧ (i && j) = false ∧ Nearest 53 (-1074) (p - q) c := by
  obtain ⟨i, j, p, q, h1, h2, h3, h4⟩ := C82_sum (y := Fused.neg y) h
  exact ⟨i, j, p, -q, h1, standsFor_neg h2, h3, by rwa [sub_neg_eq_add]⟩

variable [Trans F64]

/-- Construction never multiplies: on every machine the same documents are accepted, with the same errors
for the others, and the same evaluators are built. -/
theorem C82_construction (fuse : F64 → F64 → F64 → Bool) (dd : List DataField) (e : ModelElem F64) (td : TD F64) :
    newModel dd (numElem (Fused.lift (fuse := fuse)) e) (td.map (numDerived Fused.lift)) =
      ((newModel dd e td).1.map (numModel Fused.lift), (newModel dd e td).2.map (numDerived Fused.lift)) :=
  newModel_num Fused.lift_goes dd e td

/-- Documents that compute no product answer the same on every machine. -/
theorem C82_plain (fuse : F64 → F64 → F64 → Bool) {dd : List DataField} {e : ModelElem F64} {td td' : TD F64}
    {m : EModel F64} (hm : newModel dd e td = (.ok m, td')) (hp : Plain e) {o : MapOrd} (hk : ByKeys o)
    (row : Row F64) :
    ((numModel (Fused.lift (fuse := fuse)) m).evaluate o (numRow Fused.lift row)).res =
      (m.evaluate o row).res.map (numRow Fused.lift) :=
  (C81_answers Fused.lift_goes hm (.inr hp) hk row).1

/-- A machine that never fuses answers as the model with float64 numbers does. -/
theorem C82_never (m : EModel Unfused) {o : MapOrd} (hk : ByKeys o) (row : Row Unfused) :
    ((numModel Fused.val m).evaluate o (numRow Fused.val row)).res =
      (m.evaluate o row).res.map (numRow Fused.val) :=
  (C81_evaluators Fused.val_goes (fun _ _ => rfl) m hk row).1

/-- The linear predictor of a regression table, on every machine: if it is finite, it is as close to the exact
value as rounding every operation guarantees. -/
theorem C82_linear (fuse : F64 → F64 → F64 → Bool) (row : Row F64) (t : RegressionTable F64) :
    ∃ y, linear (numRow (Fused.lift (fuse := fuse)) row) (numTable Fused.lift t) = Fused.lift y ∧
      ∀ c, y.val = some c → ∃ (a : ℚ) (qs : List (ℚ × ℚ)), t.intercept.val = some a ∧
        t.predictors.map (fun np => (np.coefficient.val, ((row.get np.name).getD .nil).float64.val)) =
          qs.map (fun q => (some q.1, some q.2)) ∧
        |c - (a + (qs.map fun q => q.1 * q.2).sum)| ≤
          ((1 + uu) ^ (t.predictors.length + 1) - 1) * (|a| + (qs.map fun q => |q.1 * q.2|).sum) +
          (1 + uu) ^ t.predictors.length * t.predictors.length * eta := by
  have hv : ∀ k, valueOf (numRow (Fused.lift (fuse := fuse)) row) k = Fused.lift (valueOf row k) := by
    intro k
    unfold valueOf
    rw [numRow_get, ← numVal_float64 Fused.lift_goes]
    cases row.get k <;> rfl
  refine ⟨Fused.combine fuse t.intercept (t.predictors.map fun np => (np.coefficient, valueOf row np.name)), ?_, ?_⟩
  · rw [← Fused.foldl_combine]
    simp only [linear, numTable, List.map_map]
    congr 1
    apply List.map_congr_left
    intro np _
    simp only [Function.comp, hv]
  · intro c hc
    obtain ⟨a, qs, h1, h2, h3⟩ := Fused.combine_error hc
    rw [List.map_map] at h2
    have hlen : qs.length = t.predictors.length := by
      have := congrArg List.length h2; simpa using this.symm
    rw [hlen] at h3
    exact ⟨a, qs, h1, h2, h3⟩

/-- So the reported number of a regression is the link function at such a number; only the link function cauchit
itself multiplies and adds. -/
theorem C82_regression {dd : List DataField} {td td' : TD (Fused fuse)} {d : RegressionDoc F64}
    {m : EModel (Fused fuse)} (h : newModel dd (.regression (numRegression Fused.lift d)) td = (.ok m, td'))
    (hf : d.functionName = .regression) {t : RegressionTable F64} (ht : d.tables = [t])
    {f : OutputField} (ho : d.outputs = [f]) {o : MapOrd} {row : Row F64} {out : GoMap (GoVal (Fused fuse))}
    (hr : (m.evaluate o (numRow Fused.lift row)).res = .ok (some out)) :
    ∃ (g : Fused fuse → Fused fuse) (y : F64), link d.normalization = some g ∧
      out[f.name]? = some (.f64 (g (Fused.lift y))) ∧
      (d.normalization ≠ .cauchit → ∃ g' : F64 → F64, link d.normalization = some g' ∧
        g (Fused.lift y) = Fused.lift (g' y)) ∧
      ∀ c, y.val = some c → ∃ (a : ℚ) (qs : List (ℚ × ℚ)), t.intercept.val = some a ∧
        t.predictors.map (fun np => (np.coefficient.val, ((row.get np.name).getD .nil).float64.val)) =
          qs.map (fun q => (some q.1, some q.2)) ∧
        |c - (a + (qs.map fun q => q.1 * q.2).sum)| ≤
          ((1 + uu) ^ (t.predictors.length + 1) - 1) * (|a| + (qs.map fun q => |q.1 * q.2|).sum) +
          (1 + uu) ^ t.predictors.length * t.predictors.length * eta := by
  have hev := C45_regression h (t := numTable Fused.lift t) (by exact hf) (by simp [numRegression, ht])
    (f := f) (by exact ho) o (numRow Fused.lift row)
  rw [hr] at hev
  obtain ⟨y, hy, hb⟩ := C82_linear fuse row t
  have hn : (numRegression (Fused.lift (fuse := fuse)) d).normalization = d.normalization := rfl
  rw [hn, hy] at hev
  cases hm : firstMissing (numRow (Fused.lift (fuse := fuse)) row) (numTable Fused.lift t).predictors with
  | some k => rw [hm] at hev; cases hev
  | none =>
    cases hg : link (F := Fused fuse) d.normalization with
    | none => rw [hm, hg] at hev; cases hev
    | some g =>
      rw [hm, hg] at hev
      simp only [Except.ok.injEq, Option.some.injEq] at hev
      refine ⟨g, y, rfl, by rw [hev]; simp, fun hc => ?_, hb⟩
      cases hd : d.normalization <;> rw [hd] at hg hc <;>
        first
        | (cases hg; done)
        | (cases hg; exact ⟨_, rfl, rfl⟩)
        | exact absurd rfl hc

/-- Two machines that both give a finite linear predictor differ by at most twice the bound. -/
theorem C82_apart (fuse fuse' : F64 → F64 → F64 → Bool) {row : Row F64} {t : RegressionTable F64} {y y' : F64}
    (hy : linear (numRow (Fused.lift (fuse := fuse)) row) (numTable Fused.lift t) = Fused.lift y)
    (hy' : linear (numRow (Fused.lift (fuse := fuse')) row) (numTable Fused.lift t) = Fused.lift y')
    {c c' : ℚ} (hc : y.val = some c) (hc' : y'.val = some c') :
    ∃ (a : ℚ) (qs : List (ℚ × ℚ)), t.intercept.val = some a ∧
      t.predictors.map (fun np => (np.coefficient.val, ((row.get np.name).getD .nil).float64.val)) =
        qs.map (fun q => (some q.1, some q.2)) ∧
      |c - c'| ≤ 2 * (((1 + uu) ^ (t.predictors.length + 1) - 1) * (|a| + (qs.map fun q => |q.1 * q.2|).sum) +
          (1 + uu) ^ t.predictors.length * t.predictors.length * eta) := by
  obtain ⟨z, hz, h1⟩ := C82_linear fuse row t
  obtain ⟨z', hz', h2⟩ := C82_linear fuse' row t
  have e1 : z = y := congrArg Fused.val (hz.symm.trans hy)
  have e2 : z' = y' := congrArg Fused.val (hz'.symm.trans hy')
  subst e1 e2
  obtain ⟨a, qs, ha, hq, hb⟩ := h1 c hc
  obtain ⟨a', qs', ha', hq', hb'⟩ := h2 c' hc'
  have ea : a = a' := by rw [ha] at ha'; exact Option.some.inj ha'
  have eq : qs = qs' := by
    apply List.map_injective_iff.mpr _ (hq.symm.trans hq')
    rintro ⟨p, q⟩ ⟨p', q'⟩ h
    simp only [Prod.mk.injEq, Option.some.injEq] at h
    rw [h.1, h.2]
  subst ea eq
  refine ⟨a, qs, ha, hq, ?_⟩
  have := abs_sub_le c (a + (qs.map fun q => q.1 * q.2).sum) c'
  rw [abs_sub_comm (a + _) c'] at this
  exact this.trans ((add_le_add hb hb').trans_eq (two_mul _).symm)

end Props

section Examples
open Samples Replay

/-- One table, `-(0.1 * 0.1) + 0.1 x`, reported as its share of the total of all tables. -/
def fusedSample : RegressionDoc F64 where
  functionName := .classification
  normalization := .simplemax
  tables := [⟨F64.neg (F64.mul (num "0.1") (num "0.1")), "a", [⟨"x", num "0.1", 1⟩]⟩]
  outputs := [⟨"p", .probability, "a"⟩]
  verification := none

/-- What a machine answers for a document and a row. -/
def onMachine (fuse : F64 → F64 → F64 → Bool) (e : ModelElem F64) (row : List (String × GoVal F64)) (k : String) :
    Option (GoVal (Fused fuse)) :=
  match (newModel [] (numElem (Fused.lift (fuse := fuse)) e) []).1 with
  | .ok m =>
    match (m.evaluate .sorted (numRow Fused.lift (some (Replay.mk row)))).res with
    | .ok (some out) => out[k]?
    | _ => none
  | _ => none

/-- Answers do differ between machines: the only class of this document has probability NaN for `x = 0.1` on a
machine that rounds every product, and 1 on one that fuses. -/
theorem Props.C82_differs :
    onMachine (fun _ _ _ => false) (.regression fusedSample) [("x", .f64 (num "0.1"))] "p" =
      some (.f64 (Fused.lift .nan)) ∧
    onMachine (fun _ _ _ => true) (.regression fusedSample) [("x", .f64 (num "0.1"))] "p" =
      some (.f64 (Fused.lift (num "1"))) := by
  decide +kernel

-- The ensemble multiplies and adds once (it is not plain); the trees in it are.
example : ¬ Plain (ensemble .sum) ∧ Plain (F := F64) (.tree (regTree "1" "10")) := by
  constructor
  · intro h
    simp only [ensemble, Plain] at h
    exact absurd (h.1 _ (List.mem_singleton.mpr rfl)) (by simp)
  · simp [Plain, regTree]

-- Two predictors: fused and unfused agree up to the bound, and not exactly.
example : (Fused.combine (fun _ _ _ => true) (num "0.1") [(num "0.1", num "0.3"), (num "0.7", num "3.3")] ≠
    Fused.combine (fun _ _ _ => false) (num "0.1") [(num "0.1", num "0.3"), (num "0.7", num "3.3")]) := by
  decide +kernel

end Examples

end Gopmml
