import Verif.Proofs.F64Arith

/-!
# float64 arithmetic is monotone, NaN aside
-/

namespace Gopmml.F64

/-- The finite numbers, with the value they denote. -/
theorem finite_or {x : F64} (hx : x ≠ nan) :
    x = inf true ∨ x = inf false ∨
      ∃ q : ℚ, ext x = ((q : WithTop ℚ) : WithBot (WithTop ℚ)) ∧ (x = negZero ∧ q = 0 ∨ ∃ h, x = fin q h) := by
  cases x with
  | nan => exact absurd rfl hx
  | inf b => cases b <;> simp
  | negZero => exact .inr (.inr ⟨0, rfl, .inl ⟨rfl, rfl⟩⟩)
  | fin q h => exact .inr (.inr ⟨q, rfl, .inr ⟨h, rfl⟩⟩)

theorem le_negInf {y : F64} (hy : y ≠ nan) : le (inf true) y = true := by
  rw [le_iff (by simp) hy]; exact bot_le

theorem le_posInf {x : F64} (hx : x ≠ nan) : le x (inf false) = true := by
  rw [le_iff hx (by simp)]; exact le_top_ext x

theorem eq_negInf_of_le {x : F64} (h : le x (inf true) = true) : x = inf true := by
  have hn := (le_not_nan h).1
  rw [le_iff hn (by simp)] at h
  rcases finite_or hn with rfl | rfl | ⟨q, hq, -⟩
  · rfl
  · simp [ext] at h
  · rw [hq] at h; simp [ext] at h

theorem eq_posInf_of_le {y : F64} (h : le (inf false) y = true) : y = inf false := by
  have hn := (le_not_nan h).2
  rw [le_iff (by simp) hn] at h
  rcases finite_or hn with rfl | rfl | ⟨q, hq, -⟩
  · simp [ext] at h
  · rfl
  · rw [hq] at h; simp [ext, -WithBot.coe_top] at h

theorem add_finite {x y : F64} {a b : ℚ} (hx : x = negZero ∧ a = 0 ∨ ∃ h, x = fin a h)
    (hy : y = negZero ∧ b = 0 ∨ ∃ h, y = fin b h) :
    add x y ≠ nan ∧ ext (add x y) = ext (ofRat false (a + b)) := by
  rcases hx with ⟨rfl, rfl⟩ | ⟨ha, rfl⟩ <;> rcases hy with ⟨rfl, rfl⟩ | ⟨hb, rfl⟩
  · refine ⟨by simp [add], ?_⟩
    rw [_root_.add_zero, ext_ofRat_exact rep_zero]; rfl
  · refine ⟨by simp [add], ?_⟩
    rw [_root_.zero_add, ext_ofRat_exact hb]; rfl
  · refine ⟨by simp [add], ?_⟩
    rw [_root_.add_zero, ext_ofRat_exact ha]; rfl
  · exact ⟨by simp only [add]; exact ofRat_ne_nan _ _, rfl⟩

theorem add_negInf {x y : F64} (h : x = inf true ∨ y = inf true) (hn : add x y ≠ nan) : add x y = inf true := by
  rcases h with rfl | rfl
  · cases y with
    | inf b => cases b <;> simp_all [add]
    | _ => simp_all [add]
  · cases x with
    | inf b => cases b <;> simp_all [add]
    | _ => simp_all [add]

theorem add_posInf {x y : F64} (h : x = inf false ∨ y = inf false) (hn : add x y ≠ nan) : add x y = inf false := by
  rcases h with rfl | rfl
  · cases y with
    | inf b => cases b <;> simp_all [add]
    | _ => simp_all [add]
  · cases x with
    | inf b => cases b <;> simp_all [add]
    | _ => simp_all [add]

theorem add_ne_nan {x y : F64} (h : add x y ≠ nan) : x ≠ nan ∧ y ≠ nan := by
  constructor
  · rintro rfl; simp [add] at h
  · rintro rfl; cases x <;> simp [add] at h

theorem mul_ne_nan {x y : F64} (h : mul x y ≠ nan) : x ≠ nan ∧ y ≠ nan := by
  constructor
  · rintro rfl; simp [mul] at h
  · rintro rfl; cases x <;> simp [mul] at h

/-- Two numbers in order are both finite unless the lower one is `-∞` or the upper one `+∞`. -/
theorem le_cases {x y : F64} (h : le x y = true) :
    x = inf true ∨ y = inf false ∨ ∃ a b : ℚ, a ≤ b ∧
      (x = negZero ∧ a = 0 ∨ ∃ h, x = fin a h) ∧ (y = negZero ∧ b = 0 ∨ ∃ h, y = fin b h) := by
  obtain ⟨hx, hy⟩ := le_not_nan h
  rcases finite_or hx with rfl | rfl | ⟨a, ha, ha'⟩
  · exact .inl rfl
  · exact .inr (.inl (eq_posInf_of_le h))
  · rcases finite_or hy with rfl | rfl | ⟨b, hb, hb'⟩
    · exact .inl (eq_negInf_of_le h)
    · exact .inr (.inl rfl)
    · rw [le_iff hx hy, ha, hb] at h
      exact .inr (.inr ⟨a, b, by exact_mod_cast h, ha', hb'⟩)

/-- Addition is monotone in both arguments. -/
theorem add_le {x x' y y' : F64} (h : le x x' = true) (h' : le y y' = true)
    (hn : add x y ≠ nan) (hn' : add x' y' ≠ nan) : le (add x y) (add x' y') = true := by
  rcases le_cases h with e | e | ⟨a, a', haa, ha, ha'⟩
  · rw [add_negInf (.inl e) hn]; exact le_negInf hn'
  · rw [add_posInf (.inl e) hn']; exact le_posInf hn
  rcases le_cases h' with e | e | ⟨b, b', hbb, hb, hb'⟩
  · rw [add_negInf (.inr e) hn]; exact le_negInf hn'
  · rw [add_posInf (.inr e) hn']; exact le_posInf hn
  rw [le_iff hn hn', (add_finite ha hb).2, (add_finite ha' hb').2]
  exact ext_ofRat_mono (add_le_add haa hbb) _ _

theorem mul_finite {x y : F64} {a b : ℚ} (hx : x = negZero ∧ a = 0 ∨ ∃ h, x = fin a h)
    (hy : y = negZero ∧ b = 0 ∨ ∃ h, y = fin b h) :
    mul x y ≠ nan ∧ ext (mul x y) = ext (ofRat false (a * b)) := by
  have hz : ext zero = ext (ofRat false 0) := by rw [ext_ofRat_exact rep_zero]; rfl
  have hz' : ext negZero = ext (ofRat false 0) := by rw [ext_ofRat_exact rep_zero]; rfl
  rcases hx with ⟨rfl, rfl⟩ | ⟨ha, rfl⟩ <;> rcases hy with ⟨rfl, rfl⟩ | ⟨hb, rfl⟩
  · refine ⟨by simp [mul, zero], ?_⟩
    rw [zero_mul, ← hz]; rfl
  · simp only [mul]
    split
    · exact ⟨by simp [zero], by rw [zero_mul, ← hz]⟩
    · exact ⟨by simp, by rw [zero_mul, ← hz']⟩
  · simp only [mul]
    split
    · exact ⟨by simp [zero], by rw [mul_zero, ← hz]⟩
    · exact ⟨by simp, by rw [mul_zero, ← hz']⟩
  · refine ⟨by simp only [mul]; exact ofRat_ne_nan _ _, ?_⟩
    simp only [mul]
    rw [ext_ofRat, ext_ofRat]

/-- The sign of a product with an infinity. -/
theorem mul_inf {x : F64} (s : Bool) (hn : mul x (inf s) ≠ nan) :
    mul x (inf s) = inf (x.isNeg != s) ∧ ext x ≠ (((0 : ℚ) : WithTop ℚ) : WithBot (WithTop ℚ)) := by
  cases x with
  | nan => simp [mul] at hn
  | inf b => exact ⟨by simp [mul, isNeg], by cases b <;> simp [ext, -WithBot.coe_top, -WithTop.coe_zero, -WithBot.coe_zero]⟩
  | negZero => simp [mul] at hn
  | fin q h =>
    by_cases hq : q = 0
    · simp [mul, hq] at hn
    · refine ⟨by simp [mul, hq], ?_⟩
      simp only [ext]
      intro h
      exact hq (by exact_mod_cast h)

theorem inf_mul {x : F64} (s : Bool) (hn : mul (inf s) x ≠ nan) :
    mul (inf s) x = inf (s != x.isNeg) ∧ ext x ≠ (((0 : ℚ) : WithTop ℚ) : WithBot (WithTop ℚ)) := by
  cases x with
  | nan => simp [mul] at hn
  | inf b => exact ⟨by simp [mul, isNeg], by cases b <;> simp [ext, -WithBot.coe_top, -WithTop.coe_zero, -WithBot.coe_zero]⟩
  | negZero => simp [mul] at hn
  | fin q h =>
    by_cases hq : q = 0
    · simp [mul, hq] at hn
    · refine ⟨by simp [mul, hq], ?_⟩
      simp only [ext]
      intro h
      exact hq (by exact_mod_cast h)

/-- The sign of a number that is not zero. -/
theorem isNeg_iff {x : F64} (hn : x ≠ nan) (h0 : ext x ≠ (((0 : ℚ) : WithTop ℚ) : WithBot (WithTop ℚ))) :
    x.isNeg = true ↔ ext x ≤ (((0 : ℚ) : WithTop ℚ) : WithBot (WithTop ℚ)) := by
  cases x with
  | nan => exact absurd rfl hn
  | inf b => cases b <;> simp [isNeg, ext, -WithBot.coe_top, -WithTop.coe_zero, -WithBot.coe_zero]
  | negZero => exact absurd rfl h0
  | fin q h =>
    simp only [ext, ne_eq] at h0
    have hq : q ≠ 0 := fun h => h0 (by rw [h])
    simp only [isNeg, decide_eq_true_eq, ext]
    constructor
    · intro h; exact_mod_cast h.le
    · intro h
      have : q ≤ 0 := by exact_mod_cast h
      exact lt_of_le_of_ne this hq

/-- Multiplication by a number that is not negative is monotone. -/
theorem mul_le {c x y : F64} (hc : le Arith.zero c = true) (h : le x y = true)
    (hn : mul c x ≠ nan) (hn' : mul c y ≠ nan) : le (mul c x) (mul c y) = true := by
  have hcn : NonNeg c := nonNeg_iff.mpr hc
  obtain ⟨hx, hy⟩ := le_not_nan h
  have hsign : ∀ {s}, mul c (inf s) ≠ nan → mul c (inf s) = inf s := by
    intro s hs
    obtain ⟨h1, h2⟩ := mul_inf s hs
    have : c.isNeg = false := by
      rw [← Bool.not_eq_true, isNeg_iff hcn.1 h2]
      intro hle
      exact h2 (le_antisymm hle hcn.2)
    rw [h1, this]; simp
  rcases le_cases h with rfl | rfl | ⟨a, b, hab, ha, hb⟩
  · rw [hsign hn]; exact le_negInf hn'
  · rw [hsign hn']; exact le_posInf hn
  · rcases hcn.cases with rfl | hcf
    · obtain ⟨h1, h2⟩ := inf_mul false hn
      obtain ⟨h3, h4⟩ := inf_mul false hn'
      cases hy0 : y.isNeg with
      | false => rw [h3, hy0]; exact le_posInf hn
      | true =>
        have hle : ext y ≤ _ := (isNeg_iff hy h4).1 hy0
        have : x.isNeg = true := (isNeg_iff hx h2).2 (_root_.le_trans ((le_iff hx hy).1 h) hle)
        rw [h1, this]; exact le_negInf hn'
    · have hcf' : ∃ q : ℚ, 0 ≤ q ∧ (c = negZero ∧ q = 0 ∨ ∃ h, c = fin q h) := by
        rcases hcf with rfl | ⟨q, hq, rfl, h0⟩
        · exact ⟨0, _root_.le_refl _, .inl ⟨rfl, rfl⟩⟩
        · exact ⟨q, h0, .inr ⟨hq, rfl⟩⟩
      obtain ⟨q, h0, hq⟩ := hcf'
      rw [le_iff hn hn', (mul_finite hq ha).2, (mul_finite hq hb).2]
      exact ext_ofRat_mono (mul_le_mul_of_nonneg_left hab h0) _ _

theorem ext_neg {x : F64} {a : ℚ} (hx : x = negZero ∧ a = 0 ∨ ∃ h, x = fin a h) :
    (neg x = negZero ∧ -a = 0 ∨ ∃ h, neg x = fin (-a) h) := by
  rcases hx with ⟨rfl, rfl⟩ | ⟨ha, rfl⟩
  · right
    simp only [neg, zero, neg_zero]
    exact ⟨rep_zero, trivial⟩
  · simp only [neg]
    split
    · left; exact ⟨rfl, by simp_all⟩
    · right; exact ⟨⟨ha.1.neg, by rw [abs_neg]; exact ha.2⟩, rfl⟩

theorem neg_ne_nan {x : F64} : neg x ≠ nan ↔ x ≠ nan := by
  cases x <;> simp [neg, zero]
  split <;> simp

/-- Negation reverses the order. -/
theorem neg_le {x y : F64} (h : le x y = true) : le (neg y) (neg x) = true := by
  obtain ⟨hx, hy⟩ := le_not_nan h
  rcases le_cases h with rfl | rfl | ⟨a, b, hab, ha, hb⟩
  · exact le_posInf (neg_ne_nan.2 hy)
  · exact le_negInf (neg_ne_nan.2 hx)
  · rw [le_iff (neg_ne_nan.2 hy) (neg_ne_nan.2 hx)]
    have he : ∀ {z : F64} {q : ℚ}, (z = negZero ∧ q = 0 ∨ ∃ h, z = fin q h) → ext z = ((q : WithTop ℚ) : WithBot (WithTop ℚ)) := by
      rintro z q (⟨rfl, rfl⟩ | ⟨_, rfl⟩) <;> rfl
    rw [he (ext_neg ha), he (ext_neg hb)]
    exact_mod_cast neg_le_neg hab

/-- Multiplication by a number that is not positive reverses the order. -/
theorem mul_le_neg {c x y : F64} (hc : le c Arith.zero = true) (h : le x y = true)
    (hn : mul c x ≠ nan) (hn' : mul c y ≠ nan) : le (mul c y) (mul c x) = true := by
  have hcn := (le_not_nan hc).1
  have hc0 : ext c ≤ (((0 : ℚ) : WithTop ℚ) : WithBot (WithTop ℚ)) := by
    rw [← ext_zero]; exact (le_iff hcn zero_ne_nan).1 hc
  obtain ⟨hx, hy⟩ := le_not_nan h
  have hsign : ∀ {s}, mul c (inf s) ≠ nan → mul c (inf s) = inf (!s) := by
    intro s hs
    obtain ⟨h1, h2⟩ := mul_inf s hs
    have : c.isNeg = true := (isNeg_iff hcn h2).2 hc0
    rw [h1, this]; simp
  rcases le_cases h with rfl | rfl | ⟨a, b, hab, ha, hb⟩
  · rw [hsign hn]; exact le_posInf hn'
  · rw [hsign hn']; exact le_negInf hn
  · rcases finite_or hcn with rfl | rfl | ⟨q, hq, hcf⟩
    · obtain ⟨h1, h2⟩ := inf_mul true hn
      obtain ⟨h3, h4⟩ := inf_mul true hn'
      cases hy0 : y.isNeg with
      | false => rw [h3, hy0]; exact le_negInf hn
      | true =>
        have hle : ext y ≤ _ := (isNeg_iff hy h4).1 hy0
        have : x.isNeg = true := (isNeg_iff hx h2).2 (_root_.le_trans ((le_iff hx hy).1 h) hle)
        rw [h1, this]; exact le_posInf hn'
    · exact absurd hc0 (by simp [ext, -WithBot.coe_top, -WithTop.coe_zero, -WithBot.coe_zero])
    · rw [hq] at hc0
      have h0 : q ≤ 0 := by exact_mod_cast hc0
      rw [le_iff hn' hn, (mul_finite hcf ha).2, (mul_finite hcf hb).2]
      exact ext_ofRat_mono (mul_le_mul_of_nonpos_left hab h0) _ _

/-- One divided by numbers of at least one. -/
theorem div_one_le {x y : F64} (h1 : le Arith.one x = true) (h : le x y = true) :
    le (div Arith.one y) (div Arith.one x) = true := by
  have h1y := le_trans h1 h
  have hx1 := (le_iff one_ne_nan (le_not_nan h1).2).1 h1
  have hy1 := (le_iff one_ne_nan (le_not_nan h1y).2).1 h1y
  rw [ext_one] at hx1 hy1
  have hone : (Arith.one : F64) = fin 1 rep_one := by
    rw [one_eq]
    unfold ofRat
    simp only [roundQ_exact (p := 53) (by norm_num) rep_one.1]
    rw [dif_pos rep_one.2]
    simp
  have key : ∀ {z : F64} {q : ℚ}, (((1 : ℚ) : WithTop ℚ) : WithBot (WithTop ℚ)) ≤ ext z →
      (z = negZero ∧ q = 0 ∨ ∃ h, z = fin q h) → 1 ≤ q ∧ div Arith.one z = ofRat false (1 / q) := by
    rintro z q hz (⟨rfl, rfl⟩ | ⟨hq, rfl⟩)
    · simp only [ext] at hz
      have : (1 : ℚ) ≤ 0 := by exact_mod_cast hz
      norm_num at this
    · simp only [ext] at hz
      have hq1 : (1 : ℚ) ≤ q := by exact_mod_cast hz
      have hq0 : q ≠ 0 := by intro h; rw [h] at hq1; norm_num at hq1
      refine ⟨hq1, ?_⟩
      rw [hone]
      simp only [div, if_neg hq0, isNeg]
      have h1 : ¬ ((1 : ℚ) < 0) := by norm_num
      have h2 : ¬ (q < 0) := by linarith
      simp [h1, h2]
  have hinf : div Arith.one (inf false) = zero := by rw [hone]; simp [div, isNeg, zeroOf]
  rcases le_cases h with rfl | rfl | ⟨a, b, hab, ha, hb⟩
  · simp [ext] at hx1
  · rw [hinf]
    rcases finite_or (le_not_nan h1).2 with rfl | rfl | ⟨q, -, hq⟩
    · simp [ext] at hx1
    · rw [hinf]; exact le_refl (by simp [zero])
    · obtain ⟨hq1, e⟩ := key hx1 hq
      rw [e]
      have := nonNeg_iff.1 (nonNeg_ofRat (show (0 : ℚ) ≤ 1 / q by positivity) false)
      rw [arith_le] at this
      rw [le_iff zero_ne_nan (ofRat_ne_nan _ _), ext_zero] at this
      rw [le_iff (by simp [zero]) (ofRat_ne_nan _ _)]
      exact this
  · obtain ⟨ha1, ea⟩ := key hx1 ha
    obtain ⟨hb1, eb⟩ := key hy1 hb
    rw [ea, eb, le_iff (ofRat_ne_nan _ _) (ofRat_ne_nan _ _)]
    exact ext_ofRat_mono (one_div_le_one_div_of_le (by linarith) hab) _ _

end Gopmml.F64
