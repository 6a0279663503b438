import Verif.Proofs.F64Ext

/-!
# float64 sums, quotients and products of non-negative numbers
-/

namespace Gopmml.F64

theorem ext_ofRat (b : Bool) (q : ℚ) :
    ext (ofRat b q) = if |roundQ 53 (-1074) q| < pow2 1024 then
        ((roundQ 53 (-1074) q : WithTop ℚ) : WithBot (WithTop ℚ))
      else if roundQ 53 (-1074) q < 0 then ⊥ else ((⊤ : WithTop ℚ) : WithBot (WithTop ℚ)) := by
  unfold ofRat
  simp only
  split_ifs with h1 h2 h3
  · rw [h2.1]; rfl
  · rfl
  · rw [decide_eq_true h3]; rfl
  · rw [decide_eq_false h3]; rfl

theorem ofRat_ne_nan (b : Bool) (q : ℚ) : ofRat b q ≠ nan := by
  unfold ofRat; simp only; split_ifs <;> simp

theorem ext_ofRat_mono {q q' : ℚ} (h : q ≤ q') (b b' : Bool) : ext (ofRat b q) ≤ ext (ofRat b' q') := by
  have hm := roundQ_mono (p := 53) (emin := -1074) (by norm_num) h
  rw [ext_ofRat, ext_ofRat]
  have hp := pow2_pos 1024
  split_ifs with h1 h2 h3 h4 h5 h6
  · exact_mod_cast hm
  · exfalso
    have h4 : -pow2 1024 < roundQ 53 (-1074) q := (abs_lt.mp h1).1
    rw [not_lt, abs_of_neg h3] at h2
    linarith
  · exact WithBot.coe_le_coe.mpr le_top
  · exact bot_le
  · exact bot_le
  · exact bot_le
  · exfalso
    rw [not_lt, abs_of_nonneg (not_lt.mp h4)] at h1
    have := (abs_lt.mp (by assumption : |roundQ 53 (-1074) q'| < pow2 1024)).2
    linarith
  · exfalso; linarith
  · exact le_refl' _
where le_refl' (x : WithBot (WithTop ℚ)) : x ≤ x := _root_.le_refl x

theorem ext_ofRat_exact {q : ℚ} (h : Rep q) (b : Bool) : ext (ofRat b q) = ((q : WithTop ℚ) : WithBot (WithTop ℚ)) := by
  rw [ext_ofRat, roundQ_exact (by norm_num) h.1, if_pos h.2]

theorem rep_one : Rep 1 := by
  refine ⟨⟨1, 0, by norm_num, by norm_num, by simp [pow2]⟩, ?_⟩
  rw [abs_one, show (1 : ℚ) = pow2 0 by simp [pow2]]
  exact pow2_lt_iff.mpr (by norm_num)

theorem one_eq : (Arith.one : F64) = ofRat false 1 := by
  have h : (Arith.one : F64) = ofRat false (mkRat 1 1) := by unfold Arith.one Arith.lit; rfl
  rw [h, Rat.mkRat_eq_div]; simp

theorem zero_eq : (Arith.zero : F64) = ofRat false 0 := by
  have h : (Arith.zero : F64) = ofRat false (mkRat 0 1) := by unfold Arith.zero Arith.lit; rfl
  rw [h, Rat.mkRat_eq_div]; simp

theorem ext_one : ext (Arith.one : F64) = (((1 : ℚ) : WithTop ℚ) : WithBot (WithTop ℚ)) := by
  rw [one_eq, ext_ofRat_exact rep_one]

theorem ext_zero : ext (Arith.zero : F64) = (((0 : ℚ) : WithTop ℚ) : WithBot (WithTop ℚ)) := by
  rw [zero_eq, ext_ofRat_exact rep_zero]

theorem zero_ne_nan : (Arith.zero : F64) ≠ nan := by rw [zero_eq]; exact ofRat_ne_nan _ _
theorem one_ne_nan : (Arith.one : F64) ≠ nan := by rw [one_eq]; exact ofRat_ne_nan _ _

/-- A number that is not below zero (and not NaN). -/
def NonNeg (x : F64) : Prop := x ≠ nan ∧ (((0 : ℚ) : WithTop ℚ) : WithBot (WithTop ℚ)) ≤ ext x

theorem nonNeg_iff {x : F64} : NonNeg x ↔ Arith.le Arith.zero x = true := by
  rw [arith_le]
  constructor
  · rintro ⟨h1, h2⟩
    rw [le_iff zero_ne_nan h1, ext_zero]; exact h2
  · intro h
    have := le_not_nan h
    rw [le_iff this.1 this.2, ext_zero] at h
    exact ⟨this.2, h⟩

/-- `NonNeg` numbers: `+∞`, `-0` or a rational ≥ 0. -/
theorem NonNeg.cases {x : F64} (h : NonNeg x) :
    x = inf false ∨ x = negZero ∨ ∃ q hq, x = fin q hq ∧ 0 ≤ q := by
  obtain ⟨h1, h2⟩ := h
  cases x with
  | nan => exact absurd rfl h1
  | inf b => cases b with
    | false => exact .inl rfl
    | true => exact absurd h2 (by simp [ext, -WithTop.coe_zero, -WithBot.coe_zero])
  | negZero => exact .inr (.inl rfl)
  | fin q hq => exact .inr (.inr ⟨q, hq, rfl, by simp only [ext] at h2; exact_mod_cast h2⟩)

theorem nonNeg_inf : NonNeg (inf false) := ⟨by simp, by simp only [ext]; exact WithBot.coe_le_coe.mpr le_top⟩
theorem nonNeg_negZero : NonNeg negZero := ⟨by simp, by simp only [ext]; exact _root_.le_refl _⟩
theorem nonNeg_fin {q : ℚ} {hq : Rep q} : NonNeg (fin q hq) ↔ 0 ≤ q := by
  constructor
  · rintro ⟨-, h⟩; simp only [ext] at h; exact_mod_cast h
  · intro h; exact ⟨by simp, by simp only [ext]; exact_mod_cast h⟩
theorem nonNeg_ofRat {q : ℚ} (h : 0 ≤ q) (b : Bool) : NonNeg (ofRat b q) := by
  refine ⟨ofRat_ne_nan _ _, ?_⟩
  rw [← ext_ofRat_exact rep_zero b]
  exact ext_ofRat_mono h b b
theorem nonNeg_zero : NonNeg (Arith.zero : F64) := by rw [zero_eq]; exact nonNeg_ofRat (_root_.le_refl _) _

/-- Sums of non-negative numbers are determined, up to the sign of zero, by the extended
rationals they denote. -/
theorem ext_add {x y : F64} (hx : NonNeg x) (hy : NonNeg y) :
    NonNeg (add x y) ∧ ((ext (add x y) = ((⊤ : WithTop ℚ) : WithBot (WithTop ℚ)) ∧
        (ext x = ((⊤ : WithTop ℚ) : WithBot (WithTop ℚ)) ∨ ext y = ((⊤ : WithTop ℚ) : WithBot (WithTop ℚ)))) ∨
      ∃ a b : ℚ, Rep a ∧ Rep b ∧ ext x = ((a : WithTop ℚ) : WithBot (WithTop ℚ)) ∧ ext y = ((b : WithTop ℚ) : WithBot (WithTop ℚ)) ∧
        ext (add x y) = ext (ofRat false (a + b))) := by
  rcases hx.cases with rfl | rfl | ⟨a, ha, rfl, ha0⟩ <;> rcases hy.cases with rfl | rfl | ⟨b, hb, rfl, hb0⟩
  · exact ⟨nonNeg_inf, .inl ⟨rfl, .inl rfl⟩⟩
  · exact ⟨nonNeg_inf, .inl ⟨rfl, .inl rfl⟩⟩
  · exact ⟨nonNeg_inf, .inl ⟨rfl, .inl rfl⟩⟩
  · exact ⟨nonNeg_inf, .inl ⟨rfl, .inr rfl⟩⟩
  · refine ⟨nonNeg_negZero, .inr ⟨0, 0, rep_zero, rep_zero, rfl, rfl, ?_⟩⟩
    rw [add_zero, ext_ofRat_exact rep_zero]; rfl
  · refine ⟨nonNeg_fin.mpr hb0, .inr ⟨0, b, rep_zero, hb, rfl, rfl, ?_⟩⟩
    rw [zero_add, ext_ofRat_exact hb]; rfl
  · exact ⟨nonNeg_inf, .inl ⟨rfl, .inr rfl⟩⟩
  · refine ⟨nonNeg_fin.mpr ha0, .inr ⟨a, 0, ha, rep_zero, rfl, rfl, ?_⟩⟩
    rw [add_zero, ext_ofRat_exact ha]; rfl
  · exact ⟨nonNeg_ofRat (add_nonneg ha0 hb0) _, .inr ⟨a, b, ha, hb, rfl, rfl, rfl⟩⟩

theorem le_top_ext (x : F64) : ext x ≤ ((⊤ : WithTop ℚ) : WithBot (WithTop ℚ)) := by
  cases x with
  | nan => exact bot_le
  | inf b => cases b <;> simp only [ext]; exacts [_root_.le_refl _, bot_le]
  | negZero => exact WithBot.coe_le_coe.mpr le_top
  | fin q h => exact WithBot.coe_le_coe.mpr le_top

/-- Addition of non-negative numbers is monotone. -/
theorem add_mono {x x' y y' : F64} (hx : NonNeg x) (hy : NonNeg y) (hx' : NonNeg x') (hy' : NonNeg y')
    (h : ext x ≤ ext x') (h' : ext y ≤ ext y') : ext (add x y) ≤ ext (add x' y') := by
  rcases (ext_add hx' hy').2 with ⟨e, -⟩ | ⟨a', b', -, -, hx'e, hy'e, e'⟩
  · rw [e]; exact le_top_ext _
  · rcases (ext_add hx hy).2 with ⟨-, ht | ht⟩ | ⟨a, b, -, -, hxe, hye, e⟩
    · rw [ht, hx'e] at h
      exact absurd h (by simp [-WithBot.coe_top])
    · rw [ht, hy'e] at h'
      exact absurd h' (by simp [-WithBot.coe_top])
    · rw [e, e']
      rw [hxe, hx'e] at h
      rw [hye, hy'e] at h'
      have h1 : a ≤ a' := by exact_mod_cast h
      have h2 : b ≤ b' := by exact_mod_cast h'
      exact ext_ofRat_mono (add_le_add h1 h2) _ _

theorem add_zero_ext {x y : F64} (hx : NonNeg x) (hy : ext y = (((0 : ℚ) : WithTop ℚ) : WithBot (WithTop ℚ)))
    (hy' : NonNeg y) : ext (add x y) = ext x := by
  rcases (ext_add hx hy').2 with ⟨e, ht | ht⟩ | ⟨a, b, ra, rb, hxe, hye, e⟩
  · rw [e, ht]
  · rw [hy] at ht; exact absurd ht (by simp [-WithTop.coe_zero, -WithBot.coe_zero, -WithBot.coe_top])
  · rw [hye] at hy
    have : b = 0 := by exact_mod_cast hy
    rw [e, this, add_zero, ext_ofRat_exact ra, hxe]

theorem zero_add_ext {x y : F64} (hx : NonNeg x) (hy : ext y = (((0 : ℚ) : WithTop ℚ) : WithBot (WithTop ℚ)))
    (hy' : NonNeg y) : ext (add y x) = ext x := by
  rcases (ext_add hy' hx).2 with ⟨e, ht | ht⟩ | ⟨a, b, ra, rb, hxe, hye, e⟩
  · rw [hy] at ht; exact absurd ht (by simp [-WithTop.coe_zero, -WithBot.coe_zero, -WithBot.coe_top])
  · rw [e, ht]
  · rw [hxe] at hy
    have : a = 0 := by exact_mod_cast hy
    rw [e, this, zero_add, ext_ofRat_exact rb, hye]

/-- Adding a non-negative number does not decrease. -/
theorem le_add {x y : F64} (hx : NonNeg x) (hy : NonNeg y) : ext x ≤ ext (add x y) := by
  rw [← add_zero_ext hx ext_zero nonNeg_zero]
  exact add_mono hx nonNeg_zero hx hy (_root_.le_refl _) (by rw [ext_zero]; exact hy.2)

theorem foldl_nonNeg {l : List F64} (hl : ∀ x ∈ l, NonNeg x) {z : F64} (hz : NonNeg z) :
    NonNeg (l.foldl add z) := by
  induction l generalizing z with
  | nil => exact hz
  | cons x l ih =>
    exact ih (fun y hy => hl y (by simp [hy])) (ext_add hz (hl x (by simp))).1

/-- A left-to-right float64 sum of non-negative numbers is at least the sum of any of its
sublists. -/
theorem foldl_sublist {l l' : List F64} (h : l.Sublist l') (hl : ∀ x ∈ l', NonNeg x) {z z' : F64}
    (hz : NonNeg z) (hz' : NonNeg z') (hzz : ext z ≤ ext z') :
    ext (l.foldl add z) ≤ ext (l'.foldl add z') := by
  induction h generalizing z z' with
  | slnil => exact hzz
  | @cons l l' x hs ih =>
    have hx := hl x (by simp)
    refine ih (fun y hy => hl y (by simp [hy])) hz (ext_add hz' hx).1 ?_
    exact hzz.trans (le_add hz' hx)
  | @cons_cons l l' x hs ih =>
    have hx := hl x (by simp)
    exact ih (fun y hy => hl y (by simp [hy])) (ext_add hz hx).1 (ext_add hz' hx).1
      (add_mono hz hx hz' hx hzz (_root_.le_refl _))

/-- NaN or between 0 and 1. -/
def UnitOrNaN (x : F64) : Prop :=
  x = nan ∨ (Arith.le Arith.zero x = true ∧ Arith.le x Arith.one = true)

theorem unit_of_ext {x : F64} (hn : x ≠ nan) (h0 : (((0 : ℚ) : WithTop ℚ) : WithBot (WithTop ℚ)) ≤ ext x)
    (h1 : ext x ≤ (((1 : ℚ) : WithTop ℚ) : WithBot (WithTop ℚ))) : UnitOrNaN x := by
  right
  rw [arith_le, arith_le, le_iff zero_ne_nan hn, le_iff hn one_ne_nan, ext_zero, ext_one]
  exact ⟨h0, h1⟩

theorem unit_ofRat {q : ℚ} (h0 : 0 ≤ q) (h1 : q ≤ 1) (b : Bool) : UnitOrNaN (ofRat b q) := by
  refine unit_of_ext (ofRat_ne_nan _ _) ?_ ?_
  · rw [← ext_ofRat_exact rep_zero b]; exact ext_ofRat_mono h0 _ _
  · rw [← ext_ofRat_exact rep_one b]; exact ext_ofRat_mono h1 _ _

theorem unit_negZero : UnitOrNaN negZero := unit_of_ext (by simp) (by simp only [ext]; exact _root_.le_refl _)
  (by simp only [ext]; exact_mod_cast zero_le_one)
theorem unit_zero' : UnitOrNaN zero := unit_of_ext (by simp [zero]) (by simp only [ext, zero]; exact _root_.le_refl _)
  (by simp only [ext, zero]; exact_mod_cast zero_le_one)
theorem unit_zeroOf (b : Bool) : UnitOrNaN (zeroOf b) := by
  cases b
  · exact unit_zero'
  · exact unit_negZero

/-- The share `c / t` of a non-negative `c` in `t ≥ c`. -/
theorem unit_div {c t : F64} (hc : NonNeg c) (ht : NonNeg t) (h : ext c ≤ ext t) : UnitOrNaN (div c t) := by
  rcases hc.cases with rfl | rfl | ⟨a, ha, rfl, ha0⟩ <;> rcases ht.cases with rfl | rfl | ⟨b, hb, rfl, hb0⟩
  · exact .inl rfl
  · exact absurd h (by simp [ext, -WithTop.coe_zero, -WithBot.coe_zero, -WithBot.coe_top])
  · exact absurd h (by simp [ext, -WithBot.coe_top])
  · exact unit_zeroOf _
  · exact .inl rfl
  · simp only [div]; split_ifs
    · exact .inl rfl
    · exact unit_zeroOf _
  · exact unit_zeroOf _
  · have : a ≤ 0 := by simp only [ext] at h; exact_mod_cast h
    have : a = 0 := le_antisymm this ha0
    simp only [div, if_pos this]; exact .inl rfl
  · have hab : a ≤ b := by simp only [ext] at h; exact_mod_cast h
    simp only [div]
    split_ifs with h1 h2
    · exact .inl rfl
    · exact absurd (le_antisymm (h1 ▸ hab) ha0) h2
    · have hb' : 0 < b := lt_of_le_of_ne hb0 (Ne.symm h1)
      exact unit_ofRat (div_nonneg ha0 hb0) ((div_le_one hb').mpr hab) _

theorem UnitOrNaN.cases {x : F64} (h : UnitOrNaN x) :
    x = nan ∨ x = negZero ∨ ∃ q hq, x = fin q hq ∧ 0 ≤ q ∧ q ≤ 1 := by
  rcases h with h | ⟨h0, h1⟩
  · exact .inl h
  right
  rw [← nonNeg_iff] at h0
  rw [arith_le, le_iff h0.1 one_ne_nan, ext_one] at h1
  rcases h0.cases with rfl | rfl | ⟨q, hq, rfl, hq0⟩
  · exact absurd h1 (by simp [ext, -WithTop.coe_one, -WithBot.coe_one, -WithBot.coe_top])
  · exact .inl rfl
  · exact .inr ⟨q, hq, rfl, hq0, by simp only [ext] at h1; exact_mod_cast h1⟩

/-- Products of numbers between 0 and 1. -/
theorem unit_mul {x y : F64} (hx : UnitOrNaN x) (hy : UnitOrNaN y) : UnitOrNaN (mul x y) := by
  rcases hx.cases with rfl | rfl | ⟨a, ha, rfl, ha0, ha1⟩ <;>
    rcases hy.cases with rfl | rfl | ⟨b, hb, rfl, hb0, hb1⟩
  · exact .inl rfl
  · exact .inl rfl
  · exact .inl rfl
  · exact .inl rfl
  · exact unit_zero'
  · simp only [mul]; split_ifs
    · exact unit_zero'
    · exact unit_negZero
  · exact .inl rfl
  · simp only [mul]; split_ifs
    · exact unit_zero'
    · exact unit_negZero
  · exact unit_ofRat (mul_nonneg ha0 hb0) (mul_le_one₀ ha1 hb0 hb1) _

theorem unit_one : UnitOrNaN (Arith.one : F64) :=
  .inr ⟨by rw [arith_le, le_iff zero_ne_nan one_ne_nan, ext_zero, ext_one]; exact_mod_cast zero_le_one,
    by rw [arith_le]; exact le_refl one_ne_nan⟩
theorem unit_zero : UnitOrNaN (Arith.zero : F64) :=
  .inr ⟨by rw [arith_le]; exact le_refl zero_ne_nan,
    by rw [arith_le, le_iff zero_ne_nan one_ne_nan, ext_zero, ext_one]; exact_mod_cast zero_le_one⟩

end Gopmml.F64
