import Verif.Proofs.F64Mix
import Verif.Proofs.F64Mono
import Verif.Spec.GoMath
import Verif.Spec.Regression

/-!
# When float64 results are numbers
-/

namespace Gopmml.F64
open Gopmml Spec

/-- A quotient is NaN exactly for ∞/∞ and 0/0, NaN aside. -/
theorem div_eq_nan {x y : F64} : div x y = nan ↔ x = nan ∨ y = nan ∨ ((∃ a, x = inf a) ∧ ∃ b, y = inf b) ∨
    (x.val = some 0 ∧ y.val = some 0) := by
  have hz : ∀ b, zeroOf b ≠ nan := fun b => by cases b <;> simp [zeroOf, zero]
  cases x <;> cases y <;> simp [div, val, hz]
  all_goals first
    | done
    | (split_ifs <;> simp_all [ofRat_ne_nan])

theorem add_zeros {x y : F64} (hx : x.val = some 0) (hy : y.val = some 0) : (add x y).val = some 0 := by
  rcases val_iff.mp hx with ⟨rfl, -⟩ | ⟨ha, rfl⟩ <;> rcases val_iff.mp hy with ⟨rfl, -⟩ | ⟨hb, rfl⟩
  · rfl
  · rfl
  · rfl
  · simp only [add]
    rw [ofRat_fin (by rw [_root_.add_zero, roundQ_zero', abs_zero]; exact pow2_pos _), _root_.add_zero, roundQ_zero']

theorem nonNeg_zero_iff {x : F64} (hx : NonNeg x) :
    x.val = some 0 ↔ ext x ≤ (((0 : ℚ) : WithTop ℚ) : WithBot (WithTop ℚ)) := by
  rw [val_ext]
  exact ⟨fun h => h.1.le, fun h => ⟨le_antisymm h hx.2, hx.1⟩⟩

/-- A sum of numbers that are not negative is at least each of them. -/
theorem le_foldl {l : List F64} (hl : ∀ x ∈ l, NonNeg x) {x : F64} (hx : x ∈ l) {z : F64} (hz : NonNeg z) :
    ext x ≤ ext (l.foldl add z) := by
  have h0 : ext (Arith.zero : F64) ≤ ext z := by rw [ext_zero]; exact hz.2
  have := foldl_sublist (List.singleton_sublist.mpr hx) hl nonNeg_zero hz h0
  rwa [List.foldl_cons, List.foldl_nil, zero_add_ext (hl _ hx) ext_zero nonNeg_zero] at this

theorem eq_inf_of_top {x : F64} (hx : NonNeg x) (h : ext (inf false) ≤ ext x) : x = inf false :=
  eq_posInf_of_le ((le_iff (by simp) hx.1).mpr h)

theorem foldl_inf {l : List F64} (hl : ∀ x ∈ l, NonNeg x) (hi : inf false ∈ l) {z : F64} (hz : NonNeg z) :
    l.foldl add z = inf false :=
  eq_inf_of_top (foldl_nonNeg hl hz) (le_foldl hl hi hz)

theorem foldl_zero_iff {l : List F64} (hl : ∀ x ∈ l, NonNeg x) :
    (l.foldl add zero).val = some 0 ↔ ∀ x ∈ l, x.val = some 0 := by
  have hz : NonNeg zero := by rw [← arith_zero]; exact nonNeg_zero
  constructor
  · intro h x hx
    rw [nonNeg_zero_iff (hl x hx)]
    exact (le_foldl hl hx hz).trans ((nonNeg_zero_iff (foldl_nonNeg hl hz)).mp h)
  · intro h
    have key : ∀ z : F64, z.val = some 0 → (l.foldl add z).val = some 0 := by
      clear hl
      induction l with
      | nil => exact fun z hz => hz
      | cons a l ih =>
        intro z hz
        exact ih (fun x hx => h x (by simp [hx])) _ (add_zeros hz (h a (by simp)))
    exact key _ rfl

/-- Shares of the same total are in the order of what is shared out. -/
theorem div_le_div {c c' t : F64} (hc : NonNeg c) (hc' : NonNeg c') (ht : NonNeg t) (h : ext c ≤ ext c')
    (hn : div c t ≠ nan) (hn' : div c' t ≠ nan) : le (div c t) (div c' t) = true := by
  have hzz : ∀ a b, le (zeroOf a) (zeroOf b) = true := by decide
  rcases ht.cases with rfl | rfl | ⟨b, hb, rfl, hb0⟩
  · rcases hc.cases with rfl | rfl | ⟨a, ha, rfl, ha0⟩
    · exact absurd rfl hn
    · rcases hc'.cases with rfl | rfl | ⟨a', ha', rfl, ha0'⟩
      · exact absurd rfl hn'
      · exact hzz _ _
      · exact hzz _ _
    · rcases hc'.cases with rfl | rfl | ⟨a', ha', rfl, ha0'⟩
      · exact absurd rfl hn'
      · exact hzz _ _
      · exact hzz _ _
  · have key : ∀ {x : F64}, NonNeg x → div x negZero ≠ nan → div x negZero = inf true := by
      intro x hx hn
      rcases hx.cases with rfl | rfl | ⟨a, ha, rfl, ha0⟩
      · rfl
      · exact absurd rfl hn
      · simp only [div] at hn ⊢
        by_cases h0 : a = 0
        · simp [h0] at hn
        · rw [if_neg h0]
          have : ¬ a < 0 := not_lt.mpr ha0
          simp [isNeg, this]
    rw [key hc hn, key hc' hn']
    rfl
  · by_cases h0 : b = 0
    · have key : ∀ {x : F64}, NonNeg x → div x (fin b hb) ≠ nan → div x (fin b hb) = inf false := by
        intro x hx hn
        rcases hx.cases with rfl | rfl | ⟨a, ha, rfl, ha0⟩
        · have : ¬ b < 0 := not_lt.mpr hb0
          simp [div, isNeg, this]
        · simp [div, h0] at hn
        · simp only [div, if_pos h0] at hn ⊢
          by_cases h1 : a = 0
          · simp [h1] at hn
          · rw [if_neg h1]
            have : ¬ a < 0 := not_lt.mpr ha0
            simp [isNeg, this]
      rw [key hc hn, key hc' hn']
      rfl
    · have hbp : 0 < b := lt_of_le_of_ne hb0 (Ne.symm h0)
      rw [le_iff hn hn']
      have hfin : ∀ {x : F64} {q : ℚ}, (x = negZero ∧ q = 0 ∨ ∃ h, x = fin q h) →
          ext (div x (fin b hb)) = ext (ofRat false (q / b)) := by
        rintro x q (⟨rfl, rfl⟩ | ⟨hq, rfl⟩)
        · simp only [div, if_neg h0, zero_div, ext_ofRat_exact rep_zero]
          generalize (!(fin b hb).isNeg) = s
          cases s <;> rfl
        · simp only [div, if_neg h0]
          rw [ext_ofRat, ext_ofRat]
      rcases hc'.cases with rfl | rfl | ⟨a', ha', rfl, ha0'⟩
      · have : ¬ b < 0 := not_lt.mpr hb0
        have : div (inf false) (fin b hb) = inf false := by simp [div, isNeg, this]
        rw [this]; exact le_top_ext _
      · rcases hc.cases with rfl | rfl | ⟨a, ha, rfl, ha0⟩
        · exact absurd h (by simp [ext, -WithTop.coe_zero, -WithBot.coe_zero, -WithBot.coe_top])
        · exact _root_.le_refl _
        · rw [hfin (.inl ⟨rfl, rfl⟩), hfin (.inr ⟨ha, rfl⟩)]
          have : a ≤ 0 := by simp only [ext] at h; exact_mod_cast h
          exact ext_ofRat_mono (div_le_div_of_nonneg_right this hb0) _ _
      · rcases hc.cases with rfl | rfl | ⟨a, ha, rfl, ha0⟩
        · exact absurd h (by simp [ext, -WithBot.coe_top])
        · rw [hfin (.inl ⟨rfl, rfl⟩), hfin (.inr ⟨ha', rfl⟩)]
          exact ext_ofRat_mono (div_le_div_of_nonneg_right ha0' hb0) _ _
        · rw [hfin (.inr ⟨ha, rfl⟩), hfin (.inr ⟨ha', rfl⟩)]
          have : a ≤ a' := by simp only [ext] at h; exact_mod_cast h
          exact ext_ofRat_mono (div_le_div_of_nonneg_right this hb0) _ _

/-! ### Bounds that exclude overflow -/

theorem grid_multiple {m : Nat} {e : Int} (hm : m ≤ 2 ^ 53) (he : -1074 ≤ e) : Grid 53 (-1074) (m * pow2 e) :=
  ⟨m, e, by rw [abs_of_nonneg (by positivity)]; exact_mod_cast hm, he, by push_cast; ring⟩

/-- Rounding does not leave a range that ends at representable numbers. -/
theorem roundQ_within {q c : ℚ} (hc : Grid 53 (-1074) c) (h : |q| ≤ c) : |roundQ 53 (-1074) q| ≤ c := by
  obtain ⟨h1, h2⟩ := abs_le.mp h
  have h3 := roundQ_mono (p := 53) (emin := -1074) (by norm_num) h1
  have h4 := roundQ_mono (p := 53) (emin := -1074) (by norm_num) h2
  rw [roundQ_exact (by norm_num) hc.neg] at h3
  rw [roundQ_exact (by norm_num) hc] at h4
  exact abs_le.mpr ⟨h3, h4⟩

/-- A finite number of at most the given size. -/
def Within (x : F64) (c : ℚ) : Prop := ∃ q, x.val = some q ∧ |q| ≤ c

theorem finite_of_val {x : F64} {q : ℚ} (h : x.val = some q) : x = negZero ∧ q = 0 ∨ ∃ h, x = fin q h := val_iff.mp h

theorem Within.add {x y : F64} {m : Nat} {e : Int} (hx : Within x (m * pow2 e)) (hy : Within y (pow2 e))
    (hm : m + 1 ≤ 2 ^ 53) (he : -1074 ≤ e) (hb : ((m + 1 : Nat) : ℚ) * pow2 e < pow2 1024) :
    Within (add x y) ((m + 1 : Nat) * pow2 e) := by
  obtain ⟨a, ha, ha'⟩ := hx
  obtain ⟨b, hb', hb''⟩ := hy
  obtain ⟨hn, hx⟩ := add_finite (finite_of_val ha) (finite_of_val hb')
  have h1 : |a + b| ≤ (m + 1 : Nat) * pow2 e := by
    have := abs_add_le a b
    push_cast
    linarith
  have h2 := roundQ_within (grid_multiple hm he) h1
  refine ⟨_, val_of_ext hn hx (lt_of_le_of_lt h2 hb), h2⟩

theorem Within.mul {x y : F64} {a b : ℚ} {e : Int} (hx : x.val = some a) (hy : y.val = some b)
    (h : |a * b| ≤ pow2 e) (he : -1074 ≤ e) (hb : e < 1024) : Within (mul x y) (pow2 e) := by
  have hg : Grid 53 (-1074) (pow2 e) := by
    have := grid_multiple (m := 1) (by norm_num) he
    simpa using this
  have h2 := roundQ_within hg h
  have hlt : |roundQ 53 (-1074) (a * b)| < pow2 1024 := lt_of_le_of_lt h2 (pow2_lt_iff.mpr hb)
  obtain ⟨hn, hx⟩ := mul_finite (finite_of_val hx) (finite_of_val hy)
  exact ⟨_, val_of_ext hn hx hlt, h2⟩

theorem Within.foldl {l : List F64} {e : Int} (hl : ∀ x ∈ l, Within x (pow2 e)) {z : F64} {m : Nat}
    (hz : Within z (m * pow2 e)) (hm : m + l.length ≤ 2 ^ 53) (he : -1074 ≤ e)
    (hb : ((m + l.length : Nat) : ℚ) * pow2 e < pow2 1024) : Within (l.foldl F64.add z) ((m + l.length : Nat) * pow2 e) := by
  induction l generalizing z m with
  | nil => exact hz
  | cons a l ih =>
    rw [List.length_cons] at hm hb
    have e1 : m + (l.length + 1) = (m + 1) + l.length := by ring
    have hp := pow2_pos e
    rw [List.foldl_cons, List.length_cons, e1]
    rw [e1] at hb hm
    refine ih (fun x hx => hl x (by simp [hx])) (hz.add (hl a (by simp)) (by omega) he ?_) hm hb
    refine lt_of_le_of_lt (mul_le_mul_of_nonneg_right ?_ hp.le) hb
    exact_mod_cast Nat.le_add_right _ _

theorem Within.ne_nan {x : F64} {c : ℚ} (h : Within x c) : x ≠ nan := by
  obtain ⟨q, hq, -⟩ := h
  rintro rfl
  cases hq

/-! ### Sums that only rise -/

/-- Not NaN and not minus infinity. -/
def AboveBottom (x : F64) : Prop := x ≠ nan ∧ x ≠ inf true

theorem AboveBottom.add {x y : F64} (hx : AboveBottom x) (hy : NonNeg y) : AboveBottom (F64.add x y) := by
  obtain ⟨hn, hb⟩ := hx
  rcases finite_or hn with rfl | rfl | ⟨a, -, ha⟩
  · exact absurd rfl hb
  · rcases hy.cases with rfl | rfl | ⟨b, hb, rfl, hb0⟩ <;> exact ⟨by simp [F64.add], by simp [F64.add]⟩
  · have hz : x ≠ inf true := hb
    rcases hy.cases with rfl | hy'
    · rcases ha with ⟨rfl, -⟩ | ⟨h, rfl⟩ <;> exact ⟨by simp [F64.add], by simp [F64.add]⟩
    · have hyf : ∃ b : ℚ, 0 ≤ b ∧ (y = negZero ∧ b = 0 ∨ ∃ h, y = fin b h) := by
        rcases hy' with rfl | ⟨b, hb, rfl, hb0⟩
        · exact ⟨0, le_rfl, .inl ⟨rfl, rfl⟩⟩
        · exact ⟨b, hb0, .inr ⟨hb, rfl⟩⟩
      obtain ⟨b, hb0, hyf⟩ := hyf
      obtain ⟨h1, h2⟩ := add_finite ha hyf
      refine ⟨h1, fun h => ?_⟩
      have h3 : ext (ofRat false a) ≤ ext (ofRat false (a + b)) := ext_ofRat_mono (by linarith) _ _
      rw [← h2, h] at h3
      have h4 : ext (ofRat false a) = ((a : WithTop ℚ) : WithBot (WithTop ℚ)) := by
        rcases ha with ⟨-, rfl⟩ | ⟨h, -⟩
        · exact ext_ofRat_exact rep_zero _
        · exact ext_ofRat_exact h _
      rw [h4] at h3
      simp [ext] at h3

theorem AboveBottom.foldl {l : List F64} (hl : ∀ x ∈ l, NonNeg x) {z : F64} (hz : AboveBottom z) :
    AboveBottom (l.foldl F64.add z) := by
  induction l generalizing z with
  | nil => exact hz
  | cons a l ih => exact ih (fun x hx => hl x (by simp [hx])) (hz.add (hl a (by simp)))

end Gopmml.F64
