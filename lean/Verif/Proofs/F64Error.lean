import Mathlib.Tactic.Linarith
import Mathlib.Tactic.Positivity
import Verif.Proofs.F64Mono
import Verif.Spec.Rounding

/-!
# Rounding error of float64 sums, products and quotients
-/

namespace Gopmml.F64

theorem uu_pos : 0 < uu := by unfold uu; positivity
theorem eta_pos : 0 < eta := by unfold eta; positivity

theorem uu_eq : uu = pow2 (-53) := by rw [pow2_eq, uu, zpow_neg, one_div]; rfl
theorem eta_eq : eta = pow2 (-1075) := by rw [pow2_eq, eta, zpow_neg, one_div]; rfl

theorem val_iff {x : F64} {q : ℚ} : x.val = some q ↔ (x = negZero ∧ q = 0 ∨ ∃ h, x = fin q h) := by
  cases x <;> simp [val, eq_comm]
  rename_i a h
  rintro rfl; exact h

theorem val_ext {x : F64} {q : ℚ} : x.val = some q ↔ ext x = ((q : WithTop ℚ) : WithBot (WithTop ℚ)) ∧ x ≠ nan := by
  cases x with
  | nan => simp [val]
  | inf b => cases b <;> simp [val, ext]
  | negZero =>
    simp only [val, Option.some.injEq, ext, ne_eq, reduceCtorEq, not_false_eq_true, and_true]
    constructor
    · rintro rfl; rfl
    · intro h; exact_mod_cast h
  | fin a h =>
    simp only [val, Option.some.injEq, ext, ne_eq, reduceCtorEq, not_false_eq_true, and_true]
    constructor
    · rintro rfl; rfl
    · intro h; exact_mod_cast h

theorem arith_zero : (Arith.zero : F64) = zero := by
  rw [zero_eq]
  unfold ofRat zero
  have h0 : roundQ 53 (-1074) 0 = 0 := by simp [roundQ]
  simp only [h0]
  simp [pow2_pos]

theorem abs_sum_le_sum (qs : List ℚ) : |qs.sum| ≤ (qs.map (|·|)).sum := by
  induction qs with
  | nil => simp
  | cons q qs ih =>
    simp only [List.map_cons, List.sum_cons]
    exact (abs_add_le _ _).trans (by linarith)

/-- A finite rounded result is the exact result rounded. -/
theorem ext_ofRat_val {b : Bool} {q c : ℚ}
    (h : ext (ofRat b q) = ((c : WithTop ℚ) : WithBot (WithTop ℚ))) : c = roundQ 53 (-1074) q := by
  rw [ext_ofRat] at h
  split_ifs at h
  · exact_mod_cast h.symm
  · simp at h
  · simp [-WithBot.coe_top] at h

theorem add_val {x y : F64} {a b c : ℚ} (hx : x.val = some a) (hy : y.val = some b)
    (hc : (add x y).val = some c) : c = roundQ 53 (-1074) (a + b) := by
  rw [val_ext, (add_finite (val_iff.mp hx) (val_iff.mp hy)).2] at hc
  exact ext_ofRat_val hc.1

theorem mul_val {x y : F64} {a b c : ℚ} (hx : x.val = some a) (hy : y.val = some b)
    (hc : (mul x y).val = some c) : c = roundQ 53 (-1074) (a * b) := by
  rw [val_ext, (mul_finite (val_iff.mp hx) (val_iff.mp hy)).2] at hc
  exact ext_ofRat_val hc.1

theorem ofRat_val {s : Bool} {q c : ℚ} (hc : (ofRat s q).val = some c) : c = roundQ 53 (-1074) q :=
  ext_ofRat_val (val_ext.mp hc).1

theorem roundQ_zero' : roundQ 53 (-1074) 0 = 0 := by simp [roundQ]

theorem div_val {x y : F64} {a b c : ℚ} (hx : x.val = some a) (hy : y.val = some b)
    (hc : (div x y).val = some c) : b ≠ 0 ∧ c = roundQ 53 (-1074) (a / b) := by
  rcases val_iff.mp hx with ⟨rfl, rfl⟩ | ⟨ha, rfl⟩ <;> rcases val_iff.mp hy with ⟨rfl, rfl⟩ | ⟨hb, rfl⟩
  · simp [div, val] at hc
  · simp only [div] at hc
    split_ifs at hc with h0
    · simp [val] at hc
    · refine ⟨h0, ?_⟩
      rw [zero_div, roundQ_zero']
      unfold zeroOf zero at hc
      split_ifs at hc <;> simp [val] at hc <;> exact hc.symm
  · simp only [div] at hc
    split_ifs at hc <;> simp [val] at hc
  · simp only [div] at hc
    split_ifs at hc with h0 h1
    · simp [val] at hc
    · simp [val] at hc
    · exact ⟨h0, ofRat_val hc⟩

/-- The half unit in the last place, against the number: relative above the subnormals. -/
theorem half_ulp {q : ℚ} (h : 0 < q) :
    pow2 (ulpExp 53 (-1074) q) / 2 ≤ uu * q ∨ (q < pow2 (-1021) ∧ pow2 (ulpExp 53 (-1074) q) / 2 ≤ eta) := by
  obtain ⟨h1, h2⟩ := ilog2_spec h
  unfold ulpExp
  rcases le_total (-1074) (ilog2 q - ((53 : Nat) - 1)) with he | he
  · left
    rw [max_eq_left he]
    have : pow2 (ilog2 q - ((53 : Nat) - 1)) = pow2 (ilog2 q) * pow2 (-52) := by
      rw [← pow2_add]; congr 1
    rw [this, uu_eq]
    have h3 : pow2 (-52) = pow2 (-53) * 2 := by
      have := pow2_add (-53) 1
      rw [show pow2 1 = 2 by simp [pow2]] at this
      rw [← this]; rfl
    rw [h3]
    have := pow2_pos (-53)
    nlinarith
  · right
    rw [max_eq_right he]
    refine ⟨lt_of_lt_of_le h2 (pow2_le (by push_cast at he; omega)), ?_⟩
    rw [eta_eq]
    have := pow2_add (-1075) 1
    rw [show pow2 1 = 2 by simp [pow2]] at this
    rw [show (-1074 : Int) = -1075 + 1 by norm_num, this]
    linarith

/-- Rounding changes a number by at most a `2^-53`-th of it, plus `2^-1075`. -/
theorem roundQ_error (q : ℚ) : |roundQ 53 (-1074) q - q| ≤ uu * |q| + eta := by
  by_cases h : q = 0
  · subst h; rw [roundQ_zero']; simp; exact eta_pos.le
  have h1 := roundQ_dist (p := 53) (emin := -1074) h
  have h3 := eta_pos
  have h4 : 0 ≤ uu * |q| := mul_nonneg uu_pos.le (abs_nonneg q)
  rcases half_ulp (abs_pos.mpr h) with h2 | ⟨-, h2⟩ <;> linarith

/-- A multiple of the smallest float64 is rounded with relative error only. -/
theorem roundQ_error_grid {q : ℚ} {m : Int} (hm : q = m * pow2 (-1074)) :
    |roundQ 53 (-1074) q - q| ≤ uu * |q| := by
  by_cases h : q = 0
  · subst h; rw [roundQ_zero']; simp
  rcases half_ulp (abs_pos.mpr h) with h2 | ⟨h2, -⟩
  · exact (roundQ_dist h).trans h2
  · have hg : Grid 53 (-1074) q := by
      refine ⟨m, -1074, ?_, _root_.le_refl _, hm⟩
      have hp := pow2_pos (-1074)
      rw [hm, abs_mul, abs_of_pos hp, show (-1021 : Int) = 53 + -1074 by norm_num, pow2_add] at h2
      have h5 : ((|m| : Int) : ℚ) < pow2 53 := by
        rw [Int.cast_abs]; exact lt_of_mul_lt_mul_right h2 hp.le
      have h6 : pow2 53 = ((2 ^ 53 : Int) : ℚ) := pow2_nat 53
      rw [h6] at h5
      exact (by exact_mod_cast h5.le)
    rw [roundQ_exact (by norm_num) hg, sub_self, abs_zero]
    exact mul_nonneg uu_pos.le (abs_nonneg q)

/-- Every finite float64 is a multiple of the smallest one. -/
theorem rep_multiple {q : ℚ} (h : Rep q) : ∃ m : Int, q = m * pow2 (-1074) := by
  obtain ⟨⟨m, e, -, he, rfl⟩, -⟩ := h
  refine ⟨m * 2 ^ (e + 1074).toNat, ?_⟩
  have h1 : pow2 e = pow2 ((e + 1074).toNat : Int) * pow2 (-1074) := by
    rw [← pow2_add]; congr 1; omega
  rw [h1, pow2_nat]; push_cast; ring

theorem val_multiple {x : F64} {q : ℚ} (h : x.val = some q) : ∃ m : Int, q = m * pow2 (-1074) := by
  rcases val_iff.mp h with ⟨-, rfl⟩ | ⟨h, -⟩
  · exact ⟨0, by simp⟩
  · exact rep_multiple h

/-- Addition: relative error at most `2^-53`. -/
theorem add_error {x y : F64} {a b c : ℚ} (hx : x.val = some a) (hy : y.val = some b)
    (hc : (add x y).val = some c) : |c - (a + b)| ≤ uu * |a + b| := by
  rw [add_val hx hy hc]
  obtain ⟨m, hm⟩ := val_multiple hx
  obtain ⟨n, hn⟩ := val_multiple hy
  exact roundQ_error_grid (m := m + n) (by rw [hm, hn]; push_cast; ring)

theorem mul_error {x y : F64} {a b c : ℚ} (hx : x.val = some a) (hy : y.val = some b)
    (hc : (mul x y).val = some c) : |c - a * b| ≤ uu * |a * b| + eta := by
  rw [mul_val hx hy hc]; exact roundQ_error _

theorem div_error {x y : F64} {a b c : ℚ} (hx : x.val = some a) (hy : y.val = some b)
    (hc : (div x y).val = some c) : b ≠ 0 ∧ |c - a / b| ≤ uu * |a / b| + eta := by
  obtain ⟨h0, h1⟩ := div_val hx hy hc
  exact ⟨h0, by rw [h1]; exact roundQ_error _⟩

/-! ## Finite results come from finite operands -/

theorem add_val_of {x y : F64} {c : ℚ} (h : (add x y).val = some c) :
    (∃ a, x.val = some a) ∧ ∃ b, y.val = some b := by
  cases x <;> cases y <;> simp_all [add, val]; split_ifs at h

theorem mul_val_of {x y : F64} {c : ℚ} (h : (mul x y).val = some c) :
    (∃ a, x.val = some a) ∧ ∃ b, y.val = some b := by
  cases x <;> cases y <;> simp_all [mul, val] <;> split_ifs at h

/-! ## Sums -/

theorem foldl_val_of {xs : List F64} {z : F64} {c : ℚ} (h : (xs.foldl add z).val = some c) :
    (∃ a, z.val = some a) ∧ ∃ qs : List ℚ, xs.map val = qs.map some := by
  induction xs generalizing z with
  | nil => exact ⟨⟨c, h⟩, [], rfl⟩
  | cons x xs ih =>
    obtain ⟨⟨a, ha⟩, qs, hqs⟩ := ih h
    obtain ⟨h1, b, hb⟩ := add_val_of ha
    exact ⟨h1, b :: qs, by simp [hb, hqs]⟩

theorem pow_one_le (n : Nat) : 1 ≤ (1 + uu) ^ n := one_le_pow₀ (by linarith [uu_pos])

theorem abs_list_sum_nonneg (qs : List ℚ) : 0 ≤ (qs.map (|·|)).sum := by
  induction qs with
  | nil => simp
  | cons q qs ih => simp only [List.map_cons, List.sum_cons]; linarith [abs_nonneg q]

/-- A sum of `n` float64 numbers added to a start value, from left to right. -/
theorem foldl_error {xs : List F64} {z : F64} {a c : ℚ} {qs : List ℚ} (hz : z.val = some a)
    (hq : xs.map val = qs.map some) (h : (xs.foldl add z).val = some c) :
    |c - (a + qs.sum)| ≤ ((1 + uu) ^ qs.length - 1) * (|a| + (qs.map (|·|)).sum) := by
  induction xs generalizing z a qs with
  | nil =>
    cases qs with
    | cons _ _ => simp at hq
    | nil =>
      have : a = c := by have := hz.symm.trans h; simpa using this
      simp [this]
  | cons x xs ih =>
    cases qs with
    | nil => simp at hq
    | cons q qs =>
      simp only [List.map_cons, List.cons.injEq] at hq
      obtain ⟨⟨b, hb⟩, -⟩ := foldl_val_of (z := add z x) h
      have h1 := ih hb hq.2 h
      have h2 := add_error hz hq.1 hb
      have h3 := abs_add_le a q
      have hR := abs_list_sum_nonneg qs
      have hg := pow_one_le qs.length
      have hu := uu_pos
      simp only [List.length_cons, List.map_cons, List.sum_cons]
      generalize (qs.map (|·|)).sum = R at *
      rw [pow_succ]
      generalize (1 + uu) ^ qs.length = g at *
      have h4 : |b| ≤ (1 + uu) * (|a| + |q|) := by
        have h6 := abs_add_le (b - (a + q)) (a + q)
        rw [sub_add_cancel] at h6
        have : uu * |a + q| ≤ uu * (|a| + |q|) := mul_le_mul_of_nonneg_left h3 hu.le
        linarith
      have h5 : |c - (a + (q + qs.sum))| ≤ |c - (b + qs.sum)| + |b - (a + q)| := by
        have := abs_add_le (c - (b + qs.sum)) (b - (a + q))
        rwa [show c - (b + qs.sum) + (b - (a + q)) = c - (a + (q + qs.sum)) by ring] at this
      have h6 : (g - 1) * (|b| + R) ≤ (g - 1) * ((1 + uu) * (|a| + |q|) + R) :=
        mul_le_mul_of_nonneg_left (by linarith) (by linarith)
      have h7 : uu * |a + q| ≤ uu * (|a| + |q|) := mul_le_mul_of_nonneg_left h3 hu.le
      have h8 : g * uu * R ≥ 0 := by positivity
      nlinarith

/-- Simple form of the growth factor. -/
theorem gamma_le {n : Nat} (h : n ≤ 2 ^ 50) : (1 + uu) ^ n - 1 ≤ 8 / 7 * n * uu := by
  have hu := uu_pos
  have hn : (n : ℚ) * uu ≤ 1 / 8 := by
    have h1 : (n : ℚ) ≤ 2 ^ 50 := by exact_mod_cast h
    calc (n : ℚ) * uu ≤ 2 ^ 50 * uu := mul_le_mul_of_nonneg_right h1 hu.le
      _ = 1 / 8 := by unfold uu; norm_num
  have key : ∀ k : Nat, k ≤ n → (1 + uu) ^ k ≤ 1 + 8 / 7 * k * uu := by
    intro k
    induction k with
    | zero => simp
    | succ k ih =>
      intro hk
      have h1 := ih (by omega)
      have h2 : ((k : ℚ) + 1) * uu ≤ n * uu :=
        mul_le_mul_of_nonneg_right (by exact_mod_cast hk) hu.le
      have h3 : (0 : ℚ) ≤ k * uu := mul_nonneg (by positivity) hu.le
      have h4 : (k : ℚ) * uu ≤ 1 / 8 := by linarith
      rw [pow_succ]
      push_cast
      have h5 : (1 + uu) ^ k * (1 + uu) ≤ (1 + 8 / 7 * k * uu) * (1 + uu) :=
        mul_le_mul_of_nonneg_right h1 (by linarith)
      have h6 : 8 / 7 * (k : ℚ) * uu * uu ≤ 1 / 7 * uu := by
        have := mul_le_mul_of_nonneg_right h4 hu.le
        nlinarith
      nlinarith
  linarith [key n le_rfl]

/-! ## Linear combinations -/

theorem products_val_of {ps : List (F64 × F64)} {rs : List ℚ}
    (h : (ps.map fun p => mul p.1 p.2).map val = rs.map some) :
    ∃ qs : List (ℚ × ℚ), ps.map (fun p => (p.1.val, p.2.val)) = qs.map (fun q => (some q.1, some q.2)) := by
  induction ps generalizing rs with
  | nil => exact ⟨[], rfl⟩
  | cons p ps ih =>
    cases rs with
    | nil => simp at h
    | cons r rs =>
      simp only [List.map_cons, List.cons.injEq] at h
      obtain ⟨⟨a, ha⟩, b, hb⟩ := mul_val_of h.1
      obtain ⟨qs, hqs⟩ := ih h.2
      exact ⟨(a, b) :: qs, by simp [ha, hb, hqs]⟩

/-- The products of a linear combination, one by one. -/
theorem products_error {ps : List (F64 × F64)} {rs : List ℚ} {qs : List (ℚ × ℚ)}
    (h : (ps.map fun p => mul p.1 p.2).map val = rs.map some)
    (hq : ps.map (fun p => (p.1.val, p.2.val)) = qs.map (fun q => (some q.1, some q.2))) :
    rs.length = qs.length ∧
    |rs.sum - (qs.map fun q => q.1 * q.2).sum| ≤ uu * (qs.map fun q => |q.1 * q.2|).sum + qs.length * eta ∧
    (rs.map (|·|)).sum ≤ (1 + uu) * (qs.map fun q => |q.1 * q.2|).sum + qs.length * eta := by
  induction ps generalizing rs qs with
  | nil =>
    cases rs with
    | cons _ _ => simp at h
    | nil => cases qs with
      | cons _ _ => simp at hq
      | nil => simp
  | cons p ps ih =>
    cases rs with
    | nil => simp at h
    | cons r rs =>
      cases qs with
      | nil => simp at hq
      | cons q qs =>
        simp only [List.map_cons, List.cons.injEq, Prod.mk.injEq] at h hq
        obtain ⟨h0, h1, h2⟩ := ih h.2 hq.2
        have h3 := mul_error hq.1.1 hq.1.2 h.1
        refine ⟨by simp [h0], ?_, ?_⟩
        · simp only [List.map_cons, List.sum_cons, List.length_cons]
          have := abs_add_le (r - q.1 * q.2) (rs.sum - (qs.map fun q => q.1 * q.2).sum)
          rw [show r - q.1 * q.2 + (rs.sum - (qs.map fun q => q.1 * q.2).sum) =
            r + rs.sum - (q.1 * q.2 + (qs.map fun q => q.1 * q.2).sum) by ring] at this
          push_cast
          linarith
        · simp only [List.map_cons, List.sum_cons, List.length_cons]
          have := abs_add_le (r - q.1 * q.2) (q.1 * q.2)
          rw [sub_add_cancel] at this
          push_cast
          linarith

/-- A linear combination computed in float64, against the exact one. -/
theorem linear_error {ps : List (F64 × F64)} {z : F64} {c : ℚ}
    (h : ((ps.map fun p => mul p.1 p.2).foldl add z).val = some c) :
    ∃ (a : ℚ) (qs : List (ℚ × ℚ)), z.val = some a ∧
      ps.map (fun p => (p.1.val, p.2.val)) = qs.map (fun q => (some q.1, some q.2)) ∧
      |c - (a + (qs.map fun q => q.1 * q.2).sum)| ≤
        ((1 + uu) ^ (qs.length + 1) - 1) * (|a| + (qs.map fun q => |q.1 * q.2|).sum) +
        (1 + uu) ^ qs.length * qs.length * eta := by
  obtain ⟨⟨a, ha⟩, rs, hrs⟩ := foldl_val_of h
  obtain ⟨qs, hqs⟩ := products_val_of hrs
  refine ⟨a, qs, ha, hqs, ?_⟩
  obtain ⟨h0, h1, h2⟩ := products_error hrs hqs
  have h3 := foldl_error ha hrs h
  rw [h0] at h3
  have h4 := abs_add_le (c - (a + rs.sum)) (rs.sum - (qs.map fun q => q.1 * q.2).sum)
  rw [show c - (a + rs.sum) + (rs.sum - (qs.map fun q => q.1 * q.2).sum) =
    c - (a + (qs.map fun q => q.1 * q.2).sum) by ring] at h4
  have hg := pow_one_le qs.length
  have hu := uu_pos
  rw [pow_succ]
  generalize (1 + uu) ^ qs.length = g at *
  generalize (qs.map fun q => |q.1 * q.2|).sum = P at *
  have h5 : (g - 1) * (|a| + (rs.map (|·|)).sum) ≤ (g - 1) * (|a| + ((1 + uu) * P + qs.length * eta)) :=
    mul_le_mul_of_nonneg_left (by linarith) (by linarith)
  have h6 : 0 ≤ g * uu * |a| := mul_nonneg (mul_nonneg (by linarith) hu.le) (abs_nonneg a)
  nlinarith

/-! ## Shares of a total -/

theorem roundQ_val {x : F64} {q : ℚ} (h : x.val = some q) : roundQ 53 (-1074) q = q := by
  rcases val_iff.mp h with ⟨-, rfl⟩ | ⟨h, -⟩
  · exact roundQ_zero'
  · exact roundQ_exact (by norm_num) h.1

/-- A sum of numbers that are not negative is at least each of them. -/
theorem foldl_ge {xs : List F64} {z : F64} {a c : ℚ} {qs : List ℚ} (hz : z.val = some a)
    (hq : xs.map val = qs.map some) (h : (xs.foldl add z).val = some c) (ha : 0 ≤ a) (hn : ∀ q ∈ qs, 0 ≤ q) :
    a ≤ c ∧ ∀ q ∈ qs, q ≤ c := by
  induction xs generalizing z a qs with
  | nil =>
    cases qs with
    | cons _ _ => simp at hq
    | nil =>
      have : a = c := by have := hz.symm.trans h; simpa using this
      simp [this]
  | cons x xs ih =>
    cases qs with
    | nil => simp at hq
    | cons q qs =>
      simp only [List.map_cons, List.cons.injEq] at hq
      obtain ⟨⟨b, hb⟩, -⟩ := foldl_val_of (z := add z x) h
      have h0 := hn q (List.mem_cons_self ..)
      have hb' := add_val hz hq.1 hb
      have h1 : a ≤ b := by
        rw [hb', ← roundQ_val hz]
        rw [roundQ_val hz]
        have := roundQ_mono (p := 53) (emin := -1074) (by norm_num) (show a ≤ a + q by linarith)
        rwa [roundQ_val hz] at this
      have h2 : q ≤ b := by
        have := roundQ_mono (p := 53) (emin := -1074) (by norm_num) (show q ≤ a + q by linarith)
        rwa [roundQ_val hq.1, ← hb'] at this
      obtain ⟨h3, h4⟩ := ih hb hq.2 h (by linarith) (fun q hq => hn q (List.mem_cons_of_mem _ hq))
      refine ⟨by linarith, fun q' hq' => ?_⟩
      rcases List.mem_cons.mp hq' with rfl | hq'
      · linarith
      · exact h4 q' hq'

theorem ofRat_fin {s : Bool} {q : ℚ} (h : |roundQ 53 (-1074) q| < pow2 1024) :
    (ofRat s q).val = some (roundQ 53 (-1074) q) := by
  unfold ofRat
  simp only [h, dite_true]
  split_ifs with h1
  · simp [val, h1.1]
  · rfl

/-- The quotient of a number by one at least as large lies between nought and one. -/
theorem div_share {x y : F64} {a b : ℚ} (hx : x.val = some a) (hy : y.val = some b) (ha : 0 ≤ a)
    (hab : a ≤ b) (hb : b ≠ 0) : ∃ c, (div x y).val = some c ∧ 0 ≤ c ∧ c ≤ 1 := by
  have hb' : 0 < b := lt_of_le_of_ne (ha.trans hab) (Ne.symm hb)
  have h1 : roundQ 53 (-1074) (a / b) ≤ 1 := by
    have := roundQ_mono (p := 53) (emin := -1074) (by norm_num) (show a / b ≤ 1 from (div_le_one hb').mpr hab)
    rwa [roundQ_exact (by norm_num) rep_one.1] at this
  have h0 : 0 ≤ roundQ 53 (-1074) (a / b) := by
    have := roundQ_mono (p := 53) (emin := -1074) (by norm_num) (show 0 ≤ a / b from div_nonneg ha hb'.le)
    rwa [roundQ_zero'] at this
  have hlt : |roundQ 53 (-1074) (a / b)| < pow2 1024 := by
    rw [abs_of_nonneg h0]
    exact lt_of_le_of_lt h1 (by have := rep_one.2; rwa [abs_one] at this)
  rcases val_iff.mp hx with ⟨rfl, rfl⟩ | ⟨ha', rfl⟩ <;> rcases val_iff.mp hy with ⟨rfl, rfl⟩ | ⟨hb'', rfl⟩
  · exact absurd rfl hb
  · simp only [div, if_neg hb, zeroOf, zero]
    split_ifs <;> exact ⟨0, rfl, le_rfl, zero_le_one⟩
  · exact absurd rfl hb
  · simp only [div, if_neg hb]
    exact ⟨_, ofRat_fin hlt, h0, h1⟩

theorem shares_sum {xs : List F64} {t : F64} {b : ℚ} {qs : List ℚ} (hq : xs.map val = qs.map some)
    (ht : t.val = some b) (hb : b ≠ 0) (hle : ∀ q ∈ qs, 0 ≤ q ∧ q ≤ b) :
    ∃ ps : List ℚ, (xs.map fun x => div x t).map val = ps.map some ∧ ps.length = qs.length ∧
      (∀ p ∈ ps, 0 ≤ p ∧ p ≤ 1) ∧ |ps.sum - qs.sum / b| ≤ uu * (qs.sum / b) + qs.length * eta := by
  induction xs generalizing qs with
  | nil =>
    cases qs with
    | cons _ _ => simp at hq
    | nil => exact ⟨[], rfl, rfl, by simp, by simp⟩
  | cons x xs ih =>
    cases qs with
    | nil => simp at hq
    | cons q qs =>
      simp only [List.map_cons, List.cons.injEq] at hq
      obtain ⟨ps, h1, h2, h3, h4⟩ := ih hq.2 (fun q hq => hle q (List.mem_cons_of_mem _ hq))
      obtain ⟨hq0, hqb⟩ := hle q (List.mem_cons_self ..)
      obtain ⟨p, hp, hp0, hp1⟩ := div_share hq.1 ht hq0 hqb hb
      refine ⟨p :: ps, by simp [hp, ← h1], by simp [h2], ?_, ?_⟩
      · intro r hr
        rcases List.mem_cons.mp hr with rfl | hr
        · exact ⟨hp0, hp1⟩
        · exact h3 r hr
      · obtain ⟨-, h5⟩ := div_error hq.1 ht hp
        rw [abs_of_nonneg (show 0 ≤ q / b from div_nonneg hq0 (hq0.trans hqb))] at h5
        simp only [List.sum_cons, List.length_cons]
        have := abs_add_le (p - q / b) (ps.sum - qs.sum / b)
        rw [show p - q / b + (ps.sum - qs.sum / b) = p + ps.sum - (q + qs.sum) / b by ring] at this
        rw [add_div]
        rw [add_div] at this
        push_cast
        linarith

/-- Shares of a positive total sum to one, up to `3 (n + 1) 2^-53`. -/
theorem shares_error {xs : List F64} {b : ℚ} {qs : List ℚ} (hq : xs.map val = qs.map some)
    (hn : ∀ q ∈ qs, 0 ≤ q) (ht : (xs.foldl add zero).val = some b) (hb : b ≠ 0) (hl : xs.length ≤ 2 ^ 50) :
    ∃ ps : List ℚ, (xs.map fun x => div x (xs.foldl add zero)).map val = ps.map some ∧
      (∀ p ∈ ps, 0 ≤ p ∧ p ≤ 1) ∧ |ps.sum - 1| ≤ 3 * (xs.length + 1) * uu := by
  have hz : zero.val = some 0 := rfl
  have hlen : qs.length = xs.length := by
    have := congrArg List.length hq; simpa using this.symm
  obtain ⟨h0, h1⟩ := foldl_ge hz hq ht le_rfl hn
  have he := foldl_error hz hq ht
  obtain ⟨ps, hps, -, h01, h2⟩ := shares_sum hq ht hb (fun q h => ⟨hn q h, h1 q h⟩)
  refine ⟨ps, hps, h01, ?_⟩
  have habs : (qs.map (|·|)).sum = qs.sum := by
    congr 1
    conv_rhs => rw [← List.map_id qs]
    exact List.map_congr_left (fun q h => abs_of_nonneg (hn q h))
  rw [habs, abs_zero, _root_.zero_add] at he
  have hg := gamma_le (n := qs.length) (by omega)
  have hg1 := pow_one_le qs.length
  rw [hlen] at *
  generalize (1 + uu) ^ xs.length = g at *
  have hu := uu_pos
  have hnu : (xs.length : ℚ) * uu ≤ 1 / 8 := by
    have h1 : (xs.length : ℚ) ≤ 2 ^ 50 := by exact_mod_cast hl
    calc (xs.length : ℚ) * uu ≤ 2 ^ 50 * uu := mul_le_mul_of_nonneg_right h1 hu.le
      _ = 1 / 8 := by unfold uu; norm_num
  have hb' : 0 < b := lt_of_le_of_ne h0 (Ne.symm hb)
  have hS : 0 ≤ qs.sum := List.sum_nonneg hn
  -- the exact total against the computed one
  set r := qs.sum / b with hr
  have hrb : qs.sum = r * b := by rw [hr]; field_simp
  have hr0 : 0 ≤ r := div_nonneg hS hb'.le
  have hn0 : (0 : ℚ) ≤ xs.length := by positivity
  have h7 : |1 - r| ≤ (g - 1) * r := by
    rw [hrb] at he
    have : b - r * b = (1 - r) * b := by ring
    rw [this, abs_mul, abs_of_pos hb'] at he
    have h8 : (g - 1) * (r * b) = ((g - 1) * r) * b := by ring
    rw [h8] at he
    exact le_of_mul_le_mul_right he hb'
  have h9 := abs_le.mp h7
  have hgr : (g - 1) * r ≤ 8 / 7 * xs.length * uu * r := mul_le_mul_of_nonneg_right hg hr0
  have hr1 : r ≤ 7 / 6 := by
    have : 8 / 7 * (xs.length : ℚ) * uu * r ≤ 1 / 7 * r :=
      mul_le_mul_of_nonneg_right (by linarith) hr0
    linarith
  have h10 : |ps.sum - 1| ≤ |ps.sum - r| + |1 - r| := by
    have := abs_add_le (ps.sum - r) (r - 1)
    rw [abs_sub_comm r 1] at this
    rwa [show ps.sum - r + (r - 1) = ps.sum - 1 by ring] at this
  have h11 : uu * r ≤ 7 / 6 * uu := by nlinarith
  have h12 : 8 / 7 * (xs.length : ℚ) * uu * r ≤ 4 / 3 * (xs.length * uu) := by
    have := mul_le_mul_of_nonneg_left hr1 (show 0 ≤ 8 / 7 * ((xs.length : ℚ) * uu) by positivity)
    nlinarith
  have h13 : (xs.length : ℚ) * eta ≤ xs.length * uu := by
    apply mul_le_mul_of_nonneg_left _ hn0
    rw [uu_eq, eta_eq]; exact pow2_le (by norm_num)
  have h14 : 0 ≤ (xs.length : ℚ) * uu := by positivity
  linarith

end Gopmml.F64
