import Verif.Model.Fused
import Verif.Proofs.F64Error

/-!
# Rounding error of fused linear combinations
-/

namespace Gopmml

namespace F64

theorem ofRat_zero' : ofRat false 0 = zero := by
  unfold ofRat zero
  simp only [roundQ_zero']
  simp [pow2_pos]

/-- A finite fused result comes from finite operands. -/
theorem fma_val_of {x y z : F64} {c : ℚ} (h : (fma x y z).val = some c) :
    (∃ a, x.val = some a) ∧ (∃ b, y.val = some b) ∧ ∃ d, z.val = some d := by
  unfold fma at h
  split at h
  · rename_i a b ha hb
    split at h
    · rename_i d hd
      exact ⟨⟨a, ha⟩, ⟨b, hb⟩, d, hd⟩
    · rename_i hz
      rw [hz] at h; cases h
  · obtain ⟨⟨p, hp⟩, hz⟩ := add_val_of h
    obtain ⟨ha, hb⟩ := mul_val_of hp
    exact ⟨ha, hb, hz⟩

theorem mul_zero_val {x y : F64} {a b : ℚ} (hx : x.val = some a) (hy : y.val = some b) (h : a * b = 0) :
    (mul x y).val = some 0 := by
  rcases val_iff.mp hx with ⟨rfl, rfl⟩ | ⟨ha, rfl⟩ <;> rcases val_iff.mp hy with ⟨rfl, rfl⟩ | ⟨hb, rfl⟩
  · rfl
  · simp only [mul]; split_ifs <;> rfl
  · simp only [mul]; split_ifs <;> rfl
  · simp only [mul, h]
    rw [ofRat_fin (by rw [roundQ_zero']; simp [pow2_pos]), roundQ_zero']

/-- The fused result is the exact one, rounded once. -/
theorem fma_val {x y z : F64} {a b d c : ℚ} (hx : x.val = some a) (hy : y.val = some b) (hz : z.val = some d)
    (h : (fma x y z).val = some c) : c = roundQ 53 (-1074) (a * b + d) := by
  simp only [fma, hx, hy, hz] at h
  split_ifs at h with h0
  · rw [add_val (mul_zero_val hx hy h0) hz h, h0]
  · exact ofRat_val h

theorem fma_error {x y z : F64} {a b d c : ℚ} (hx : x.val = some a) (hy : y.val = some b) (hz : z.val = some d)
    (h : (fma x y z).val = some c) : |c - (a * b + d)| ≤ uu * |a * b + d| + eta := by
  rw [fma_val hx hy hz h]; exact roundQ_error _

/-- One step `z + x * y` rounded twice: the two roundings together. -/
theorem step_error {x y z : F64} {a b d c : ℚ} (hx : x.val = some a) (hy : y.val = some b) (hz : z.val = some d)
    (h : (add z (mul x y)).val = some c) :
    |c - (a * b + d)| ≤ uu * (|d| + |a * b|) + (1 + uu) * (uu * |a * b| + eta) := by
  obtain ⟨-, p, hp⟩ := add_val_of h
  have h1 := add_error hz hp h
  have h2 := mul_error hx hy hp
  have h3 : |d + p| ≤ |d| + (|a * b| + (uu * |a * b| + eta)) := by
    have e1 := abs_add_le d p
    have e2 := abs_add_le (p - a * b) (a * b)
    rw [sub_add_cancel] at e2
    linarith
  have h4 := abs_add_le (c - (d + p)) (p - a * b)
  rw [show c - (d + p) + (p - a * b) = c - (a * b + d) by ring] at h4
  have h5 : uu * |d + p| ≤ uu * (|d| + (|a * b| + (uu * |a * b| + eta))) :=
    mul_le_mul_of_nonneg_left h3 uu_pos.le
  nlinarith

theorem fused_step_error {x y z : F64} {a b d c : ℚ} (hx : x.val = some a) (hy : y.val = some b)
    (hz : z.val = some d) (h : (fma x y z).val = some c) :
    |c - (a * b + d)| ≤ uu * (|d| + |a * b|) + (1 + uu) * (uu * |a * b| + eta) := by
  have h1 := fma_error hx hy hz h
  have h2 := abs_add_le (a * b) d
  have h3 : uu * |a * b + d| ≤ uu * (|d| + |a * b|) := mul_le_mul_of_nonneg_left (by linarith) uu_pos.le
  have h6 := eta_pos
  have h4 : 0 ≤ uu * (uu * |a * b| + eta) :=
    mul_nonneg uu_pos.le (add_nonneg (mul_nonneg uu_pos.le (abs_nonneg _)) h6.le)
  have h5 : 0 ≤ uu * |a * b| := mul_nonneg uu_pos.le (abs_nonneg _)
  linarith

end F64

namespace Fused
open F64
variable {fuse : F64 → F64 → F64 → Bool}

/-- Adding a product to a number that is none: one rounding or two. -/
theorem add_product (z : F64) (x y : F64) :
    add (lift z : Fused fuse) (Arith.mul (lift x) (lift y)) =
      if fuse x y z then fma x y z else F64.add z (F64.mul x y) := rfl

/-- The linear combination as the code computes it. -/
def combine (fuse : F64 → F64 → F64 → Bool) (z : F64) (ps : List (F64 × F64)) : F64 :=
  ps.foldl (fun z p => if fuse p.1 p.2 z then fma p.1 p.2 z else F64.add z (F64.mul p.1 p.2)) z

theorem foldl_combine (z : F64) (ps : List (F64 × F64)) :
    (ps.map fun p => (Arith.mul (lift p.1) (lift p.2) : Fused fuse)).foldl Arith.add (lift z) =
      lift (combine fuse z ps) := by
  induction ps generalizing z with
  | nil => rfl
  | cons p ps ih => exact ih _

/-- One rounding more for each term than for the start value. -/
theorem combine_error' {ps : List (F64 × F64)} {z : F64} {c : ℚ} (h : (combine fuse z ps).val = some c) :
    ∃ (a : ℚ) (qs : List (ℚ × ℚ)), z.val = some a ∧
      ps.map (fun p => (p.1.val, p.2.val)) = qs.map (fun q => (some q.1, some q.2)) ∧
      |c - (a + (qs.map fun q => q.1 * q.2).sum)| ≤
        ((1 + uu) ^ qs.length - 1) * |a| + ((1 + uu) ^ qs.length * (1 + uu) - 1) * (qs.map fun q => |q.1 * q.2|).sum +
        (1 + uu) ^ qs.length * qs.length * eta := by
  induction ps generalizing z with
  | nil =>
    exact ⟨c, [], h, rfl, by simp⟩
  | cons p ps ih =>
    obtain ⟨b, qs, hb, hqs, h1⟩ := ih h
    have hstep : ∃ (a q1 q2 : ℚ), z.val = some a ∧ p.1.val = some q1 ∧ p.2.val = some q2 ∧
        |b - (q1 * q2 + a)| ≤ uu * (|a| + |q1 * q2|) + (1 + uu) * (uu * |q1 * q2| + eta) := by
      change F64.val (if fuse p.1 p.2 z then fma p.1 p.2 z else F64.add z (F64.mul p.1 p.2)) = some b at hb
      by_cases hf : fuse p.1 p.2 z = true
      · rw [if_pos hf] at hb
        obtain ⟨⟨q1, e1⟩, ⟨q2, e2⟩, a, ea⟩ := fma_val_of hb
        exact ⟨a, q1, q2, ea, e1, e2, fused_step_error e1 e2 ea hb⟩
      · rw [if_neg hf] at hb
        obtain ⟨⟨a, ea⟩, w, ew⟩ := add_val_of hb
        obtain ⟨⟨q1, e1⟩, q2, e2⟩ := mul_val_of ew
        exact ⟨a, q1, q2, ea, e1, e2, step_error e1 e2 ea hb⟩
    obtain ⟨a, q1, q2, ea, e1, e2, h2⟩ := hstep
    refine ⟨a, (q1, q2) :: qs, ea, by simp [e1, e2, hqs], ?_⟩
    have hg := pow_one_le qs.length
    have hu := uu_pos
    have he := eta_pos
    have hR : 0 ≤ (qs.map fun q => |q.1 * q.2|).sum := by
      have := abs_list_sum_nonneg (qs.map fun q => q.1 * q.2)
      rwa [List.map_map] at this
    have hn : (0 : ℚ) ≤ qs.length := by positivity
    simp only [List.length_cons, List.map_cons, List.sum_cons]
    push_cast
    generalize (qs.map fun q => |q.1 * q.2|).sum = R at *
    generalize (qs.map fun q => q.1 * q.2).sum = S at *
    generalize (qs.length : ℚ) = n at *
    have hp := abs_nonneg (q1 * q2)
    have ha := abs_nonneg a
    have h3 : |b| ≤ |a| + |q1 * q2| + (uu * (|a| + |q1 * q2|) + (1 + uu) * (uu * |q1 * q2| + eta)) := by
      have e := abs_add_le (b - (q1 * q2 + a)) (q1 * q2 + a)
      rw [sub_add_cancel] at e
      have := abs_add_le (q1 * q2) a
      linarith
    have h5 := abs_add_le (c - (b + S)) (b - (q1 * q2 + a))
    rw [show c - (b + S) + (b - (q1 * q2 + a)) = c - (a + (q1 * q2 + S)) by ring] at h5
    rw [pow_succ]
    generalize (1 + uu) ^ qs.length = g at *
    generalize |q1 * q2| = P at *
    generalize |a| = A at *
    generalize |b| = B at *
    have h6 : (g - 1) * B ≤ (g - 1) * (A + P + (uu * (A + P) + (1 + uu) * (uu * P + eta))) :=
      mul_le_mul_of_nonneg_left h3 (by linarith)
    have h7 : 0 ≤ g * uu * (1 + uu) * R := by positivity
    generalize eta = e at *
    have h8 : 0 ≤ g * uu * n * e := by positivity
    nlinarith

theorem combine_error {ps : List (F64 × F64)} {z : F64} {c : ℚ} (h : (combine fuse z ps).val = some c) :
    ∃ (a : ℚ) (qs : List (ℚ × ℚ)), z.val = some a ∧
      ps.map (fun p => (p.1.val, p.2.val)) = qs.map (fun q => (some q.1, some q.2)) ∧
      |c - (a + (qs.map fun q => q.1 * q.2).sum)| ≤
        ((1 + uu) ^ (qs.length + 1) - 1) * (|a| + (qs.map fun q => |q.1 * q.2|).sum) +
        (1 + uu) ^ qs.length * qs.length * eta := by
  obtain ⟨a, qs, h1, h2, h3⟩ := combine_error' h
  refine ⟨a, qs, h1, h2, h3.trans ?_⟩
  have hg := pow_one_le qs.length
  have hu := uu_pos
  rw [pow_succ]
  generalize (1 + uu) ^ qs.length = g at *
  have : 0 ≤ g * uu * |a| := by positivity
  linarith

end Fused

end Gopmml
