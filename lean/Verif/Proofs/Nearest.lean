import Verif.Spec.Text

/-!
# Rounding picks the nearest number of the format, ties to even
-/

namespace Gopmml
open Spec

theorem binary_iff {p : Nat} (hp : 0 < p) {emin : Int} {q : ℚ} : Binary p emin q ↔ Grid p emin q := by
  constructor
  · rintro ⟨m, e, hm, he, rfl⟩
    exact ⟨m, e, hm.le, he, by rw [pow2_eq]⟩
  · rintro ⟨m, e, hm, he, rfl⟩
    rcases lt_or_eq_of_le hm with h | h
    · exact ⟨m, e, h, he, by rw [pow2_eq]⟩
    · obtain ⟨p', rfl⟩ : ∃ p', p = p' + 1 := ⟨p - 1, by omega⟩
      have h2 : (2 : Int) ^ (p' + 1) = 2 * 2 ^ p' := by rw [pow_succ]; ring
      have hpos : (0 : Int) < 2 ^ p' := by positivity
      have key : ∃ m' : Int, m = 2 * m' ∧ |m'| = 2 ^ p' := by
        rcases abs_choice m with c | c
        · exact ⟨2 ^ p', by rw [← h2, ← h, c], abs_of_pos hpos⟩
        · exact ⟨-2 ^ p', by rw [mul_neg, ← h2, ← h, c, neg_neg], by rw [abs_neg, abs_of_pos hpos]⟩
      obtain ⟨m', rfl, hm'⟩ := key
      refine ⟨m', e + 1, ?_, by omega, ?_⟩
      · rw [hm', h2]; omega
      · rw [pow2_eq, zpow_add₀ (by norm_num), zpow_one]; push_cast; ring

/-- A number of the format that is at least `q > 0` is a multiple of the last place of `q`. -/
theorem grid_multiple {p : Nat} {emin : Int} {q s : ℚ} (hp : 0 < p) (hq : 0 < q) (h : q ≤ s)
    (hs : Grid p emin s) : ∃ k : Int, s = k * pow2 (ulpExp p emin q) := by
  have hs0 := lt_of_lt_of_le hq h
  have he := roundPos_exact hp hs0 hs
  have hu : ulpExp p emin q ≤ ulpExp p emin s := by
    have := ilog2_mono hq h
    unfold ulpExp; omega
  obtain ⟨d, hd⟩ := Int.eq_ofNat_of_zero_le (show 0 ≤ ulpExp p emin s - ulpExp p emin q by omega)
  refine ⟨roundHalfEven (s / pow2 (ulpExp p emin s)) * 2 ^ d, ?_⟩
  have e1 : ulpExp p emin s = d + ulpExp p emin q := by omega
  conv_lhs => rw [← he]
  unfold roundPos
  simp only
  rw [show pow2 (ulpExp p emin s) = pow2 d * pow2 (ulpExp p emin q) by rw [← pow2_add, ← e1]]
  rw [pow2_nat]; push_cast; ring

/-- A number of the format that is at most `q > 0` is at most a multiple of the last place of `q`
that is at most `q`; and it is that multiple, or is smaller than it by an amount that keeps it
strictly further away. -/
theorem grid_below {p : Nat} {emin : Int} {q s : ℚ} (hp : 0 < p) (hq : 0 < q) (h : s ≤ q)
    (hs : Grid p emin s) : ∃ k : Int, s ≤ k * pow2 (ulpExp p emin q) ∧ k * pow2 (ulpExp p emin q) ≤ q := by
  rcases le_or_gt s 0 with h0 | h0
  · exact ⟨0, by simpa using h0, by simpa using hq.le⟩
  by_cases hu : ulpExp p emin q = ulpExp p emin s
  · obtain ⟨k, hk⟩ := grid_multiple hp h0 le_rfl hs
    rw [← hu] at hk
    exact ⟨k, hk.le, by rw [← hk]; exact h⟩
  · have hl := ilog2_mono h0 h
    have hn : ulpExp p emin q = ilog2 q - (p - 1) ∧ ilog2 s < ilog2 q := by
      unfold ulpExp at hu ⊢; omega
    refine ⟨2 ^ (p - 1), ?_, ?_⟩
    · have h1 : s < pow2 (ilog2 s + 1) := (ilog2_spec h0).2
      have h2 : pow2 (ilog2 s + 1) ≤ pow2 (ilog2 q) := pow2_le (by omega)
      have h3 : pow2 (ilog2 q) = ((2 ^ (p - 1) : Int) : ℚ) * pow2 (ulpExp p emin q) := by
        rw [← pow2_nat, ← pow2_add, hn.1]; congr 1; omega
      rw [← h3]; linarith
    · have h3 : pow2 (ilog2 q) = ((2 ^ (p - 1) : Int) : ℚ) * pow2 (ulpExp p emin q) := by
        rw [← pow2_nat, ← pow2_add, hn.1]; congr 1; omega
      rw [← h3]; exact (ilog2_spec hq).1

/-- The rounded integer is even when the distance is exactly 1/2. -/
theorem roundHalfEven_even {q : ℚ} (h : |(roundHalfEven q : ℚ) - q| = 1 / 2) : 2 ∣ roundHalfEven q := by
  have h1 := Int.floor_le q
  have h2 := Int.lt_floor_add_one q
  unfold roundHalfEven at h ⊢
  split_ifs at h ⊢ with a b c
  · exfalso
    rw [abs_sub_comm, abs_of_nonneg (by linarith)] at h; linarith
  · exfalso
    push_cast at h
    rw [abs_of_nonneg (by linarith)] at h; linarith
  · omega
  · omega

theorem roundHalfEven_scaled_tie {q u : ℚ} (hu : 0 < u)
    (h : |(roundHalfEven (q / u) : ℚ) * u - q| = u / 2) : 2 ∣ roundHalfEven (q / u) := by
  refine roundHalfEven_even ?_
  have e : (roundHalfEven (q / u) : ℚ) * u - q = ((roundHalfEven (q / u) : ℚ) - q / u) * u := by
    field_simp
  rw [e, abs_mul, abs_of_pos hu] at h
  have : |(roundHalfEven (q / u) : ℚ) - q / u| = (u / 2) / u := by
    rw [eq_div_iff hu.ne']; exact h
  rw [this]; field_simp

theorem roundPos_dist {p : Nat} {emin : Int} {q : ℚ} (hq : 0 < q) :
    |roundPos p emin q - q| ≤ pow2 (ulpExp p emin q) / 2 := by
  have := roundQ_dist (p := p) (emin := emin) hq.ne'
  rw [abs_of_pos hq] at this
  unfold roundQ at this
  rwa [if_neg (by linarith), if_neg hq.ne'] at this

/-- Another number of the format is at least as far away, and when it is as far away the distance is
half a last place. -/
theorem roundPos_other {p : Nat} {emin : Int} {q s : ℚ} (hp : 0 < p) (hq : 0 < q)
    (hs : Grid p emin s) (hne : s ≠ roundPos p emin q) :
    |roundPos p emin q - q| ≤ |s - q| ∧
      (|s - q| = |roundPos p emin q - q| → |roundPos p emin q - q| = pow2 (ulpExp p emin q) / 2) := by
  have hd := roundPos_dist (p := p) (emin := emin) hq
  set u := pow2 (ulpExp p emin q) with hu
  have hupos : 0 < u := pow2_pos _
  obtain ⟨K, hK⟩ : ∃ K : Int, roundPos p emin q = K * u := ⟨_, rfl⟩
  have hrg := roundPos_grid (p := p) (emin := emin) hq
  -- two different multiples of the last place are a last place apart
  have apart : ∀ a b : Int, (a : ℚ) * u < b * u → (a : ℚ) * u + u ≤ b * u := by
    intro a b hab
    have hab' : a < b := by
      have := lt_of_mul_lt_mul_right hab hupos.le
      exact_mod_cast this
    have : (a : ℚ) + 1 ≤ b := by exact_mod_cast hab'
    calc (a : ℚ) * u + u = (a + 1) * u := by ring
      _ ≤ b * u := mul_le_mul_of_nonneg_right this hupos.le
  have hd' := abs_le.mp hd
  have finish : u / 2 ≤ |s - q| → |roundPos p emin q - q| ≤ |s - q| ∧
      (|s - q| = |roundPos p emin q - q| → |roundPos p emin q - q| = u / 2) := fun hfar =>
    ⟨hd.trans hfar, fun he => le_antisymm hd (by rw [← he]; exact hfar)⟩
  rcases le_total q s with h | h
  · -- `s` is a multiple of the last place
    obtain ⟨k, hk⟩ := grid_multiple hp hq h hs
    rw [← hu] at hk
    refine finish ?_
    rw [abs_of_nonneg (by linarith)]
    rcases lt_or_gt_of_ne hne with hlt | hgt
    · have := apart k K (by rw [← hk, ← hK]; exact hlt)
      rw [← hk, ← hK] at this; linarith
    · have := apart K k (by rw [← hk, ← hK]; exact hgt)
      rw [← hk, ← hK] at this; linarith
  · obtain ⟨k, hk1, hk2⟩ := grid_below hp hq h hs
    rw [← hu] at hk1 hk2
    rcases lt_trichotomy ((k : ℚ) * u) (K * u) with hlt | heq | hgt
    · have := apart k K hlt
      rw [← hK] at this
      exact finish (by rw [abs_sub_comm, abs_of_nonneg (by linarith)]; linarith)
    · rw [heq, ← hK] at hk1 hk2
      have hlt := lt_of_le_of_ne hk1 hne
      rw [abs_sub_comm, abs_of_nonneg (a := q - roundPos p emin q) (by linarith), abs_sub_comm s,
        abs_of_nonneg (by linarith)]
      exact ⟨by linarith, fun he => by linarith⟩
    · have := apart K k hgt
      rw [← hK] at this
      exact finish (by rw [abs_sub_comm, abs_of_nonneg (by linarith)]; linarith)

/-- Rounding a positive number answers the nearest number of the format, ties to even. -/
theorem roundPos_nearest {p : Nat} {emin : Int} {q : ℚ} (hp : 1 < p) (hq : 0 < q) :
    Nearest p emin q (roundPos p emin q) := by
  have hp0 : 0 < p := by omega
  refine ⟨(binary_iff hp0).mpr (roundPos_grid hq), fun s hs => ?_, fun s hs hne he => ?_⟩
  · by_cases h : s = roundPos p emin q
    · rw [h]
    · exact (roundPos_other hp0 hq ((binary_iff hp0).mp hs) h).1
  · have ht := (roundPos_other hp0 hq ((binary_iff hp0).mp hs) hne).2 he
    obtain ⟨m, hm⟩ : 2 ∣ roundHalfEven (q / pow2 (ulpExp p emin q)) :=
      roundHalfEven_scaled_tie (pow2_pos _) ht
    have hle := roundPos_scaled_le (p := p) (emin := emin) hq
    have hge : 0 ≤ roundHalfEven (q / pow2 (ulpExp p emin q)) := by
      have := roundPos_nonneg (p := p) (emin := emin) hq
      have h3 := nonneg_of_mul_nonneg_left this (pow2_pos (ulpExp p emin q))
      exact_mod_cast h3
    have hr : roundPos p emin q = (2 * m : Int) * 2 ^ ulpExp p emin q := by
      rw [← pow2_eq, ← hm]; rfl
    rw [hm] at hle hge
    have hmin : emin ≤ ulpExp p emin q := le_max_right _ _
    obtain ⟨p', rfl⟩ : ∃ p', p = p' + 2 := ⟨p - 2, by omega⟩
    have e1 : (2 : Int) ^ (p' + 2) = 2 * 2 ^ (p' + 1) := by ring
    refine (binary_iff (by omega)).mpr ⟨m, ulpExp (p' + 2) emin q + 1, ?_, by omega, ?_⟩
    · rw [abs_of_nonneg (by omega), show p' + 2 - 1 = p' + 1 from rfl]; omega
    · rw [hr, pow2_eq, zpow_add₀ (by norm_num), zpow_one]; push_cast; ring

theorem Spec.Binary.neg {p : Nat} {emin : Int} {q : ℚ} (h : Binary p emin q) : Binary p emin (-q) := by
  obtain ⟨m, e, hm, he, rfl⟩ := h
  exact ⟨-m, e, by rwa [abs_neg], he, by push_cast; ring⟩

theorem Spec.Nearest.neg {p : Nat} {emin : Int} {q r : ℚ} (h : Nearest p emin q r) :
    Nearest p emin (-q) (-r) := by
  obtain ⟨h1, h2, h3⟩ := h
  have flip : ∀ s : ℚ, |s - -q| = |-s - q| := fun s => by rw [← abs_neg]; congr 1; ring
  have flip' : |-r - -q| = |r - q| := by rw [← abs_neg]; congr 1; ring
  refine ⟨h1.neg, fun s hs => ?_, fun s hs hne he => ?_⟩
  · rw [flip', flip]; exact h2 _ hs.neg
  · rw [flip, flip'] at he
    exact (h3 _ hs.neg (fun c => hne (by rw [← c, neg_neg])) he).neg

theorem nearest_zero (p : Nat) (emin : Int) : Nearest p emin 0 0 := by
  refine ⟨⟨0, emin, by simp, le_rfl, by simp⟩, fun s _ => by simp, fun s _ hne he => ?_⟩
  simp at he; exact absurd he hne

/-- Rounding answers the nearest number of the format, ties to even. -/
theorem roundQ_nearest {p : Nat} (hp : 1 < p) (emin : Int) (q : ℚ) : Nearest p emin q (roundQ p emin q) := by
  unfold roundQ
  split_ifs with h1 h2
  · have := (roundPos_nearest (p := p) (emin := emin) hp (q := -q) (by linarith)).neg
    rwa [neg_neg] at this
  · rw [h2]; exact nearest_zero _ _
  · exact roundPos_nearest hp (lt_of_le_of_ne (not_lt.mp h1) (Ne.symm h2))

/-- There is only one nearest number. -/
theorem nearest_unique_pos {p : Nat} {emin : Int} {q r : ℚ} (hp : 1 < p) (hq : 0 < q)
    (h : Nearest p emin q r) : r = roundPos p emin q := by
  by_contra hne
  have hp0 : 0 < p := by omega
  obtain ⟨g1, n1, t1⟩ := h
  obtain ⟨g2, n2, _⟩ := roundPos_nearest (p := p) (emin := emin) hp hq
  have heq : |r - q| = |roundPos p emin q - q| := le_antisymm (n1 _ g2) (n2 _ g1)
  have hhalf := (roundPos_other hp0 hq ((binary_iff hp0).mp g1) hne).2 heq
  obtain ⟨K, hK2⟩ : 2 ∣ roundHalfEven (q / pow2 (ulpExp p emin q)) :=
    roundHalfEven_scaled_tie (pow2_pos _) hhalf
  have hR : roundPos p emin q = (2 * K : Int) * pow2 (ulpExp p emin q) := by rw [← hK2]; rfl
  obtain ⟨m, e, hm, he, hr⟩ := t1 _ g2 (Ne.symm hne) heq.symm
  rw [← pow2_eq] at hr
  set w := ulpExp p emin q with hw
  have hu : 0 < pow2 w := pow2_pos _
  rw [hhalf] at heq
  -- both are half a last place away, on different sides: a last place apart
  have hapart : r = roundPos p emin q + pow2 w ∧ q < r ∨ r = roundPos p emin q - pow2 w ∧ r = q - pow2 w / 2 := by
    rcases abs_choice (r - q) with c1 | c1 <;> rcases abs_choice (roundPos p emin q - q) with c2 | c2 <;>
      rw [c1] at heq <;> rw [c2] at hhalf
    · exact absurd (by linarith) hne
    · exact .inl ⟨by linarith, by linarith⟩
    · exact .inr ⟨by linarith, by linarith⟩
    · exact absurd (by linarith) hne
  -- so `r` is an odd multiple of the last place
  obtain ⟨j, hj⟩ : ∃ j : Int, r = (2 * j + 1 : Int) * pow2 w := by
    rcases hapart with ⟨h1, _⟩ | ⟨h1, _⟩
    · exact ⟨K, by rw [h1, hR]; push_cast; ring⟩
    · exact ⟨K - 1, by rw [h1, hR]; push_cast; ring⟩
  by_cases hle : w + 1 ≤ e
  · obtain ⟨d, hd⟩ := Int.eq_ofNat_of_zero_le (show 0 ≤ e - (w + 1) by omega)
    have e1 : e = d + (1 + w) := by omega
    have : ((2 * j + 1 : Int) : ℚ) = ((m * 2 ^ d * 2 : Int) : ℚ) := by
      have h2 : ((2 * j + 1 : Int) : ℚ) * pow2 w = ((m * 2 ^ d * 2 : Int) : ℚ) * pow2 w := by
        rw [← hj, hr, e1, pow2_add, pow2_add, pow2_nat, show pow2 1 = 2 by rw [pow2_eq]; norm_num]
        push_cast; ring
      exact mul_right_cancel₀ hu.ne' h2
    have : 2 * j + 1 = m * 2 ^ d * 2 := by exact_mod_cast this
    omega
  · have hwe : w = ilog2 q - (p - 1) := by
      rw [hw]; rw [hw] at hle; unfold ulpExp at hle ⊢; omega
    have hB : pow2 (ilog2 q) = ((2 ^ (p - 1) : Int) : ℚ) * pow2 w := by
      rw [← pow2_nat, ← pow2_add, hwe]; congr 1; omega
    have hlt : r < pow2 (ilog2 q) := by
      rw [hr, hB]
      have h1 : (m : ℚ) < ((2 ^ (p - 1) : Int) : ℚ) := by
        have := lt_of_le_of_lt (le_abs_self m) hm
        exact_mod_cast this
      have h2 : pow2 e ≤ pow2 w := pow2_le (by omega)
      have h3 : (0 : ℚ) < ((2 ^ (p - 1) : Int) : ℚ) := by positivity
      calc (m : ℚ) * pow2 e < ((2 ^ (p - 1) : Int) : ℚ) * pow2 e := mul_lt_mul_of_pos_right h1 (pow2_pos e)
        _ ≤ _ := mul_le_mul_of_nonneg_left h2 h3.le
    have hqB := (ilog2_spec hq).1
    rcases hapart with ⟨_, h1⟩ | ⟨_, h1⟩
    · linarith
    · -- `r` and the power of two are multiples of the last place
      have h2 : r + pow2 w ≤ pow2 (ilog2 q) := by
        rw [hj, hB] at hlt ⊢
        have h3 := lt_of_mul_lt_mul_right hlt hu.le
        have h4 : (2 * j + 1 : Int) + 1 ≤ 2 ^ (p - 1) := by exact_mod_cast h3
        have h5 : (((2 * j + 1 : Int) : ℚ) + 1) ≤ ((2 ^ (p - 1) : Int) : ℚ) := by exact_mod_cast h4
        calc _ = (((2 * j + 1 : Int) : ℚ) + 1) * pow2 w := by ring
          _ ≤ _ := mul_le_mul_of_nonneg_right h5 hu.le
      linarith

/-- There is exactly one nearest number, and rounding answers it. -/
theorem nearest_iff {p : Nat} (hp : 1 < p) {emin : Int} {q r : ℚ} :
    Nearest p emin q r ↔ r = roundQ p emin q := by
  constructor
  · intro h
    unfold roundQ
    split_ifs with h1 h2
    · have := nearest_unique_pos hp (by linarith) h.neg
      rw [← this, neg_neg]
    · subst h2
      have := h.2.1 0 (nearest_zero p emin).1
      simpa using this
    · exact nearest_unique_pos hp (lt_of_le_of_ne (not_lt.mp h1) (Ne.symm h2)) h
  · rintro rfl; exact roundQ_nearest hp emin q

/-- Rounding to float64 is what `Rounded` says. -/
theorem rounded_iff {neg : Bool} {q : ℚ} {x : F64} : Rounded neg q x ↔ x = F64.ofRat neg q := by
  have hb : pow2 1024 = (2 : ℚ) ^ 1024 := by rw [pow2_eq]; exact zpow_natCast 2 1024
  unfold Rounded F64.ofRat
  simp only [← hb]
  constructor
  · rintro ⟨r, hn, h⟩
    obtain rfl := (nearest_iff (by norm_num)).mp hn
    rcases h with ⟨h1, rfl⟩ | ⟨h1, h2, rfl⟩ | ⟨h1, h2, h3, rfl⟩
    · rw [dif_neg (not_lt.mpr h1)]
    · have h4 : |roundQ 53 (-1074) q| < pow2 1024 := by rw [h1, abs_zero]; exact pow2_pos _
      rw [dif_pos h4, if_pos ⟨h1, h2⟩]
    · rw [dif_pos h1, if_neg h2]
  · rintro rfl
    refine ⟨_, roundQ_nearest (by norm_num) _ q, ?_⟩
    by_cases h1 : |roundQ 53 (-1074) q| < pow2 1024
    · by_cases h2 : roundQ 53 (-1074) q = 0 ∧ neg = true
      · rw [dif_pos h1, if_pos h2]; exact .inr (.inl ⟨h2.1, h2.2, rfl⟩)
      · rw [dif_pos h1, if_neg h2]; exact .inr (.inr ⟨h1, h2, _, rfl⟩)
    · rw [dif_neg h1]; exact .inl ⟨not_lt.mp h1, rfl⟩

end Gopmml
