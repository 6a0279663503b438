import Verif.Proofs.F64Error
import Verif.Spec.Mix
import Verif.Spec.Sums
import Mathlib.Algebra.BigOperators.Ring.List

/-!
# Sums and mixtures of float64 numbers that are not negative
-/

namespace Gopmml.F64
open Gopmml Spec

theorem toQ_eq {x : F64} {q : ℚ} (h : x.val = some q) : x.toQ = q := by simp [toQ, h]

theorem Mass.val {x : F64} (h : Mass x) : x.val = some x.toQ := by
  obtain ⟨q, hq, -⟩ := h; rw [toQ_eq hq, hq]

theorem Mass.nonneg {x : F64} (h : Mass x) : 0 ≤ x.toQ := by
  obtain ⟨q, hq, h0⟩ := h; rw [toQ_eq hq]; exact h0

theorem mass_zero : Mass zero ∧ zero.toQ = 0 := ⟨⟨0, rfl, le_rfl⟩, rfl⟩

theorem map_val {xs : List F64} (h : ∀ x ∈ xs, Mass x) : xs.map F64.val = (xs.map toQ).map some := by
  rw [List.map_map]; exact List.map_congr_left fun x hx => (h x hx).val

theorem sum_toQ_nonneg {xs : List F64} (h : ∀ x ∈ xs, Mass x) : 0 ≤ (xs.map toQ).sum := by
  apply List.sum_nonneg
  intro q hq
  obtain ⟨x, hx, rfl⟩ := List.mem_map.mp hq
  exact (h x hx).nonneg

/-- A bound well below overflow, opaque so that nothing unfolds it. -/
@[irreducible] def room : ℚ := pow2 1023

theorem le_room {n : Nat} (h : n ≤ 1023) : (2 : ℚ) ^ n ≤ room := by
  unfold room
  have := pow2_le (show (n : Int) ≤ 1023 by exact_mod_cast h)
  rw [pow2_nat] at this
  exact_mod_cast this

theorem roundQ_lt {q : ℚ} (h0 : 0 ≤ q) (h : q ≤ room) :
    0 ≤ roundQ 53 (-1074) q ∧ |roundQ 53 (-1074) q| < pow2 1024 := by
  have h1 := roundQ_mono (p := 53) (emin := -1074) (by norm_num) h0
  rw [roundQ_zero'] at h1
  unfold room at h
  have h2 := roundQ_mono (p := 53) (emin := -1074) (by norm_num) h
  have h3 : Grid 53 (-1074) (pow2 1023) := by
    refine ⟨1, 1023, by norm_num, by norm_num, ?_⟩
    rw [Int.cast_one, one_mul]
  rw [roundQ_exact (by norm_num) h3] at h2
  refine ⟨h1, ?_⟩
  rw [abs_of_nonneg h1]
  exact lt_of_le_of_lt h2 (pow2_lt_iff.mpr (by decide))

theorem val_of_ext {x : F64} {q : ℚ} (hn : x ≠ nan) (he : ext x = ext (ofRat false q))
    (h : |roundQ 53 (-1074) q| < pow2 1024) : x.val = some (roundQ 53 (-1074) q) := by
  rw [val_ext]
  refine ⟨?_, hn⟩
  rw [he, ext_ofRat, if_pos h]

theorem Mass.add {x y : F64} (hx : Mass x) (hy : Mass y) (h : x.toQ + y.toQ ≤ room) :
    Mass (add x y) ∧ |(add x y).toQ - (x.toQ + y.toQ)| ≤ uu * (x.toQ + y.toQ) := by
  have h0 : 0 ≤ x.toQ + y.toQ := add_nonneg hx.nonneg hy.nonneg
  obtain ⟨h1, h2⟩ := roundQ_lt h0 h
  obtain ⟨h3, h4⟩ := add_finite (val_iff.mp hx.val) (val_iff.mp hy.val)
  have h5 := val_of_ext h3 h4 h2
  refine ⟨⟨_, h5, h1⟩, ?_⟩
  have := add_error hx.val hy.val h5
  rwa [abs_of_nonneg h0, ← toQ_eq h5] at this

theorem Mass.mul {x y : F64} (hx : Mass x) (hy : Mass y) (h : x.toQ * y.toQ ≤ room) :
    Mass (mul x y) ∧ |(mul x y).toQ - x.toQ * y.toQ| ≤ uu * (x.toQ * y.toQ) + eta := by
  have h0 : 0 ≤ x.toQ * y.toQ := mul_nonneg hx.nonneg hy.nonneg
  obtain ⟨h1, h2⟩ := roundQ_lt h0 h
  obtain ⟨h3, h4⟩ := mul_finite (val_iff.mp hx.val) (val_iff.mp hy.val)
  have h5 := val_of_ext h3 h4 h2
  refine ⟨⟨_, h5, h1⟩, ?_⟩
  have := mul_error hx.val hy.val h5
  rwa [abs_of_nonneg h0, ← toQ_eq h5] at this

theorem Mass.foldl {xs : List F64} (h : ∀ x ∈ xs, Mass x) {z : F64} (hz : Mass z)
    (hb : (1 + uu) ^ xs.length * (z.toQ + (xs.map toQ).sum) ≤ room) : Mass (xs.foldl F64.add z) := by
  induction xs generalizing z with
  | nil => exact hz
  | cons x xs ih =>
    have hx := h x (List.mem_cons_self ..)
    have hxs : ∀ x ∈ xs, Mass x := fun y hy => h y (List.mem_cons_of_mem _ hy)
    have hs := sum_toQ_nonneg hxs
    simp only [List.length_cons, List.map_cons, List.sum_cons, pow_succ] at hb
    have hg := pow_one_le xs.length
    have hu := uu_pos
    have hzx : 0 ≤ z.toQ + x.toQ := add_nonneg hz.nonneg hx.nonneg
    generalize (xs.map toQ).sum = S at *
    generalize (1 + uu) ^ xs.length = g at *
    have hle : z.toQ + x.toQ ≤ room := by
      refine _root_.le_trans ?_ hb
      have : (1 : ℚ) ≤ g * (1 + uu) := by nlinarith
      nlinarith
    obtain ⟨h1, h2⟩ := hz.add hx hle
    refine ih hxs h1 (_root_.le_trans ?_ hb)
    have h3 := (abs_le.mp h2).2
    have h4 : (F64.add z x).toQ + S ≤ (1 + uu) * (z.toQ + (x.toQ + S)) := by nlinarith
    calc g * ((F64.add z x).toQ + S) ≤ g * ((1 + uu) * (z.toQ + (x.toQ + S))) :=
          mul_le_mul_of_nonneg_left h4 (by linarith)
      _ = g * (1 + uu) * (z.toQ + (x.toQ + S)) := by ring

/-- A sum of numbers that are not negative. -/
theorem Mass.sum {xs : List F64} (h : ∀ x ∈ xs, Mass x)
    (hb : (1 + uu) ^ xs.length * (xs.map toQ).sum ≤ room) :
    Mass (xs.foldl F64.add zero) ∧
      |(xs.foldl F64.add zero).toQ - (xs.map toQ).sum| ≤ ((1 + uu) ^ xs.length - 1) * (xs.map toQ).sum := by
  have h1 := Mass.foldl h mass_zero.1 (by rw [mass_zero.2, _root_.zero_add]; exact hb)
  refine ⟨h1, ?_⟩
  have := foldl_error (z := zero) (a := 0) rfl (map_val h) h1.val
  have habs : ((xs.map toQ).map (|·|)).sum = (xs.map toQ).sum := by
    rw [List.map_map]
    congr 1
    exact List.map_congr_left fun x hx => abs_of_nonneg (h x hx).nonneg
  rw [habs] at this
  simpa using this

/-! ## Mixtures -/

theorem sumQ_ite_nodup {vals : List String} (hn : vals.Nodup) {k : String} (hk : k ∈ vals) (x : ℚ) :
    (vals.map (fun L => if k = L then x else 0)).sum = x := by
  induction vals with
  | nil => cases hk
  | cons v vals ih =>
    obtain ⟨h1, h2⟩ := List.nodup_cons.mp hn
    rw [List.map_cons, List.sum_cons]
    by_cases h : k = v
    · subst h
      have : (vals.map (fun L => if k = L then x else 0)).sum = 0 := by
        apply List.sum_eq_zero
        intro y hy
        obtain ⟨L, hL, rfl⟩ := List.mem_map.mp hy
        rw [if_neg]
        rintro rfl
        exact h1 hL
      rw [this]; simp
    · rw [if_neg h, _root_.zero_add]
      exact ih h2 ((List.mem_cons.mp hk).resolve_left h)

/-- Summing group by group. -/
theorem sumQ_groups {α : Type} (ws : List α) (k : α → String) (f : α → ℚ) {vals : List String}
    (hn : vals.Nodup) (hk : ∀ w ∈ ws, k w ∈ vals) :
    (vals.map (fun L => ((ws.filter (fun w => k w = L)).map f).sum)).sum = (ws.map f).sum := by
  induction ws with
  | nil => simp
  | cons w ws ih =>
    rw [List.map_cons, List.sum_cons, ← ih (fun a ha => hk a (by simp [ha])),
      ← sumQ_ite_nodup hn (hk w (by simp)) (f w), ← List.sum_map_add]
    congr 2
    funext L
    by_cases h : k w = L <;> simp [h]

theorem sum_error_le {α : Type} (l : List α) (f g e : α → ℚ) (h : ∀ a ∈ l, |f a - g a| ≤ e a) :
    |(l.map f).sum - (l.map g).sum| ≤ (l.map e).sum := by
  induction l with
  | nil => simp
  | cons a l ih =>
    simp only [List.map_cons, List.sum_cons]
    have h1 := h a (List.mem_cons_self ..)
    have h2 := ih (fun b hb => h b (List.mem_cons_of_mem _ hb))
    have := abs_add_le (f a - g a) ((l.map f).sum - (l.map g).sum)
    rw [show f a - g a + ((l.map f).sum - (l.map g).sum) = f a + (l.map f).sum - (g a + (l.map g).sum) by ring] at this
    linarith

theorem pow_le_two {n : Nat} (h : n ≤ 2 ^ 50) : (1 + uu) ^ n ≤ 2 := by
  have h1 := gamma_le h
  have h2 : (n : ℚ) * uu ≤ 1 / 8 := by
    have h1 : (n : ℚ) ≤ 2 ^ 50 := by exact_mod_cast h
    calc (n : ℚ) * uu ≤ 2 ^ 50 * uu := mul_le_mul_of_nonneg_right h1 uu_pos.le
      _ = 1 / 8 := by unfold uu; norm_num
  nlinarith

theorem eta_le_uu : eta ≤ uu := by rw [uu_eq, eta_eq]; exact pow2_le (by norm_num)

theorem uu_le : uu ≤ 1 / 8 := by unfold uu; norm_num

theorem sum_le_length {l : List ℚ} {c : ℚ} (h : ∀ x ∈ l, x ≤ c) : l.sum ≤ l.length * c := by
  induction l with
  | nil => simp
  | cons x l ih =>
    have h1 := h x (List.mem_cons_self ..)
    have h2 := ih (fun y hy => h y (List.mem_cons_of_mem _ hy))
    simp only [List.sum_cons, List.length_cons]
    push_cast
    linarith

/-- A float64 mixture against the exact one: `K` bounds the number of contributions to a label. -/
theorem mixture_error {ws : List (F64 × ScoreDist F64)} {dist : List (ScoreDist F64)} (hm : IsMixture ws dist)
    (hw : ∀ w ∈ ws, Mass w.1 ∧ w.1.toQ ≤ 1 ∧ Mass w.2.probability ∧ w.2.probability.toQ ≤ 2) {K : Nat}
    (hK : ∀ L, (ws.filter (fun w => w.2.value = L)).length ≤ K) (hK' : K ≤ 2 ^ 50) :
    (∀ s ∈ dist, Mass s.probability) ∧
      |(dist.map fun s => s.probability.toQ).sum - (ws.map fun w => (F64.mul w.2.probability w.1).toQ).sum| ≤
        ((1 + uu) ^ K - 1) * (ws.map fun w => (F64.mul w.2.probability w.1).toQ).sum ∧
      (∀ w ∈ ws, Mass (F64.mul w.2.probability w.1)) ∧
      |(ws.map fun w => (F64.mul w.2.probability w.1).toQ).sum -
        (ws.map fun w => w.2.probability.toQ * w.1.toQ).sum| ≤
        uu * (ws.map fun w => w.2.probability.toQ * w.1.toQ).sum + ws.length * eta := by
  have hmul : ∀ w ∈ ws, Mass (F64.mul w.2.probability w.1) ∧
      |(F64.mul w.2.probability w.1).toQ - w.2.probability.toQ * w.1.toQ| ≤
        uu * (w.2.probability.toQ * w.1.toQ) + eta ∧ (F64.mul w.2.probability w.1).toQ ≤ 3 := by
    intro w hmem
    obtain ⟨h1, h2, h3, h4⟩ := hw w hmem
    have h5 : w.2.probability.toQ * w.1.toQ ≤ 2 := by
      have := mul_le_mul h4 h2 h1.nonneg (by norm_num : (0 : ℚ) ≤ 2)
      linarith
    have h6 : (2 : ℚ) ≤ room := by simpa using le_room (n := 1) (by norm_num)
    obtain ⟨h7, h8⟩ := h3.mul h1 (h5.trans h6)
    refine ⟨h7, h8, ?_⟩
    have h9 := (abs_le.mp h8).2
    have h10 := uu_le
    have h11 := eta_le_uu
    have h12 := mul_le_mul_of_nonneg_left h5 uu_pos.le
    linarith
  obtain ⟨hn, hl, hv⟩ := hm
  have hs : ∀ s ∈ dist, Mass s.probability ∧
      |s.probability.toQ - ((ws.filter (fun w => w.2.value = s.value)).map
        fun w => (F64.mul w.2.probability w.1).toQ).sum| ≤
      ((1 + uu) ^ K - 1) * ((ws.filter (fun w => w.2.value = s.value)).map
        fun w => (F64.mul w.2.probability w.1).toQ).sum := by
    intro s hs
    have h1 := (hv s hs _ rfl).2.1
    have hlen := hK s.value
    set ls := ws.filter (fun w => decide (w.2.value = s.value)) with hls
    have hmem : ∀ w ∈ ls, w ∈ ws := fun w hw => (List.mem_filter.mp hw).1
    have h2 : ∀ x ∈ ls.map (fun w => F64.mul w.2.probability w.1), Mass x := by
      intro x hx
      obtain ⟨w, hw', rfl⟩ := List.mem_map.mp hx
      exact (hmul w (hmem w hw')).1
    have h3 : (ls.map fun w => F64.mul w.2.probability w.1).map toQ =
        ls.map fun w => (F64.mul w.2.probability w.1).toQ := by rw [List.map_map]; rfl
    have h4 : s.probability = (ls.map fun w => F64.mul w.2.probability w.1).foldl F64.add zero := by
      rw [h1, Spec.sum, arith_zero]; rfl
    have h5 : (ls.map fun w => (F64.mul w.2.probability w.1).toQ).sum ≤ ls.length * 3 := by
      have := sum_le_length (l := ls.map fun w => (F64.mul w.2.probability w.1).toQ) (c := 3) (by
        intro x hx
        obtain ⟨w, hw', rfl⟩ := List.mem_map.mp hx
        exact (hmul w (hmem w hw')).2.2)
      simpa using this
    have h6 : 0 ≤ (ls.map fun w => (F64.mul w.2.probability w.1).toQ).sum := by
      rw [← h3]; exact sum_toQ_nonneg h2
    have hpow : (1 + uu) ^ ls.length ≤ (1 + uu) ^ K :=
      pow_le_pow_right₀ (by linarith [uu_pos]) hlen
    obtain ⟨h7, h8⟩ := Mass.sum h2 (by
      rw [h3, List.length_map]
      have h9 := pow_le_two (hlen.trans hK')
      have h10 : (ls.length : ℚ) ≤ 2 ^ 50 := by exact_mod_cast hlen.trans hK'
      have h11 : (2 : ℚ) * (2 ^ 50 * 3) ≤ room := by
        refine _root_.le_trans ?_ (le_room (n := 53) (by norm_num))
        norm_num
      refine _root_.le_trans ?_ h11
      have h12 : 0 ≤ (1 + uu) ^ ls.length := by linarith [pow_one_le ls.length]
      exact mul_le_mul h9 (by linarith) h6 (by norm_num))
    rw [h3, List.length_map, ← h4] at h8
    rw [h4]
    refine ⟨h7, ?_⟩
    rw [← h4]
    refine h8.trans ?_
    exact mul_le_mul_of_nonneg_right (by linarith) h6
  refine ⟨fun s h => (hs s h).1, ?_, fun w h => (hmul w h).1, ?_⟩
  · have h1 := sum_error_le dist _ _ _ (fun s h => (hs s h).2)
    have hg := sumQ_groups ws (fun w => w.2.value) (fun w => (F64.mul w.2.probability w.1).toQ) hn
      (fun w hw => (hl _).mpr (List.mem_map.mpr ⟨w, hw, rfl⟩))
    rw [List.map_map] at hg
    have h2 : (dist.map fun s => ((ws.filter (fun w => w.2.value = s.value)).map
        fun w => (F64.mul w.2.probability w.1).toQ).sum).sum =
        (ws.map fun w => (F64.mul w.2.probability w.1).toQ).sum := hg
    rw [List.sum_map_mul_left, h2] at h1
    exact h1
  · have h1 := sum_error_le ws _ _ _ (fun w h => (hmul w h).2.1)
    refine h1.trans (le_of_eq ?_)
    rw [List.sum_map_add, List.sum_map_mul_left]
    simp

/-! ## Whole numbers -/

theorem Whole.mass {x : F64} (h : Whole x) : Mass x := by
  obtain ⟨n, hn⟩ := h; exact ⟨n, hn, by positivity⟩

theorem rep_whole {n : Nat} (h : n ≤ 2 ^ 53) : Grid 53 (-1074) (n : ℚ) := by
  refine ⟨n, 0, ?_, by norm_num, by simp [pow2]⟩
  rw [abs_of_nonneg (by positivity)]
  exact_mod_cast h

/-- Sums of whole numbers are exact up to `2^53`. -/
theorem whole_foldl {xs : List F64} (h : ∀ x ∈ xs, Whole x) {z : F64} {k : Nat} (hz : z.val = some (k : ℚ))
    (hb : (k : ℚ) + (xs.map toQ).sum ≤ 2 ^ 53) :
    Whole (xs.foldl F64.add z) ∧ (xs.foldl F64.add z).toQ = k + (xs.map toQ).sum := by
  induction xs generalizing z k with
  | nil => exact ⟨⟨k, hz⟩, by simp [toQ_eq hz]⟩
  | cons x xs ih =>
    obtain ⟨n, hn⟩ := h x (List.mem_cons_self ..)
    have hxs : ∀ x ∈ xs, Whole x := fun y hy => h y (List.mem_cons_of_mem _ hy)
    have hs := sum_toQ_nonneg (fun y hy => (hxs y hy).mass)
    simp only [List.map_cons, List.sum_cons, toQ_eq hn] at hb ⊢
    have hkn : ((k + n : Nat) : ℚ) ≤ 2 ^ 53 := by push_cast; linarith
    have hx : Mass x := ⟨n, hn, by positivity⟩
    have hz' : Mass z := ⟨k, hz, by positivity⟩
    obtain ⟨⟨c, hc, -⟩, -⟩ := hz'.add hx (by
      rw [toQ_eq hn, toQ_eq hz]
      refine _root_.le_trans ?_ (le_room (n := 53) (by norm_num))
      push_cast at hkn; exact hkn)
    have hcv := add_val hz hn hc
    rw [show (k : ℚ) + n = ((k + n : Nat) : ℚ) by push_cast; rfl,
      roundQ_exact (by norm_num) (rep_whole (by exact_mod_cast hkn))] at hcv
    rw [hcv] at hc
    obtain ⟨h1, h2⟩ := ih hxs hc (by push_cast; linarith)
    refine ⟨h1, ?_⟩
    rw [List.foldl_cons, h2]; push_cast; ring

theorem whole_sum {xs : List F64} (h : ∀ x ∈ xs, Whole x) (hb : (xs.map toQ).sum ≤ 2 ^ 53) :
    Whole (xs.foldl F64.add zero) ∧ (xs.foldl F64.add zero).toQ = (xs.map toQ).sum := by
  obtain ⟨h1, h2⟩ := whole_foldl (z := zero) (k := 0) h (by rw [Nat.cast_zero]; rfl) (by simpa using hb)
  exact ⟨h1, by simpa using h2⟩

/-- Finite numbers other than nought are given by what they denote. -/
theorem toQ_inj {x y : F64} (hx : Mass x) (hy : Mass y) (h : x.toQ = y.toQ) (h0 : x.toQ ≠ 0) : x = y := by
  have h1 := hx.val
  have h2 := hy.val
  rw [← h] at h2
  rcases val_iff.mp h1 with ⟨-, h3⟩ | ⟨h3, h4⟩
  · exact absurd h3 h0
  · rcases val_iff.mp h2 with ⟨-, h5⟩ | ⟨h5, h6⟩
    · exact absurd h5 h0
    · rw [h4, h6]

/-- Multiplying by one changes nothing. -/
theorem mass_mul_one {x p : F64} (hx : Mass x) (hp : p.val = some 1) : Mass (F64.mul x p) ∧ (F64.mul x p).toQ = x.toQ := by
  have hp' : Mass p := ⟨1, hp, by norm_num⟩
  have hr : Rep x.toQ := by
    rcases val_iff.mp hx.val with ⟨-, h⟩ | ⟨h, -⟩
    · rw [h]; exact rep_zero
    · exact h
  have hrd : roundQ 53 (-1074) (x.toQ * 1) = x.toQ := by rw [_root_.mul_one]; exact roundQ_exact (by norm_num) hr.1
  obtain ⟨h3, h4⟩ := mul_finite (val_iff.mp hx.val) (val_iff.mp hp)
  have h5 := val_of_ext h3 h4 (by rw [hrd]; exact hr.2)
  rw [hrd] at h5
  exact ⟨⟨_, h5, hx.nonneg⟩, toQ_eq h5⟩

/-- `shares_error` for the total view of values. -/
theorem shares_mass {xs : List F64} {b : ℚ} (hm : ∀ x ∈ xs, Mass x)
    (ht : (xs.foldl F64.add zero).val = some b) (hb : b ≠ 0) (hl : xs.length ≤ 2 ^ 50) :
    (∀ x ∈ xs, Mass (F64.div x (xs.foldl F64.add zero)) ∧ (F64.div x (xs.foldl F64.add zero)).toQ ≤ 1) ∧
      |(xs.map fun x => (F64.div x (xs.foldl F64.add zero)).toQ).sum - 1| ≤ 3 * (xs.length + 1) * uu := by
  obtain ⟨ps, hps, h01, hs⟩ := shares_error (map_val hm) (by
    intro q hq
    obtain ⟨x, hx, rfl⟩ := List.mem_map.mp hq
    exact (hm x hx).nonneg) ht hb hl
  generalize xs.foldl F64.add zero = t at *
  have hps' : (xs.map fun x => (F64.div x t).toQ) = ps := by
    have := congrArg (List.map fun o : Option ℚ => o.getD 0) hps
    simp only [List.map_map] at this
    simpa [Function.comp_def, toQ] using this
  rw [hps']
  refine ⟨fun x hx => ?_, hs⟩
  have h1 : (F64.div x t).val ∈ ps.map some := by
    rw [← hps, List.map_map]; exact List.mem_map.mpr ⟨x, hx, rfl⟩
  obtain ⟨p, hp, he⟩ := List.mem_map.mp h1
  obtain ⟨h2, h3⟩ := h01 p hp
  exact ⟨⟨p, he.symm, h2⟩, by rw [toQ_eq he.symm]; exact h3⟩

end Gopmml.F64
