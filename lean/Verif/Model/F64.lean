import Mathlib.Algebra.Order.Floor.Ring
import Mathlib.Data.Rat.Floor
import Mathlib.Algebra.Order.Ring.Rat
import Mathlib.Algebra.Order.Field.Basic
import Mathlib.Algebra.Order.Field.Power
import Mathlib.Tactic.Linarith
import Mathlib.Tactic.Positivity
import Mathlib.Tactic.FieldSimp
import Mathlib.Tactic.Ring
import Mathlib.Tactic.NormNum
import Mathlib.Tactic.Zify
import Verif.Model.Value

/-!
# IEEE 754 binary64 (Go's `float64`), exactly

A finite float64 is a rational number of the form `m * 2^e` with `|m| ≤ 2^53`,
`-1074 ≤ e`, below `2^1024`.  Operations are the exact rational operation followed
by rounding to nearest, ties to even.  Go permits fusing `x*y + z`; the model is
unfused (as on amd64).  NaN payloads are not modelled.
-/

namespace Gopmml

/-- `2^e` computed with natural number powers. -/
def pow2 (e : Int) : ℚ :=
  if 0 ≤ e then ((2 ^ e.toNat : Nat) : ℚ) else (mkRat 1 (2 ^ (-e).toNat))

theorem pow2_eq (e : Int) : pow2 e = (2 : ℚ) ^ e := by
  unfold pow2
  split
  · rename_i h
    obtain ⟨n, rfl⟩ := Int.eq_ofNat_of_zero_le h
    simp
  · rename_i h
    obtain ⟨n, hn⟩ := Int.eq_ofNat_of_zero_le (show 0 ≤ -e by omega)
    have : e = -(n : Int) := by omega
    subst this
    simp [Rat.mkRat_eq_div]

theorem pow2_pos (e : Int) : 0 < pow2 e := by rw [pow2_eq]; positivity

theorem pow2_add (a b : Int) : pow2 (a + b) = pow2 a * pow2 b := by
  simp only [pow2_eq]; exact zpow_add₀ (by norm_num) a b

theorem pow2_le {a b : Int} (h : a ≤ b) : pow2 a ≤ pow2 b := by
  simp only [pow2_eq]; exact zpow_le_zpow_right₀ (by norm_num) h

theorem pow2_lt_iff {a b : Int} : pow2 a < pow2 b ↔ a < b := by
  simp only [pow2_eq]; exact zpow_lt_zpow_iff_right₀ (by norm_num)

/-- `⌊log₂ q⌋` for positive `q`. -/
def ilog2 (q : ℚ) : Int :=
  let e : Int := (Nat.log2 q.num.natAbs : Int) - (Nat.log2 q.den : Int)
  if pow2 e ≤ q then e else e - 1

theorem nat_log2_spec {n : Nat} (h : n ≠ 0) :
    pow2 (Nat.log2 n) ≤ n ∧ (n : ℚ) < pow2 (Nat.log2 n + 1) := by
  constructor
  · rw [pow2_eq, zpow_natCast]; exact_mod_cast Nat.log2_self_le h
  · have : n < 2 ^ (Nat.log2 n + 1) := Nat.lt_log2_self
    rw [pow2_eq, show ((Nat.log2 n : Int) + 1) = ((Nat.log2 n + 1 : Nat) : Int) by simp,
      zpow_natCast]
    exact_mod_cast this

theorem ilog2_spec {q : ℚ} (h : 0 < q) : pow2 (ilog2 q) ≤ q ∧ q < pow2 (ilog2 q + 1) := by
  have hn : q.num.natAbs ≠ 0 := by
    have := Rat.num_pos.mpr h; omega
  have hd := q.den_nz
  obtain ⟨n1, n2⟩ := nat_log2_spec hn
  obtain ⟨d1, d2⟩ := nat_log2_spec hd
  have hq : q = (q.num.natAbs : ℚ) / (q.den : ℚ) := by
    have h1 : (q.num.natAbs : ℚ) = (q.num : ℚ) := by
      have := Rat.num_pos.mpr h
      have h2 : ((q.num.natAbs : Int)) = q.num := Int.natAbs_of_nonneg this.le
      rw [← h2]; exact (Int.cast_natCast _).symm
    rw [h1]; exact (Rat.num_div_den q).symm
  have hdpos : (0 : ℚ) < q.den := by exact_mod_cast q.den_pos
  set a := Nat.log2 q.num.natAbs with ha
  set b := Nat.log2 q.den with hb
  have hup : q < pow2 ((a : Int) - b + 1) := by
    have e1 : pow2 ((a : Int) + 1) = pow2 ((a : Int) - b + 1) * pow2 b := by
      rw [← pow2_add]; congr 1; ring
    rw [hq, div_lt_iff₀ hdpos]
    calc (q.num.natAbs : ℚ) < pow2 ((a : Int) + 1) := n2
      _ = pow2 ((a : Int) - b + 1) * pow2 b := e1
      _ ≤ pow2 ((a : Int) - b + 1) * q.den := by
          apply mul_le_mul_of_nonneg_left d1 (pow2_pos _).le
  have hlo : pow2 ((a : Int) - b - 1) ≤ q := by
    have e1 : pow2 (a : Int) = pow2 ((a : Int) - b - 1) * pow2 ((b : Int) + 1) := by
      rw [← pow2_add]; congr 1; ring
    rw [hq, le_div_iff₀ hdpos]
    calc pow2 ((a : Int) - b - 1) * q.den ≤ pow2 ((a : Int) - b - 1) * pow2 ((b : Int) + 1) :=
          mul_le_mul_of_nonneg_left d2.le (pow2_pos _).le
      _ = pow2 (a : Int) := e1.symm
      _ ≤ q.num.natAbs := n1
  unfold ilog2
  simp only [← ha, ← hb]
  split
  · rename_i hle
    exact ⟨hle, hup⟩
  · rename_i hle
    refine ⟨hlo, ?_⟩
    have : (a : Int) - b - 1 + 1 = a - b := by ring
    rw [this]; exact not_le.mp hle

theorem ilog2_mono {x y : ℚ} (hx : 0 < x) (h : x ≤ y) : ilog2 x ≤ ilog2 y := by
  have hy := lt_of_lt_of_le hx h
  have h1 := (ilog2_spec hx).1
  have h2 := (ilog2_spec hy).2
  have : pow2 (ilog2 x) < pow2 (ilog2 y + 1) := lt_of_le_of_lt (h1.trans h) h2
  rw [pow2_lt_iff] at this; omega

theorem ilog2_lt {x : ℚ} (hx : 0 < x) {k : Int} (h : x < pow2 k) : ilog2 x < k := by
  have h1 := (ilog2_spec hx).1
  exact pow2_lt_iff.mp (lt_of_le_of_lt h1 h)

/-- Round to the nearest integer, ties to even. -/
def roundHalfEven (q : ℚ) : Int :=
  if q - (⌊q⌋ : ℚ) < 1 / 2 then ⌊q⌋
  else if 1 / 2 < q - (⌊q⌋ : ℚ) then ⌊q⌋ + 1
  else if ⌊q⌋ % 2 = 0 then ⌊q⌋
  else ⌊q⌋ + 1

theorem roundHalfEven_int (n : Int) : roundHalfEven (n : ℚ) = n := by
  unfold roundHalfEven; simp

theorem roundHalfEven_cases (q : ℚ) :
    roundHalfEven q = ⌊q⌋ ∨ roundHalfEven q = ⌊q⌋ + 1 := by
  unfold roundHalfEven; split_ifs <;> simp only [true_or, or_true]

/-- The rounded integer is at distance at most 1/2. -/
theorem roundHalfEven_dist (q : ℚ) : |(roundHalfEven q : ℚ) - q| ≤ 1 / 2 := by
  have h1 := Int.floor_le q
  have h2 := Int.lt_floor_add_one q
  unfold roundHalfEven
  split_ifs with a b c
  · rw [abs_le]; constructor <;> linarith
  · push_cast; rw [abs_le]; constructor <;> linarith
  · rw [abs_le]; constructor <;> linarith
  · push_cast; rw [abs_le]; constructor <;> linarith

theorem roundHalfEven_mono {x y : ℚ} (h : x ≤ y) : roundHalfEven x ≤ roundHalfEven y := by
  rcases lt_trichotomy ⌊x⌋ ⌊y⌋ with hlt | heq | hgt
  · rcases roundHalfEven_cases x with hx | hx <;> rcases roundHalfEven_cases y with hy | hy <;>
      rw [hx, hy] <;> omega
  · unfold roundHalfEven; simp only [heq]
    split_ifs <;> first | omega | (exfalso; linarith)
  · exact absurd (Int.floor_le_floor h) (by omega)

/-- The exponent of the last place of a positive number, for precision `p` and
minimal exponent `emin`. -/
def ulpExp (p : Nat) (emin : Int) (q : ℚ) : Int := max (ilog2 q - (p - 1)) emin

/-- Round a positive rational to precision `p`, unbounded above. -/
def roundPos (p : Nat) (emin : Int) (q : ℚ) : ℚ :=
  let e := ulpExp p emin q
  roundHalfEven (q / pow2 e) * pow2 e

/-- Round a rational to precision `p`, unbounded above. -/
def roundQ (p : Nat) (emin : Int) (q : ℚ) : ℚ :=
  if q < 0 then -roundPos p emin (-q) else if q = 0 then 0 else roundPos p emin q

/-- The numbers `m * 2^e` with `|m| ≤ 2^p` and `emin ≤ e`. -/
def Grid (p : Nat) (emin : Int) (q : ℚ) : Prop :=
  ∃ m e : Int, |m| ≤ 2 ^ p ∧ emin ≤ e ∧ q = m * pow2 e

theorem Grid.neg {p emin q} (h : Grid p emin q) : Grid p emin (-q) := by
  obtain ⟨m, e, hm, he, rfl⟩ := h
  exact ⟨-m, e, by simpa using hm, he, by push_cast; ring⟩

theorem Grid.zero (p : Nat) (emin : Int) : Grid p emin 0 := ⟨0, emin, by positivity, le_refl _, by simp⟩

theorem scaled_lt {p : Nat} {emin : Int} {q : ℚ} (h : 0 < q) :
    0 < q / pow2 (ulpExp p emin q) ∧ q / pow2 (ulpExp p emin q) < pow2 p := by
  have hpos := pow2_pos (ulpExp p emin q)
  refine ⟨div_pos h hpos, ?_⟩
  rw [div_lt_iff₀ hpos, ← pow2_add]
  refine lt_of_lt_of_le (ilog2_spec h).2 (pow2_le ?_)
  have : ilog2 q - (p - 1) ≤ ulpExp p emin q := le_max_left _ _
  omega

theorem pow2_nat (n : Nat) : pow2 n = ((2 ^ n : Int) : ℚ) := by
  rw [pow2_eq]; push_cast; exact zpow_natCast 2 n

theorem roundPos_nonneg {p emin q} (h : 0 < q) : 0 ≤ roundPos p emin q := by
  unfold roundPos
  have h1 : (0 : Int) ≤ roundHalfEven (q / pow2 (ulpExp p emin q)) := by
    have := roundHalfEven_mono (x := ((0 : Int) : ℚ)) (y := q / pow2 (ulpExp p emin q))
      (by push_cast; exact (div_pos h (pow2_pos _)).le)
    rwa [roundHalfEven_int] at this
  have h2 := (pow2_pos (ulpExp p emin q)).le
  have h3 : (0 : ℚ) ≤ (roundHalfEven (q / pow2 (ulpExp p emin q)) : ℚ) := by exact_mod_cast h1
  exact mul_nonneg h3 h2

theorem roundPos_scaled_le {p : Nat} {emin : Int} {q : ℚ} (h : 0 < q) :
    roundHalfEven (q / pow2 (ulpExp p emin q)) ≤ 2 ^ p := by
  have h1 := (scaled_lt (p := p) (emin := emin) h).2.le
  rw [pow2_nat] at h1
  have := roundHalfEven_mono h1
  rwa [roundHalfEven_int] at this

theorem roundPos_grid {p : Nat} {emin : Int} {q : ℚ} (h : 0 < q) :
    Grid p emin (roundPos p emin q) := by
  refine ⟨_, ulpExp p emin q, ?_, le_max_right _ _, rfl⟩
  rw [abs_of_nonneg]
  · exact roundPos_scaled_le h
  · have := roundPos_nonneg (p := p) (emin := emin) h
    unfold roundPos at this
    have h3 := nonneg_of_mul_nonneg_left this (pow2_pos _)
    exact_mod_cast h3

theorem roundQ_grid {p : Nat} (emin : Int) (q : ℚ) : Grid p emin (roundQ p emin q) := by
  unfold roundQ
  split_ifs with h1 h2
  · exact (roundPos_grid (p := p) (by linarith)).neg
  · exact .zero _ _
  · exact roundPos_grid (p := p) (lt_of_le_of_ne (not_lt.mp h1) (Ne.symm h2))

/-- Rounding keeps grid numbers. -/
theorem roundPos_exact {p : Nat} (hp : 0 < p) {emin : Int} {q : ℚ} (h : 0 < q)
    (hg : Grid p emin q) : roundPos p emin q = q := by
  -- it is enough that `q` is an integer multiple of its ulp
  suffices hs : ∃ k : Int, q = k * pow2 (ulpExp p emin q) by
    obtain ⟨k, hk⟩ := hs
    have hpos := pow2_pos (ulpExp p emin q)
    have : q / pow2 (ulpExp p emin q) = k := by
      rw [div_eq_iff hpos.ne']; exact hk
    unfold roundPos
    simp only [this, roundHalfEven_int]
    exact hk.symm
  -- reduce to |m| < 2^p
  have hg' : ∃ m e : Int, |m| < 2 ^ p ∧ emin ≤ e ∧ q = m * pow2 e := by
    obtain ⟨m, e, hm, he, hq⟩ := hg
    by_cases hlt : |m| < 2 ^ p
    · exact ⟨m, e, hlt, he, hq⟩
    · have hmeq : |m| = 2 ^ p := le_antisymm hm (not_lt.mp hlt)
      have hmpos : 0 < m := by
        by_contra hneg
        have : (m : ℚ) ≤ 0 := by exact_mod_cast not_lt.mp hneg
        have := mul_nonpos_of_nonpos_of_nonneg this (pow2_pos e).le
        linarith
      rw [abs_of_pos hmpos] at hmeq
      obtain ⟨p', rfl⟩ : ∃ p', p = p' + 1 := ⟨p - 1, by omega⟩
      refine ⟨2 ^ p', e + 1, ?_, by omega, ?_⟩
      · rw [abs_of_pos (by positivity)]; exact pow_lt_pow_right₀ (by norm_num) (by omega)
      · rw [hq, hmeq, pow2_add]
        have : pow2 1 = 2 := by rw [pow2_eq]; norm_num
        rw [this]; push_cast; ring
  obtain ⟨m, e, hm, he, hq⟩ := hg'
  have hle : ulpExp p emin q ≤ e := by
    refine max_le ?_ he
    have : q < pow2 (p + e) := by
      rw [pow2_add, pow2_nat, hq]
      apply mul_lt_mul_of_pos_right _ (pow2_pos e)
      have := lt_of_le_of_lt (le_abs_self m) hm
      exact_mod_cast this
    have := ilog2_lt h this
    omega
  obtain ⟨d, hd⟩ := Int.eq_ofNat_of_zero_le (show 0 ≤ e - ulpExp p emin q by omega)
  refine ⟨m * 2 ^ d, ?_⟩
  have : e = d + ulpExp p emin q := by omega
  conv_lhs => rw [hq, this, pow2_add, pow2_nat]
  push_cast; ring

theorem roundQ_exact {p : Nat} (hp : 0 < p) {emin : Int} {q : ℚ} (hg : Grid p emin q) :
    roundQ p emin q = q := by
  unfold roundQ
  split_ifs with h1 h2
  · rw [roundPos_exact hp (by linarith) hg.neg]; ring
  · exact h2.symm
  · exact roundPos_exact hp (lt_of_le_of_ne (not_lt.mp h1) (Ne.symm h2)) hg

theorem roundPos_mono {p : Nat} (hp : 0 < p) {emin : Int} {x y : ℚ} (hx : 0 < x) (h : x ≤ y) :
    roundPos p emin x ≤ roundPos p emin y := by
  have hy := lt_of_lt_of_le hx h
  have hlog := ilog2_mono hx h
  have hu : ulpExp p emin x ≤ ulpExp p emin y := by unfold ulpExp; omega
  rcases eq_or_lt_of_le hu with heq | hlt
  · unfold roundPos
    simp only [heq]
    apply mul_le_mul_of_nonneg_right _ (pow2_pos _).le
    have := roundHalfEven_mono (div_le_div_of_nonneg_right h (pow2_pos (ulpExp p emin y)).le)
    exact_mod_cast this
  · -- x rounds to at most 2^(p + ux), y to at least 2^(p - 1 + uy)
    have h1 : roundPos p emin x ≤ pow2 (p + ulpExp p emin x) := by
      unfold roundPos
      rw [pow2_add, pow2_nat]
      apply mul_le_mul_of_nonneg_right _ (pow2_pos _).le
      have := roundPos_scaled_le (p := p) (emin := emin) hx
      exact_mod_cast this
    have h2 : pow2 ((p - 1 : Nat) + ulpExp p emin y) ≤ roundPos p emin y := by
      unfold roundPos
      rw [pow2_add]
      apply mul_le_mul_of_nonneg_right _ (pow2_pos _).le
      have hn : ulpExp p emin y = ilog2 y - (p - 1) := by
        unfold ulpExp at hlt ⊢; omega
      have hge : pow2 ((p - 1 : Nat) : Int) ≤ y / pow2 (ulpExp p emin y) := by
        rw [le_div_iff₀ (pow2_pos _), ← pow2_add]
        refine le_trans (pow2_le ?_) (ilog2_spec hy).1
        omega
      rw [pow2_nat] at hge ⊢
      have := roundHalfEven_mono hge
      rw [roundHalfEven_int] at this
      exact_mod_cast this
    refine h1.trans (le_trans (pow2_le ?_) h2)
    omega

theorem roundPos_nonneg' {p emin q} (h : 0 ≤ q) : 0 ≤ roundPos p emin q := by
  rcases eq_or_lt_of_le h with rfl | h
  · unfold roundPos; simp only [zero_div]
    have : roundHalfEven 0 = 0 := by have := roundHalfEven_int 0; simpa using this
    simp [this]
  · exact roundPos_nonneg h

theorem roundQ_nonneg {p emin q} (h : 0 ≤ q) : 0 ≤ roundQ p emin q := by
  unfold roundQ
  rw [if_neg (not_lt.mpr h)]
  split_ifs
  · exact le_refl _
  · exact roundPos_nonneg' h

theorem roundQ_neg (p emin q) : roundQ p emin (-q) = -roundQ p emin q := by
  unfold roundQ
  rcases lt_trichotomy q 0 with h | rfl | h
  · have : ¬ (-q < 0) := by linarith
    have h3 : -q ≠ 0 := by linarith
    simp [h, h.le, h.ne]
  · simp
  · have : ¬ (q < 0) := by linarith
    simp [h, h.ne', this]

/-- Rounding is monotone. -/
theorem roundQ_mono {p : Nat} (hp : 0 < p) {emin : Int} {x y : ℚ} (h : x ≤ y) :
    roundQ p emin x ≤ roundQ p emin y := by
  rcases lt_or_ge x 0 with hx | hx
  · rcases lt_or_ge y 0 with hy | hy
    · have h1 : roundPos p emin (-y) ≤ roundPos p emin (-x) :=
        roundPos_mono hp (by linarith) (by linarith)
      unfold roundQ; rw [if_pos hx, if_pos hy]; linarith
    · have h1 : roundQ p emin x ≤ 0 := by
        have := roundQ_nonneg (p := p) (emin := emin) (q := -x) (by linarith)
        rw [roundQ_neg] at this; linarith
      exact h1.trans (roundQ_nonneg hy)
  · rcases eq_or_lt_of_le hx with rfl | hx
    · have : roundQ p emin 0 = 0 := by simp [roundQ]
      rw [this]; exact roundQ_nonneg h
    · unfold roundQ
      rw [if_neg (by linarith), if_neg hx.ne', if_neg (by linarith), if_neg (by linarith)]
      exact roundPos_mono hp hx h

/-- A nonzero number rounds to the nearest multiple of its last place. -/
theorem roundQ_dist {p : Nat} {emin : Int} {q : ℚ} (h : q ≠ 0) :
    |roundQ p emin q - q| ≤ pow2 (ulpExp p emin |q|) / 2 := by
  have key : ∀ q : ℚ, 0 < q → |roundPos p emin q - q| ≤ pow2 (ulpExp p emin q) / 2 := by
    intro q hq
    have hpos := pow2_pos (ulpExp p emin q)
    have h1 := roundHalfEven_dist (q / pow2 (ulpExp p emin q))
    have h2 : roundPos p emin q - q =
        ((roundHalfEven (q / pow2 (ulpExp p emin q)) : ℚ) - q / pow2 (ulpExp p emin q)) *
          pow2 (ulpExp p emin q) := by
      unfold roundPos; field_simp
    rw [h2, abs_mul, abs_of_pos hpos]
    calc _ ≤ 1 / 2 * pow2 (ulpExp p emin q) := mul_le_mul_of_nonneg_right h1 hpos.le
      _ = _ := by ring
  rcases lt_or_gt_of_ne h with hq | hq
  · have := key (-q) (by linarith)
    rw [abs_of_neg hq]
    unfold roundQ; rw [if_pos hq]
    have e : -roundPos p emin (-q) - q = -(roundPos p emin (-q) - -q) := by ring
    rw [e, abs_neg]; exact this
  · rw [abs_of_pos hq]
    unfold roundQ; rw [if_neg (by linarith), if_neg hq.ne']; exact key q hq

/-- Representable as a finite float64. -/
def Rep (q : ℚ) : Prop := Grid 53 (-1074) q ∧ |q| < pow2 1024

/-- Go `float64` values.  `fin 0` is `+0`. -/
inductive F64 where
  | nan
  | inf (neg : Bool)
  | negZero
  | fin (q : ℚ) (h : Rep q)
  deriving DecidableEq

namespace F64

/-- Round the exact result `q` to float64; `neg` is the sign of a zero result. -/
def ofRat (neg : Bool) (q : ℚ) : F64 :=
  let r := roundQ 53 (-1074) q
  if h : |r| < pow2 1024 then
    if r = 0 ∧ neg then negZero else fin r ⟨roundQ_grid _ _, h⟩
  else inf (r < 0)

theorem rep_zero : Rep 0 := ⟨.zero _ _, by simpa using pow2_pos 1024⟩

/-- `+0` -/
def zero : F64 := fin 0 rep_zero

def isNeg : F64 → Bool
  | nan => false
  | inf n => n
  | negZero => true
  | fin q _ => q < 0

def neg : F64 → F64
  | nan => nan
  | inf n => inf (!n)
  | negZero => zero
  | fin q h => if q = 0 then negZero else fin (-q) ⟨h.1.neg, by rw [abs_neg]; exact h.2⟩

def abs : F64 → F64
  | nan => nan
  | inf _ => inf false
  | negZero => zero
  | fin q h => fin |q| ⟨by rcases abs_choice q with e | e <;> rw [e]
                           · exact h.1
                           · exact h.1.neg, by rw [abs_abs]; exact h.2⟩

def add : F64 → F64 → F64
  | nan, _ => nan
  | _, nan => nan
  | inf a, inf b => if a = b then inf a else nan
  | inf a, _ => inf a
  | _, inf b => inf b
  | negZero, y => y
  | x, negZero => x
  | fin a _, fin b _ => ofRat false (a + b)

def sub (x y : F64) : F64 := add x (neg y)

def mul : F64 → F64 → F64
  | nan, _ => nan
  | _, nan => nan
  | inf a, inf b => inf (a != b)
  | inf _, negZero => nan
  | negZero, inf _ => nan
  | inf a, fin q h => if q = 0 then nan else inf (a != (fin q h).isNeg)
  | fin q h, inf b => if q = 0 then nan else inf ((fin q h).isNeg != b)
  | negZero, negZero => zero
  | negZero, fin q h => if (fin q h).isNeg then zero else negZero
  | fin q h, negZero => if (fin q h).isNeg then zero else negZero
  | fin a ha, fin b hb => ofRat ((fin a ha).isNeg != (fin b hb).isNeg) (a * b)

/-- A zero of the given sign. -/
def zeroOf (neg : Bool) : F64 := if neg then negZero else zero

def div : F64 → F64 → F64
  | nan, _ => nan
  | _, nan => nan
  | inf _, inf _ => nan
  | inf a, y => inf (a != y.isNeg)
  | x, inf b => zeroOf (x.isNeg != b)
  | negZero, negZero => nan
  | negZero, fin b hb => if b = 0 then nan else zeroOf (!(fin b hb).isNeg)
  | fin a ha, negZero => if a = 0 then nan else inf (!(fin a ha).isNeg)
  | fin a ha, fin b hb =>
    if b = 0 then (if a = 0 then nan else inf (fin a ha).isNeg)
    else ofRat ((fin a ha).isNeg != (fin b hb).isNeg) (a / b)

/-- `x < y` -/
def lt : F64 → F64 → Bool
  | nan, _ => false
  | _, nan => false
  | inf a, inf b => a && !b
  | inf a, _ => a
  | _, inf b => !b
  | negZero, negZero => false
  | negZero, fin b _ => 0 < b
  | fin a _, negZero => a < 0
  | fin a _, fin b _ => a < b

/-- `x == y` -/
def eq : F64 → F64 → Bool
  | inf a, inf b => a == b
  | negZero, negZero => true
  | negZero, fin b _ => b = 0
  | fin a _, negZero => a = 0
  | fin a _, fin b _ => a = b
  | _, _ => false

/-- `x <= y` -/
def le (x y : F64) : Bool := lt x y || eq x y

/-- `float64(float32(x))`: round to 24 bits, overflow above the largest float32. -/
def toF32 : F64 → F64
  | fin q _ =>
    let r := roundQ 24 (-149) q
    if |r| < pow2 128 then ofRat (q < 0) r else inf (r < 0)
  | x => x

instance : Arith F64 where
  lit n d := ofRat false (mkRat n d)
  add := add
  sub := sub
  mul := mul
  div := div
  neg := neg
  abs := abs
  lt := lt
  le := le
  eq := eq
  ofInt n := ofRat false n
  ofInt32 n := ofRat false (roundQ 24 (-149) n)
  toF32 := toF32

/-! ### `strconv.ParseFloat(s, 64)`

The library's syntax of floating point numbers (Go 1.13 and later): `nan`, `inf` and `infinity` in
any mixture of cases (the latter two with an optional sign); decimal numbers; hexadecimal numbers
`0x...p...`, whose exponent is a power of two and must be there; underscores between digits (and
between the prefix `0x` and a digit).  Numbers are rounded to nearest, ties to even; what
rounds to an infinity is an error. -/

/-- The sign in front. -/
def splitSign : List Char → Bool × List Char
  | '-' :: r => (true, r)
  | '+' :: r => (false, r)
  | r => (false, r)

/-- ASCII lower case. -/
def lowerChar (c : Char) : Char := if 'A' ≤ c ∧ c ≤ 'Z' then Char.ofNat (c.toNat + 32) else c

/-- `special` of strconv/atof.go. -/
def special (l : List Char) : Option F64 :=
  if l.map lowerChar = ['n', 'a', 'n'] then some .nan
  else
    let (neg, r) := splitSign l
    if r.map lowerChar = ['i', 'n', 'f'] ∨ r.map lowerChar = ['i', 'n', 'f', 'i', 'n', 'i', 't', 'y'] then
      some (.inf neg)
    else none

/-- A digit of base ten or sixteen. -/
def isNumeral (hex : Bool) (c : Char) : Bool :=
  isDigit c || (hex && (('a' ≤ c && c ≤ 'f') || ('A' ≤ c && c ≤ 'F')))

/-- Its value. -/
def numeralVal (c : Char) : Nat :=
  if isDigit c then c.toNat - '0'.toNat
  else if 'a' ≤ c ∧ c ≤ 'f' then c.toNat - 'a'.toNat + 10 else c.toNat - 'A'.toNat + 10

/-- The value of a row of digits. -/
def numeralsVal (hex : Bool) (l : List Char) : Nat :=
  l.foldl (fun n c => (if hex then 16 else 10) * n + numeralVal c) 0

/-- The value of the digits of an exponent: `readFloat` of strconv/atof.go stops counting at 10000. -/
def expVal (l : List Char) : Nat :=
  l.foldl (fun e c => if e < 10000 then 10 * e + (c.toNat - '0'.toNat) else e) 0

/-- The exponent part; `none` when it is malformed. -/
def parseExp (hex : Bool) : List Char → Option Int
  | [] => if hex then none else some 0
  | c :: r =>
    if lowerChar c = (if hex then 'p' else 'e') then
      let p := splitSign r
      if p.2 = [] ∨ ¬ p.2.all isDigit then none
      else some (if p.1 then -(expVal p.2 : Int) else expVal p.2)
    else none

/-- The fraction in front of a list. -/
def splitFrac (hex : Bool) : List Char → List Char × List Char
  | '.' :: r => (r.takeWhile (isNumeral hex), r.dropWhile (isNumeral hex))
  | r => ([], r)

/-- `v * b ^ k` -/
def scale (b : Nat) (v k : Int) : ℚ :=
  match k with
  | .ofNat n => ((v * (b ^ n : Nat) : Int) : ℚ)
  | .negSucc n => mkRat v (b ^ (n + 1))

/-- The prefix of a hexadecimal number. -/
def dropPrefix (hex : Bool) (l : List Char) : Option (List Char) :=
  if hex then
    match l with
    | '0' :: c :: r => if lowerChar c = 'x' then some r else none
    | _ => none
  else some l

/-- A number without underscores: `[+-]digits[.digits][(e|E)[+-]digits]` in base ten,
`[+-]0x digits[.digits](p|P)[+-]digits` in base sixteen; the sign and the exact value. -/
def parseNumber (hex : Bool) (l : List Char) : Option (Bool × ℚ) :=
  let a := splitSign l
  match dropPrefix hex a.2 with
  | none => none
  | some l =>
    let ip := l.takeWhile (isNumeral hex)
    let b := splitFrac hex (l.dropWhile (isNumeral hex))
    if ip = [] ∧ b.1 = [] then none
    else
      match parseExp hex b.2 with
      | none => none
      | some k =>
        let v : Int := numeralsVal hex (ip ++ b.1)
        some (a.1, scale (if hex then 2 else 10) (if a.1 then -v else v)
          (k - (if hex then 4 * b.1.length else b.1.length : Nat)))

/-- `underscoreOK` of strconv/atoi.go: an underscore stands between two digits, the prefix of a
hexadecimal number counting as a digit.  `prev`: what stands before is a digit. -/
def underscoresOK (hex : Bool) (prev : Bool) : List Char → Bool
  | [] => true
  | '_' :: r =>
    prev && (match r with
      | c :: _ => isNumeral hex c
      | [] => false) && underscoresOK hex false r
  | c :: r => underscoresOK hex (isNumeral hex c || (hex && lowerChar c == 'x')) r

/-- A number with underscores. -/
def parseSeparated (hex : Bool) (l : List Char) : Option (Bool × ℚ) :=
  if underscoresOK hex false l then parseNumber hex (l.filter (· ≠ '_')) else none

/-- `strconv.ParseFloat(s, 64)`; `none` = error. -/
def parseF64 (s : String) : Option F64 :=
  match special s.toList with
  | some x => some x
  | none =>
    match (parseSeparated false s.toList).or (parseSeparated true s.toList) with
    | none => none
    | some (neg, q) =>
      match ofRat neg q with
      | inf _ => none
      | x => some x

/-! ### `%v` of a float64 or float32

`fmt` prints a float with `strconv.AppendFloat(v, 'g', -1, size)`: the fewest digits that read back as
the same number, and among those the nearest (strconv/ftoa.go, `roundShortest`). -/

/-- The number of decimal digits (1 for 0). -/
def numDigits (n : Nat) : Nat := (Nat.toDigits 10 n).length

/-- Where the decimal point of a positive number is: `10 ^ (e - 1) ≤ q < 10 ^ e`. -/
def decPoint (q : ℚ) : Int :=
  let j := numDigits q.den
  (numDigits (q.num.toNat * 10 ^ j / q.den) : Int) - j

/-- strconv/ftoa.go `roundShortest`, one step: `n` digits of the positive number `q`, rounded down or up,
whichever reads back as `q` (with `p` bits); if both do, to nearest. -/
def tryDigits (p : Nat) (emin : Int) (q : ℚ) (n : Nat) : Option (Nat × Int) :=
  let k := decPoint q - n
  let t := q * scale 10 1 (-k)
  let down := ⌊t⌋.toNat
  let okDown : Bool := roundQ p emin (scale 10 down k) = q
  let okUp : Bool := roundQ p emin (scale 10 (down + 1 : Nat) k) = q
  if okDown ∧ okUp then some ((roundHalfEven t).toNat, k)
  else if okDown then some (down, k)
  else if okUp then some (down + 1, k)
  else none

/-- The first number of digits, from `n` on, that does. -/
def firstDigits (p : Nat) (emin : Int) (q : ℚ) : Nat → Nat → Nat × Int
  | 0, n => (⌊q * scale 10 1 (n - decPoint q)⌋.toNat, decPoint q - n)
  | fuel + 1, n =>
    match tryDigits p emin q n with
    | some r => r
    | none => firstDigits p emin q fuel (n + 1)

/-- Trailing zeros go. -/
def stripZeros : Nat → Nat × Int → Nat × Int
  | 0, r => r
  | fuel + 1, (v, k) => if v % 10 = 0 then stripZeros fuel (v / 10, k + 1) else (v, k)

/-- The shortest decimal `v * 10 ^ k` that reads back as the positive number `q` (17 digits are always
enough). -/
def shortest (p : Nat) (emin : Int) (q : ℚ) : Nat × Int := stripZeros 18 (firstDigits p emin q 17 1)

/-- At least two digits. -/
def twoDigits (n : Nat) : List Char := if n < 10 then '0' :: Nat.toDigits 10 n else Nat.toDigits 10 n

/-- strconv/ftoa.go `formatDigits` for 'g' with the shortest precision: with exponent if it is less
than -4 or at least 6, else without. -/
def layout (v : Nat) (k : Int) : List Char :=
  let ds := Nat.toDigits 10 v
  let dp : Int := ds.length + k
  if dp - 1 < -4 ∨ 6 ≤ dp - 1 then
    (match ds with
      | [] => []
      | [d] => [d]
      | d :: r => d :: '.' :: r) ++
    'e' :: (if dp - 1 < 0 then '-' else '+') :: twoDigits (dp - 1).natAbs
  else if dp ≤ 0 then '0' :: '.' :: (List.replicate (-dp).toNat '0' ++ ds)
  else if ds.length ≤ dp then ds ++ List.replicate (dp - ds.length).toNat '0'
  else ds.take dp.toNat ++ '.' :: ds.drop dp.toNat

/-- `fmt.Sprintf("%v", x)` for a float of `p` bits. -/
def fmtFloat (p : Nat) (emin : Int) : F64 → String
  | nan => "NaN"
  | inf b => if b then "-Inf" else "+Inf"
  | negZero => "-0"
  | fin q _ =>
    if q = 0 then "0"
    else String.ofList ((if q < 0 then ['-'] else []) ++
      layout (shortest p emin |q|).1 (shortest p emin |q|).2)

end F64

/-- The library instance. -/
instance : Lib F64 where
  parseFloat := F64.parseF64
  fmtF64 := F64.fmtFloat 53 (-1074)
  fmtF32 := F64.fmtFloat 24 (-149)

end Gopmml
