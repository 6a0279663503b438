import Verif.Proofs.F64Arith
import Verif.Model.Value
import Verif.Model.Replay

/-!
# Properties C51, C52: views of dynamic values
-/

namespace Gopmml.Props
open Gopmml

variable {F : Type}

/-! ## C51: Int64 -/

/-- **C51**: an integer of any Go kind that fits int64 is returned unchanged. -/
theorem C51_fits {k : IntKind} {n : Int} (hlo : -(2 ^ 63) ≤ n) (hhi : n < 2 ^ 63) :
    (GoVal.int (F := F) k n).int64 = n := by
  cases k <;> simp only [GoVal.int64, wrap64] <;> omega

/-- **C51**: every stored integer fits except uint and uint64 values from 2^63 on, which come back
2^64 smaller. -/
theorem C51_wraps {k : IntKind} {n : Int} (hr : k.InRange n) :
    -(2 ^ 63) ≤ n ∧ n < 2 ^ 63 ∨
    (k = .uint ∨ k = .uint64) ∧ 2 ^ 63 ≤ n ∧ (GoVal.int (F := F) k n).int64 = n - 2 ^ 64 := by
  cases k <;> simp [IntKind.InRange, IntKind.signed, IntKind.bits] at hr <;>
    simp only [GoVal.int64, wrap64, reduceCtorEq, or_false, or_true, true_and, false_and] <;>
    omega

/-- **C51**: what comes back is an int64 and congruent to what was stored. -/
theorem C51_range {k : IntKind} {n : Int} (hr : k.InRange n) :
    IntKind.int64.InRange (GoVal.int (F := F) k n).int64 ∧ (2 : Int) ^ 64 ∣ n - (GoVal.int (F := F) k n).int64 := by
  rcases C51_wraps (F := F) hr with ⟨h1, h2⟩ | ⟨hk, h1, h2⟩
  · rw [C51_fits h1 h2]
    refine ⟨?_, by simp⟩
    simp only [IntKind.InRange, IntKind.signed, IntKind.bits, if_true]
    omega
  · rw [h2]
    refine ⟨?_, ⟨1, by ring⟩⟩
    have hn : n < 2 ^ 64 := by
      rcases hk with rfl | rfl <;> simp [IntKind.InRange, IntKind.signed, IntKind.bits] at hr <;> omega
    simp only [IntKind.InRange, IntKind.signed, IntKind.bits, if_true]
    omega

/-- **C51**: everything that is not an integer (floats and numeric strings too) is viewed as 0. -/
theorem C51_others {v : GoVal F} (h : ∀ k n, v ≠ .int k n) : v.int64 = 0 := by
  cases v with
  | int k n => exact absurd rfl (h k n)
  | _ => rfl

-- C51: the largest uint64, the smallest int64 and a float.
example : (GoVal.int (F := F64) .uint64 (2 ^ 64 - 1)).int64 = -1 ∧ IntKind.uint64.InRange (2 ^ 64 - 1) ∧
    (GoVal.int (F := F64) .int64 (-(2 ^ 63))).int64 = -(2 ^ 63) ∧ (GoVal.f64 (F := F64) (Replay.num "7.9")).int64 = 0 := by
  decide +kernel

/-! ## C52: Float64, Bool and String -/

section
variable [Arith F] [Lib F]

/-- **C52**: floats are returned as they are, strings parsed (0 when they are no number), integers
converted from the int64 view, anything else is 0 (converted). -/
theorem C52_float64 (v : GoVal F) :
    (∀ x, v = .f64 x ∨ v = .f32 x → v.float64 = x) ∧
    (∀ s, v = .str s → v.float64 = (Lib.parseFloat s).getD Arith.zero) ∧
    (∀ k n, v = .int k n → -(2 ^ 63) ≤ n → n < 2 ^ 63 → v.float64 = Arith.ofInt n) ∧
    ((v = .nil ∨ (∃ b, v = .bool b) ∨ ∃ t s f, v = .other t s f) → v.float64 = Arith.ofInt 0) := by
  refine ⟨?_, ?_, ?_, ?_⟩
  · rintro x (rfl | rfl) <;> rfl
  · rintro s rfl
    simp only [GoVal.float64]
    cases Lib.parseFloat (F := F) s <;> rfl
  · rintro k n rfl h1 h2
    show Arith.ofInt (GoVal.int (F := F) k n).int64 = _
    rw [C51_fits h1 h2]
  · rintro (rfl | ⟨b, rfl⟩ | ⟨t, s, f, rfl⟩) <;> rfl

omit [Arith F] [Lib F] in
/-- **C52**: Bool is true exactly for the boolean true. -/
theorem C52_bool (v : GoVal F) : v.toBool = true ↔ v = .bool true := by
  cases v with
  | bool b => cases b <;> simp [GoVal.toBool]
  | _ => simp [GoVal.toBool]

omit [Arith F] in
/-- **C52**: String returns strings unchanged, the answer of the value's own `String` method, or
its `%v` rendering. -/
theorem C52_string (v : GoVal F) :
    (∀ s, v = .str s → v.string = s) ∧
    (∀ t s f, v = .other t (some s) f → v.string = s) ∧
    (∀ t f, v = .other t none f → v.string = f) ∧
    (∀ b, v = .bool b → v.string = if b then "true" else "false") := by
  refine ⟨?_, ?_, ?_, ?_⟩
  · rintro s rfl; rfl
  · rintro t s f rfl; rfl
  · rintro t f rfl; rfl
  · rintro b rfl; rfl

end

section
open F64

theorem ofInt_eq (n : Int) : (Arith.ofInt n : F64) = ofRat false (n : ℚ) := rfl

/-- Integers of at most 53 bits are float64 values. -/
theorem rep_int {n : Int} (h : |n| ≤ 2 ^ 53) : Rep (n : ℚ) := by
  have hlt : |(n : ℚ)| < pow2 1024 := by
    have h1 : |(n : ℚ)| ≤ 2 ^ 53 := by exact_mod_cast h
    have h2 : (2 : ℚ) ^ 53 = pow2 53 := by decide +kernel
    have h3 : pow2 53 < pow2 1024 := pow2_lt_iff.mpr (by norm_num)
    rw [h2] at h1
    exact lt_of_le_of_lt h1 h3
  exact ⟨⟨n, 0, by exact_mod_cast h, by norm_num, by simp [pow2]⟩, hlt⟩

/-- **C52**: in float64 every integer of at most 53 bits is viewed exactly. -/
theorem C52_exact {k : IntKind} {n : Int} (h : |n| ≤ 2 ^ 53) :
    (GoVal.int (F := F64) k n).float64 = .fin n (rep_int h) := by
  have h' := abs_le.mp h
  rw [(C52_float64 _).2.2.1 k n rfl (by omega) (by omega), ofInt_eq]
  unfold ofRat
  simp only [roundQ_exact (by norm_num) (rep_int h).1]
  rw [dif_pos (rep_int h).2]
  simp

/-- **C52**: the view of larger integers is monotone: rounding never reverses an order. -/
theorem C52_monotone {k k' : IntKind} {n n' : Int} (h1 : -(2 ^ 63) ≤ n) (h2 : n < 2 ^ 63)
    (h1' : -(2 ^ 63) ≤ n') (h2' : n' < 2 ^ 63) (h : n ≤ n') :
    Arith.le (GoVal.int (F := F64) k n).float64 (GoVal.int k' n').float64 = true := by
  rw [(C52_float64 _).2.2.1 k n rfl h1 h2, (C52_float64 _).2.2.1 k' n' rfl h1' h2', ofInt_eq, ofInt_eq,
    arith_le, le_iff (ofRat_ne_nan _ _) (ofRat_ne_nan _ _)]
  exact ext_ofRat_mono (by exact_mod_cast h) _ _

/-- **C52** (limit): beyond 53 bits different integers may look the same. -/
theorem C52_collision : (GoVal.int (F := F64) .int64 (2 ^ 53 + 1)).float64 = (GoVal.int .int64 (2 ^ 53)).float64 := by
  decide +kernel

end

open Replay in
-- C52: strings that are numbers, that are none, and booleans.
example : (GoVal.str (F := F64) "2.5e1").float64 = num "25" ∧ (GoVal.str (F := F64) "x").float64 = num "0" ∧
    (GoVal.bool (F := F64) true).float64 = num "0" ∧ (GoVal.str (F := F64) "true").toBool = false ∧
    (GoVal.int (F := F64) .int8 (-5)).float64 = num "-5" ∧ (GoVal.int (F := F64) .int8 (-5)).string = "-5" := by
  decide +kernel

end Gopmml.Props
