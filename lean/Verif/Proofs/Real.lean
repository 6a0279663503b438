import Mathlib.Analysis.SpecialFunctions.Trigonometric.Arctan
import Mathlib.Algebra.BigOperators.Group.List.Basic
import Verif.Proofs.Answer
import Verif.Proofs.Best
import Verif.Props.Mixing

/-!
# Exact arithmetic: the model over the real numbers
-/

namespace Gopmml

noncomputable section
open Classical in
instance : Arith ℝ where
  lit n d := (n : ℝ) / (d : ℝ)
  add := (· + ·)
  sub := (· - ·)
  mul := (· * ·)
  div := (· / ·)
  neg x := -x
  abs x := |x|
  lt x y := decide (x < y)
  le x y := decide (x ≤ y)
  eq x y := decide (x = y)
  ofInt i := (i : ℝ)
  ofInt32 i := (i : ℝ)
  toF32 x := x

instance : Trans ℝ where
  exp := Real.exp
  atan := Real.arctan
  invPi := 1 / Real.pi

end

namespace Real'
theorem zero_eq : (Arith.zero : ℝ) = 0 := by simp [Arith.zero, Arith.lit]
theorem one_eq : (Arith.one : ℝ) = 1 := by simp [Arith.one, Arith.lit]
theorem add_eq (x y : ℝ) : Arith.add x y = x + y := rfl
theorem mul_eq (x y : ℝ) : Arith.mul x y = x * y := rfl
theorem div_eq (x y : ℝ) : Arith.div x y = x / y := rfl
theorem lt_iff (x y : ℝ) : Arith.lt x y = true ↔ x < y := by simp [Arith.lt]
theorem lt_false (x y : ℝ) : Arith.lt x y = false ↔ y ≤ x := by simp [Arith.lt]

theorem foldl_add (l : List ℝ) (x : ℝ) : l.foldl Arith.add x = x + l.sum := by
  induction l generalizing x with
  | nil => simp
  | cons a l ih => rw [List.foldl_cons, ih, List.sum_cons, add_eq, add_assoc]

theorem sum_eq (l : List ℝ) : Spec.sum l = l.sum := by
  unfold Spec.sum
  rw [foldl_add, zero_eq, zero_add]

theorem ltLaws : LtLaws ℝ where
  trans := by intro a b c h h'; rw [lt_iff] at *; exact h.trans h'
  neg := by
    intro a b c h h'
    rw [lt_iff] at h'
    rw [lt_false] at h
    exact .inl ((lt_iff _ _).mpr (h.trans_lt h'))

theorem sum_ite_nodup {vals : List String} (hn : vals.Nodup) {k : String} (hk : k ∈ vals) (x : ℝ) :
    (vals.map (fun L => if k = L then x else 0)).sum = x := by
  induction vals with
  | nil => cases hk
  | cons v vals ih =>
    obtain ⟨h1, h2⟩ := List.nodup_cons.mp hn
    rw [List.map_cons, List.sum_cons]
    by_cases h : k = v
    · subst h
      have : (vals.map (fun L => if k = L then x else 0)).sum = 0 := by
        apply List.sum_eq_zero
        intro y hy
        obtain ⟨L, hL, rfl⟩ := List.mem_map.mp hy
        rw [if_neg]
        rintro rfl
        exact h1 hL
      rw [this]; simp
    · rw [if_neg h, zero_add]
      exact ih h2 ((List.mem_cons.mp hk).resolve_left h)

/-- Summing group by group. -/
theorem sum_groups {α : Type} (ws : List α) (k : α → String) (f : α → ℝ) {vals : List String}
    (hn : vals.Nodup) (hk : ∀ w ∈ ws, k w ∈ vals) :
    (vals.map (fun L => ((ws.filter (fun w => k w = L)).map f).sum)).sum = (ws.map f).sum := by
  induction ws with
  | nil => simp
  | cons w ws ih =>
    rw [List.map_cons, List.sum_cons, ← ih (fun a ha => hk a (by simp [ha])),
      ← sum_ite_nodup hn (hk w (by simp)) (f w), ← List.sum_map_add]
    congr 2
    funext L
    by_cases h : k w = L <;> simp [h]

end Real'
end Gopmml
