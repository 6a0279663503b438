import Mathlib.Tactic.SplitIfs
import Verif.Model.Basic

/-!
# Lists and finite maps
-/

namespace Gopmml

theorem getLast?_filter_cons {α : Type} (p : α → Bool) (a : α) (l : List α) :
    ((a :: l).filter p).getLast? =
      match (l.filter p).getLast? with
      | some b => some b
      | none => if p a then some a else none := by
  by_cases h : p a
  · rw [List.filter_cons_of_pos h]
    cases hl : (l.filter p) with
    | nil => simp [h]
    | cons b m =>
      rw [List.getLast?_cons_cons]
      cases hh : (b :: m).getLast? with
      | none => simp at hh
      | some c => rfl
  · rw [List.filter_cons_of_neg h]
    cases (l.filter p).getLast? <;> simp [h]

/-- A loop that keeps the last match. -/
theorem foldl_last {α β : Type} (p : α → Bool) (g : α → β) (l : List α) (b : β) :
    l.foldl (fun t a => if p a then g a else t) b =
      match (l.filter p).getLast? with
      | some a => g a
      | none => b := by
  induction l generalizing b with
  | nil => rfl
  | cons a l ih =>
    rw [List.foldl_cons, ih, getLast?_filter_cons]
    cases (l.filter p).getLast? with
    | some c => rfl
    | none => by_cases h : p a <;> simp [h]

/-- The first element with a property is determined. -/
theorem first_unique {α : Type} {P : α → Prop} {pre pre' post post' : List α} {c c' : α}
    (h : pre ++ c :: post = pre' ++ c' :: post') (hpre : ∀ a ∈ pre, ¬ P a) (hc : P c)
    (hpre' : ∀ a ∈ pre', ¬ P a) (hc' : P c') : c = c' := by
  induction pre generalizing pre' with
  | nil =>
    cases pre' with
    | nil => simp at h; exact h.1
    | cons a l => simp at h; exact absurd (h.1 ▸ hc) (hpre' a (by simp))
  | cons a l ih =>
    cases pre' with
    | nil => simp at h; exact absurd (h.1 ▸ hc') (hpre a (by simp))
    | cons b l' =>
      simp at h
      exact ih h.2 (fun e he => hpre e (by simp [he])) (fun e he => hpre' e (by simp [he]))

theorem GoMap.getElem?_insert {V : Type} (m : GoMap V) (k x : String) (v : V) :
    (m.insert k v)[x]? = if k = x then some v else m[x]? := by
  rw [Std.ExtTreeMap.getElem?_insert]
  simp only [Std.LawfulEqCmp.compare_eq_iff_eq]

/-- A loop of insertions: the last one for a key wins. -/
theorem foldl_insert_getElem? {α V : Type} (k : α → String) (v : α → V) (l : List α) (m : GoMap V)
    (x : String) :
    (l.foldl (fun m a => m.insert (k a) (v a)) m)[x]? =
      match (l.filter (fun a => k a = x)).getLast? with
      | some a => some (v a)
      | none => m[x]? := by
  induction l generalizing m with
  | nil => rfl
  | cons a l ih =>
    rw [List.foldl_cons, ih, getLast?_filter_cons]
    cases (l.filter (fun a => k a = x)).getLast? with
    | some c => rfl
    | none =>
      simp only [GoMap.getElem?_insert]
      by_cases h : k a = x <;> simp [h]

end Gopmml
