import Verif.Proofs.F64Ext
import Verif.Proofs.TreeEval

/-!
# pickBest finds the first maximum; output rows
-/

namespace Gopmml
open Spec

/-- What comparison of numbers must satisfy for `pickBest` to find a maximum (NaN allowed). -/
structure LtLaws (F : Type) [Arith F] : Prop where
  trans : ∀ {a b c : F}, Arith.lt a b = true → Arith.lt b c = true → Arith.lt a c = true
  neg : ∀ {a b c : F}, Arith.lt a b = false → Arith.lt a c = true →
    Arith.lt b c = true ∨ ∀ x : F, Arith.lt x b = false

theorem ltLaws_F64 : LtLaws F64 where
  trans := F64.lt_trans
  neg := by
    intro a b c h h'
    rcases F64.lt_of_not_lt h h' with h | rfl
    · exact .inl h
    · exact .inr fun x => F64.lt_nan_right x

variable {F : Type} [Arith F]

/-- `pickBest` returns the first greatest positive probability, if there is a positive one. -/
theorem pickBest_spec (hl : LtLaws F) (dist : List (ScoreDist F)) :
    ((pickBest dist).value = "" ∧ ∀ s ∈ dist, Arith.lt Arith.zero s.probability = false) ∨
    IsBest dist (pickBest dist) := by
  let z : ScoreDist F := ⟨"", Arith.zero, Arith.zero, Arith.zero⟩
  have key : ∀ (l pre : List (ScoreDist F)) (b : ScoreDist F),
      ((b = z ∧ ∀ s ∈ pre, Arith.lt Arith.zero s.probability = false) ∨ IsBest pre b) →
      ((l.foldl (fun best score => if Arith.lt best.probability score.probability then score else best) b
          = z ∧ ∀ s ∈ pre ++ l, Arith.lt Arith.zero s.probability = false) ∨
        IsBest (pre ++ l)
          (l.foldl (fun best score => if Arith.lt best.probability score.probability then score else best) b)) := by
    intro l
    induction l with
    | nil => intro pre b h; simpa using h
    | cons s l ih =>
      intro pre b h
      rw [List.foldl_cons, show pre ++ s :: l = (pre ++ [s]) ++ l by simp]
      apply ih
      by_cases hlt : Arith.lt b.probability s.probability = true
      · rw [if_pos hlt]
        right
        refine ⟨pre, [], by simp, ?_, ?_, by simp⟩
        · rcases h with ⟨rfl, -⟩ | ⟨p, q, -, hb, -⟩
          · exact hlt
          · exact hl.trans hb hlt
        · rcases h with ⟨rfl, hp⟩ | ⟨p, q, rfl, hb, hp, hq⟩
          · exact fun x hx => .inr (hp x hx)
          · intro x hx
            rcases List.mem_append.mp hx with hx | hx
            · rcases hp x hx with h | h
              · exact .inl (hl.trans h hlt)
              · exact .inr h
            · rcases List.mem_cons.mp hx with rfl | hx
              · exact .inl hlt
              · rcases hl.neg (hq x hx) hlt with h | h
                · exact .inl h
                · exact .inr (h _)
      · rw [if_neg hlt]
        rcases h with ⟨rfl, hp⟩ | ⟨p, q, rfl, hb, hp, hq⟩
        · left
          refine ⟨rfl, ?_⟩
          intro x hx
          rcases List.mem_append.mp hx with hx | hx
          · exact hp x hx
          · simp only [List.mem_singleton] at hx
            subst hx
            simpa using hlt
        · right
          refine ⟨p, q ++ [s], by simp, hb, hp, ?_⟩
          intro x hx
          rcases List.mem_append.mp hx with hx | hx
          · exact hq x hx
          · simp only [List.mem_singleton] at hx
            subst hx
            simpa using hlt
  have := key dist [] z (.inl ⟨rfl, by simp⟩)
  rw [List.nil_append] at this
  rcases this with ⟨h, h'⟩ | h
  · left
    refine ⟨?_, h'⟩
    unfold pickBest
    have hz : (⟨"", Arith.zero, Arith.zero, Arith.zero⟩ : ScoreDist F) = z := rfl
    rw [hz, h]
  · exact .inr h

theorem probKey_inj {a b : String} (h : "probability(" ++ a ++ ")" = "probability(" ++ b ++ ")") : a = b := by
  have := congrArg String.toList h
  simp only [String.toList_append, List.append_cancel_left_eq, List.append_cancel_right_eq] at this
  exact String.toList_injective this

omit [Arith F] in
theorem classRow_prob (target label L : String) (dist : List (ScoreDist F)) :
    (classRow target label dist)["probability(" ++ L ++ ")"]? =
      match (dist.filter (fun s => s.value = L)).getLast? with
      | some s => some (.f64 s.probability)
      | none => if target = "probability(" ++ L ++ ")" then some (.str label) else none := by
  unfold classRow
  rw [foldl_insert_getElem? (fun s : ScoreDist F => "probability(" ++ s.value ++ ")")]
  have : (fun s : ScoreDist F => decide ("probability(" ++ s.value ++ ")" = "probability(" ++ L ++ ")")) =
      fun s => decide (s.value = L) := by
    funext s
    by_cases h : s.value = L
    · simp [h]
    · simp only [h, decide_false, decide_eq_false_iff_not]
      exact fun e => h (probKey_inj e)
  rw [this]
  cases (dist.filter (fun s => decide (s.value = L))).getLast? with
  | some s => rfl
  | none => simp only [GoMap.getElem?_insert]; simp

omit [Arith F] in
theorem classRow_other (target label k : String) (dist : List (ScoreDist F))
    (hk : ∀ s ∈ dist, k ≠ "probability(" ++ s.value ++ ")") :
    (classRow target label dist)[k]? = if target = k then some (.str label) else none := by
  unfold classRow
  rw [foldl_insert_getElem? (fun s : ScoreDist F => "probability(" ++ s.value ++ ")")]
  have : dist.filter (fun s => decide ("probability(" ++ s.value ++ ")" = k)) = [] := by
    simp only [List.filter_eq_nil_iff, decide_eq_true_eq]
    exact fun s hs e => hk s hs e.symm
  rw [this]
  simp only [List.getLast?_nil, GoMap.getElem?_insert]
  simp

end Gopmml
