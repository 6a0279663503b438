import Verif.Model.Mining
import Verif.Proofs.Mining

/-!
# Models that answer alike

For the iteration orders in a given class.
-/

namespace Gopmml

variable {F : Type} [Arith F] [Lib F] [Trans F]

/-- The models answer alike, and do the same to the row, whenever maps are iterated in an order of the
class `P`. -/
def SameFor (P : MapOrd → Prop) (m m2 : EModel F) : Prop := ∀ o, P o → ∀ row,
  (EModel.evaluate o m row).res = (EModel.evaluate o m2 row).res ∧
  (EModel.evaluate o m row).row = (EModel.evaluate o m2 row).row

variable {P : MapOrd → Prop} (hP : ∀ o i, P o → P (o.at_ i))
include hP

theorem sumSegments_for {ms ms2 : List (EModel F)} (h : List.Forall₂ (SameFor P) ms ms2) :
    ∀ o, P o → ∀ fn i sm row, (sumSegments o fn i sm ms row).res = (sumSegments o fn i sm ms2 row).res ∧
      (sumSegments o fn i sm ms row).row = (sumSegments o fn i sm ms2 row).row := by
  induction h with
  | nil => intros; simp only [sumSegments]; exact ⟨trivial, trivial⟩
  | cons h _ ih =>
    rename_i m m2 ms ms2 _
    intro o ho fn i sm row
    obtain ⟨h1, h2⟩ := h (o.at_ (2 * i)) (hP _ _ ho) row
    simp only [sumSegments, h1, h2]
    cases (EModel.evaluate (o.at_ (2 * i)) m2 row).res with
    | error e => exact ⟨rfl, rfl⟩
    | ok out => exact ih _ ho _ _ _ _

theorem chainSegments_for {ms ms2 : List (EModel F)} (h : List.Forall₂ (SameFor P) ms ms2) :
    ∀ o, P o → ∀ i last row, (chainSegments o i last ms row).res = (chainSegments o i last ms2 row).res ∧
      (chainSegments o i last ms row).row = (chainSegments o i last ms2 row).row := by
  induction h with
  | nil => intros; simp only [chainSegments]; exact ⟨trivial, trivial⟩
  | cons h _ ih =>
    rename_i m m2 ms ms2 _
    intro o ho i last row
    simp only [chainSegments]
    rcases writeAll ((o.at_ (2 * i)).range (last.getD ∅)) row with ⟨_ | _, row1⟩
    · exact ⟨rfl, rfl⟩
    · obtain ⟨h1, h2⟩ := h (o.at_ (2 * i + 1)) (hP _ _ ho) row1
      simp only [h1, h2]
      cases (EModel.evaluate (o.at_ (2 * i + 1)) m2 row1).res with
      | error e => exact ⟨rfl, rfl⟩
      | ok out => exact ih _ ho _ _ _

/-- Of its segments an ensemble uses the evaluators and, for the average, their number. -/
theorem mining_for {ms ms2 : List (EModel F)} (s : MiningState F) {segs : List (SegDoc F)}
    (hl : segs.length = s.segments.length) (h : List.Forall₂ (SameFor P) ms ms2) :
    SameFor P (.mining s ms) (.mining { s with segments := segs } ms2) := by
  intro o ho row
  simp only [EModel.evaluate]
  by_cases hv : s.validated = true
  swap
  · rw [if_pos hv, if_pos hv]; exact ⟨rfl, rfl⟩
  by_cases hc : s.compiled = true
  swap
  · simp only [hv, not_true_eq_false, if_false]
    rw [if_pos hc, if_pos hc]; exact ⟨rfl, rfl⟩
  simp only [hv, hc, not_true_eq_false, if_false, hl]
  rcases imputeLoop ((o.at_ 0).range s.defaultValues) row with ⟨_ | ⟨⟨⟩⟩, row1⟩
  · exact ⟨rfl, rfl⟩
  dsimp only
  rcases handleInput s.head.localTransformations row1 with ⟨_ | ⟨⟨⟩⟩, row2⟩
  · exact ⟨rfl, rfl⟩
  dsimp only
  have hs := sumSegments_for hP h (o.at_ 1) (hP _ _ ho) s.head.functionName 0 (initScores s) row2
  have hc := chainSegments_for hP h (o.at_ 1) (hP _ _ ho) 0 (some ∅) row2
  cases s.head.method with
  | average =>
    constructor
    · dsimp only
      rw [hs.1]; rfl
    · exact hs.2
  | sum =>
    constructor
    · dsimp only
      rw [hs.1]; rfl
    · exact hs.2
  | modelChain => simp only [hc.1, hc.2]; exact ⟨trivial, trivial⟩
  | selectFirst =>
    cases h with
    | nil => simp only [selectFirst]; exact ⟨trivial, trivial⟩
    | cons h _ => simp only [selectFirst]; exact h _ (hP _ _ ho) _
  | empty => exact ⟨rfl, rfl⟩
  | other t => exact ⟨rfl, rfl⟩

end Gopmml
