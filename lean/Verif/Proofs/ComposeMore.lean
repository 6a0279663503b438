import Verif.Proofs.Compose

/-!
# Segments that cannot be told apart
-/

namespace Gopmml

open Spec

variable {F : Type} [Arith F] [Lib F] [Trans F]

theorem Spec.Inter.refl (m : EModel F) : Inter m m := fun _ _ _ => Iff.rfl

theorem Spec.Inter.symm {m m' : EModel F} (h : Inter m m') : Inter m' m := fun _ _ _ => (h _ _ _).symm

theorem Spec.Inter.trans {m m' m'' : EModel F} (h : Inter m m') (h' : Inter m' m'') : Inter m m'' :=
  fun _ _ _ => (h _ _ _).trans (h' _ _ _)

/-- One direction of `Inter`. -/
def Covered (m m' : EModel F) : Prop := ∀ row r row', Answers m row r row' → Answers m' row r row'

theorem sumSegments_covered {ms ms' : List (EModel F)} (h : List.Forall₂ Covered ms ms') :
    ∀ (o : MapOrd) fn i sm row, ∃ f : Nat → MapOrd, ∀ o' : MapOrd, (∀ j, 2 * i ≤ j → o'.at_ j = f j) →
      (sumSegments o' fn i sm ms' row).res = (sumSegments o fn i sm ms row).res ∧
      (sumSegments o' fn i sm ms' row).row = (sumSegments o fn i sm ms row).row := by
  induction h with
  | nil => exact fun o fn i sm row => ⟨fun _ => .sorted, fun o' _ => by simp [sumSegments]⟩
  | @cons m m' ms ms' hm _ ih =>
    intro o fn i sm row
    obtain ⟨o1, h1, h2⟩ := hm row _ _ ⟨o.at_ (2 * i), rfl, rfl⟩
    cases he : (EModel.evaluate (o.at_ (2 * i)) m row).res with
    | error e =>
      refine ⟨fun _ => o1, fun o' ho => ?_⟩
      simp only [sumSegments]
      rw [ho _ (Nat.le_refl _), h1, he]
      exact ⟨rfl, h2⟩
    | ok out =>
      obtain ⟨f, hf⟩ := ih o fn (i + 1)
        (((o.at_ (2 * i + 1)).range sm).foldl (addScore fn out) sm) (EModel.evaluate (o.at_ (2 * i)) m row).row
      refine ⟨fun j => if j = 2 * i then o1 else if j = 2 * i + 1 then o.at_ (2 * i + 1) else f j, fun o' ho => ?_⟩
      have e1 : o'.at_ (2 * i) = o1 := (ho _ (Nat.le_refl _)).trans (if_pos rfl)
      have e2 : o'.at_ (2 * i + 1) = o.at_ (2 * i + 1) := by
        rw [ho _ (by omega)]; simp only; rw [if_neg (by omega), if_pos trivial]
      have e3 : ∀ j, 2 * (i + 1) ≤ j → o'.at_ j = f j := fun j hj => by
        rw [ho _ (by omega)]; simp only; rw [if_neg (by omega), if_neg (by omega)]
      simp only [sumSegments]
      rw [e1, e2, h1, he, h2]
      exact hf o' e3

theorem chainSegments_covered {ms ms' : List (EModel F)} (h : List.Forall₂ Covered ms ms') :
    ∀ {last : Out F} {row row' : Row F} {r : Res (Out F)}, ChainRun last ms row r row' → ChainRun last ms' row r row' := by
  induction h with
  | nil => exact fun h => h
  | cons hm _ ih =>
    intro last row row' r h
    cases h with
    | nilRow hne => exact .nilRow hne
    | fail hx he =>
      obtain ⟨o1, h1, h2⟩ := hm _ _ _ ⟨_, he, rfl⟩
      rw [← h2]; exact .fail hx h1
    | cons hx he hr =>
      obtain ⟨o1, h1, h2⟩ := hm _ _ _ ⟨_, he, rfl⟩
      rw [← h2] at hr; exact .cons hx h1 (ih hr)

/-- Of its segments an ensemble uses the answers and, for the average, their number. -/
theorem mining_covered {ms ms' : List (EModel F)} (s : MiningState F) {segs : List (SegDoc F)}
    (hl : segs.length = s.segments.length) (h : List.Forall₂ Covered ms ms') :
    Covered (.mining s ms) (.mining { s with segments := segs } ms') := by
  rintro row r row' ⟨o, rfl, rfl⟩
  by_cases hv : s.validated = true
  swap
  · refine ⟨o, ?_⟩; simp only [EModel.evaluate]; rw [if_pos hv, if_pos hv]; exact ⟨rfl, rfl⟩
  by_cases hc : s.compiled = true
  swap
  · refine ⟨o, ?_⟩
    simp only [EModel.evaluate, hv, not_true_eq_false, if_false]
    rw [if_pos hc, if_pos hc]; exact ⟨rfl, rfl⟩
  simp only [Answers, EModel.evaluate, hv, hc, not_true_eq_false, if_false, hl]
  rcases hi : imputeLoop ((o.at_ 0).range s.defaultValues) row with ⟨e | ⟨⟨⟩⟩, row1⟩
  · exact ⟨o, by rw [hi]; exact ⟨rfl, rfl⟩⟩
  rcases hd : handleInput s.head.localTransformations row1 with ⟨e | ⟨⟨⟩⟩, row2⟩
  · exact ⟨o, by rw [hi]; simp only [hd]; exact ⟨trivial, trivial⟩⟩
  have hsum : ∀ fn sm, ∃ o1, (sumSegments o1 fn 0 sm ms' row2).res = (sumSegments (o.at_ 1) fn 0 sm ms row2).res ∧
      (sumSegments o1 fn 0 sm ms' row2).row = (sumSegments (o.at_ 1) fn 0 sm ms row2).row := by
    intro fn sm
    obtain ⟨f, hf⟩ := sumSegments_covered h (o.at_ 1) fn 0 sm row2
    exact ⟨.glue f, hf _ fun j _ => rfl⟩
  have hi2 : ∀ f : Nat → MapOrd, f 0 = o.at_ 0 →
      imputeLoop (((MapOrd.glue f).at_ 0).range s.defaultValues) row = (.ok (), row1) := by
    intro f hf; rw [MapOrd.glue_at, hf, hi]
  cases hm : s.head.method with
  | average =>
    obtain ⟨o1, h1, h2⟩ := hsum s.head.functionName (initScores s)
    refine ⟨.glue fun j => if j = 1 then o1 else o.at_ j, ?_⟩
    rw [hi2 _ (by simp)]
    simp only [hd, MapOrd.glue_at, if_true]
    constructor
    · change Except.map _ (sumSegments o1 s.head.functionName 0 (initScores s) ms' row2).res = _
      rw [h1]; rfl
    · exact h2
  | sum =>
    obtain ⟨o1, h1, h2⟩ := hsum s.head.functionName (initScores s)
    refine ⟨.glue fun j => if j = 1 then o1 else o.at_ j, ?_⟩
    rw [hi2 _ (by simp)]
    simp only [hd, MapOrd.glue_at, if_true]
    constructor
    · change Except.map _ (sumSegments o1 s.head.functionName 0 (initScores s) ms' row2).res = _
      rw [h1]; rfl
    · exact h2
  | modelChain =>
    obtain ⟨o1, h1, h2⟩ := chainRun_iff.mp (chainSegments_covered h (chainRun_iff.mpr ⟨o.at_ 1, rfl, rfl⟩))
    refine ⟨.glue fun j => if j = 1 then o1 else o.at_ j, ?_⟩
    rw [hi2 _ (by simp)]
    simp only [hd, MapOrd.glue_at, if_true]
    exact ⟨h1, h2⟩
  | selectFirst =>
    cases h with
    | nil =>
      refine ⟨o, ?_⟩
      rw [hi]; simp only [hd, selectFirst]; exact ⟨trivial, trivial⟩
    | cons hm' _ =>
      obtain ⟨o1, h1, h2⟩ := hm' row2 _ _ ⟨o.at_ 1, rfl, rfl⟩
      refine ⟨.glue fun j => if j = 1 then o1 else o.at_ j, ?_⟩
      rw [hi2 _ (by simp)]
      simp only [hd, MapOrd.glue_at, if_true, selectFirst]
      exact ⟨h1, h2⟩
  | _ => exact ⟨o, by rw [hi]; simp only [hd]; exact ⟨trivial, trivial⟩⟩

end Gopmml
