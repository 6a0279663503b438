import Verif.Spec.Document
import Verif.Proofs.Mining

/-!
# Induction over constructed models
-/

namespace Gopmml
open Spec

variable {F : Type} [Arith F] [Lib F]

mutual
/-- What holds of trees and regressions, and is passed from the segments to their ensemble, holds of
every constructed model. -/
theorem newModel_ind {dd : List DataField} {P : ModelElem F → EModel F → Prop}
    (ht : ∀ d t td td', newTreeModel dd td d = (.ok t, td') → P (.tree d) (.tree t))
    (hr : ∀ d, P (.regression d) (.regression d))
    (hm : ∀ h segs td td' s ms, newModel dd (.mining h segs) td = (.ok (.mining s ms), td') →
      List.Forall₂ (fun seg m => ∃ id ps e, seg = SegDoc.mk id ps [e] ∧ P e m) segs ms →
      P (.mining h segs) (.mining s ms)) :
    (e : ModelElem F) → {td td' : TD F} → {m : EModel F} → newModel dd e td = (.ok m, td') → P e m
  | .tree d, td, td', m, h => by
    rw [newModel] at h
    rcases hn : newTreeModel dd td d with ⟨_ | t, td1⟩ <;> rw [hn] at h
    · simp at h
    · simp at h; obtain ⟨rfl, -⟩ := h
      exact ht d t td td1 hn
  | .regression d, td, td', m, h => by
    simp [newModel] at h; obtain ⟨rfl, -⟩ := h; exact hr d
  | .mining hd segs, td, td', m, h => by
    obtain ⟨s, ms, rfl, -, -, -, -, -, -, -, -, hc⟩ := newMining_ok h
    exact hm hd segs td td' s ms h (compileSegments_ind ht hr hm segs hc)
  | .other k, td, td', m, h => by simp [newModel] at h
theorem compileSegments_ind {dd : List DataField} {P : ModelElem F → EModel F → Prop}
    (ht : ∀ d t td td', newTreeModel dd td d = (.ok t, td') → P (.tree d) (.tree t))
    (hr : ∀ d, P (.regression d) (.regression d))
    (hm : ∀ h segs td td' s ms, newModel dd (.mining h segs) td = (.ok (.mining s ms), td') →
      List.Forall₂ (fun seg m => ∃ id ps e, seg = SegDoc.mk id ps [e] ∧ P e m) segs ms →
      P (.mining h segs) (.mining s ms)) :
    (segs : List (SegDoc F)) → {td td' : TD F} → {ms : List (EModel F)} →
    compileSegments dd segs td = (.ok (), ms, td') →
    List.Forall₂ (fun seg m => ∃ id ps e, seg = SegDoc.mk id ps [e] ∧ P e m) segs ms
  | [], td, td', ms, h => by simp [compileSegments] at h; obtain ⟨rfl, -⟩ := h; exact .nil
  | .mk id ps [] :: segs, td, td', ms, h => by simp [compileSegments] at h
  | .mk id ps [e] :: segs, td, td', ms, h => by
    rw [compileSegments] at h
    rcases hn : newModel dd e td with ⟨_ | m, td1⟩ <;> rw [hn] at h
    · simp at h
    · simp at h
      obtain ⟨h1, rfl, h3⟩ := h
      exact .cons ⟨id, ps, e, rfl, newModel_ind ht hr hm e hn⟩
        (compileSegments_ind ht hr hm segs (Prod.ext h1 rfl))
  | .mk id ps (e :: e' :: es) :: segs, td, td', ms, h => by simp [compileSegments] at h
end

end Gopmml
