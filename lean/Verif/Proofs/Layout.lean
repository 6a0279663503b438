import Verif.Spec.Layout
import Verif.Proofs.Xml
import Verif.Props.XmlNode

/-!
# Decoders do not depend on the layout
-/

namespace Gopmml

open Spec Props

/-! ## Attributes -/

/-- An attribute handler for which order and unread attributes do not matter. -/
structure Settled {σ : Type} (f : String → String → σ → Dec σ) : Prop where
  ignores : ∀ k v s, k ∉ readAttrs → f k v s = .ok s
  comm : ∀ k v k' v' s a b, k ≠ k' → f k v s = .ok a → f k' v' a = .ok b →
    ∃ c, f k' v' s = .ok c ∧ f k v c = .ok b

section Attrs
variable {σ : Type} {f : String → String → σ → Dec σ}

theorem Settled.filter (hf : Settled f) : ∀ (as : Attrs) (s : σ),
    attrLoop f as s = attrLoop f (as.filter fun a => a.1 ∈ readAttrs) s
  | [], _ => rfl
  | (k, v) :: as, s => by
    by_cases h : k ∈ readAttrs
    · simp only [attrLoop, List.filter_cons, h, decide_true, if_true]
      cases f k v s with
      | error e => rfl
      | ok s' => exact hf.filter as s'
    · simp only [attrLoop, List.filter_cons, h, decide_false, hf.ignores k v s h]
      exact hf.filter as s

theorem Settled.perm (hf : Settled f) {l l' : Attrs} (p : l.Perm l') :
    (l.map (·.1)).Nodup → ∀ s t, attrLoop f l s = .ok t → attrLoop f l' s = .ok t := by
  induction p with
  | nil => exact fun _ _ _ h => h
  | cons a _ ih =>
    intro hn s t h
    obtain ⟨k, v⟩ := a
    simp only [List.map_cons, List.nodup_cons] at hn
    simp only [attrLoop] at h ⊢
    cases hs : f k v s with
    | error e => rw [hs] at h; cases h
    | ok s' => rw [hs] at h; exact ih hn.2 s' t h
  | swap a b l =>
    intro hn s t h
    obtain ⟨k, v⟩ := a
    obtain ⟨k', v'⟩ := b
    have hne : k' ≠ k := by
      simp only [List.map_cons, List.nodup_cons, List.mem_cons, not_or] at hn
      exact hn.1.1
    simp only [attrLoop] at h ⊢
    cases h1 : f k' v' s with
    | error e => rw [h1] at h; cases h
    | ok a =>
      rw [h1] at h
      simp only at h
      cases h2 : f k v a with
      | error e => rw [h2] at h; cases h
      | ok b =>
        rw [h2] at h
        obtain ⟨c, hc, hb⟩ := hf.comm k' v' k v s a b hne h1 h2
        rw [hc]
        simp only [hb]
        exact h
  | trans p q ih ih' =>
    intro hn s t h
    exact ih' ((p.map _).nodup_iff.1 hn) s t (ih hn s t h)

theorem nodup_of_keys {as : Attrs} (h : (as.map (·.1)).Nodup) : as.Nodup := List.Nodup.of_map _ h

theorem Settled.same (hf : Settled f) {as as' : Attrs} (h : SameAttrs as as') {s t : σ}
    (ht : attrLoop f as s = .ok t) : attrLoop f as' s = .ok t := by
  rw [hf.filter] at ht ⊢
  refine hf.perm ?_ ?_ s t ht
  · refine (List.perm_ext_iff_of_nodup ((nodup_of_keys h.once).filter _)
      ((nodup_of_keys h.once').filter _)).2 fun a => ?_
    simp only [List.mem_filter, decide_eq_true_eq]
    constructor
    · rintro ⟨h1, h2⟩
      exact ⟨(h.same a.1 h2 a.2).1 h1, h2⟩
    · rintro ⟨h1, h2⟩
      exact ⟨(h.same a.1 h2 a.2).2 h1, h2⟩
  · exact h.once.sublist (List.filter_sublist.map _)

end Attrs

theorem SameAttrs.symm {as as' : Attrs} (h : SameAttrs as as') : SameAttrs as' as :=
  ⟨h.once', h.once, fun k hk v => (h.same k hk v).symm⟩

theorem settled_pure {α : Type} (k : String) (g : String → α) (hk : k ∈ readAttrs) :
    Settled fun k' v s => (Except.ok (if k' = k then g v else s) : Dec α) where
  ignores k' v s h := by
    have : k' ≠ k := fun e => h (e ▸ hk)
    simp [this]
  comm k₁ v₁ k₂ v₂ s a b hne h1 h2 := by
    cases h1
    cases h2
    refine ⟨_, rfl, ?_⟩
    by_cases e1 : k₁ = k
    · have e2 : k₂ ≠ k := fun e => hne (e1.trans e.symm)
      simp [e1, e2]
    · simp [e1]

theorem fold_same {α : Type} (k : String) (g : String → α) (hk : k ∈ readAttrs) {as as' : Attrs}
    (h : SameAttrs as as') (x : α) :
    as.foldl (fun s a => if a.1 = k then g a.2 else s) x =
      as'.foldl (fun s a => if a.1 = k then g a.2 else s) x := by
  rw [foldl_attr, foldl_attr]
  have := (settled_pure k g hk).same h (attrLoop_pure k g as x)
  rw [attrLoop_pure] at this
  exact (Except.ok.inj this).symm

/-! ## The attribute handlers -/

section Handlers
variable {F : Type} [Arith F] [Lib F]

theorem map_eq_ok {α β : Type} {g : α → β} {r : Dec α} {b : β} :
    r.map g = .ok b ↔ ∃ x, r = .ok x ∧ g x = b := by
  cases r <;> simp [Except.map]

/-- Discharges `Settled` for a chain of tests on the attribute name. -/
macro "settle" f:ident : tactic => `(tactic|
  (refine ⟨?_, ?_⟩
   · intro k v s h
     have hk : ∀ q ∈ readAttrs, k ≠ q := fun q hq e => h (e ▸ hq)
     simp only [readAttrs, List.forall_mem_cons] at hk
     simp [$f:ident, hk]
   · intro k v k' v' s a b hne h1 h2
     unfold $f:ident at h1 h2 ⊢
     split_ifs at h1 h2 <;> simp only [map_eq_ok, Except.ok.injEq] at h1 h2 <;>
       (first | (obtain ⟨x, hx, hx2⟩ := h1; subst hx2) | (subst h1)) <;>
       (first | (obtain ⟨y, hy, hy2⟩ := h2; subst hy2) | (subst h2)) <;>
       (first | (simp [*, Except.map]; done) | (exfalso; simp_all; done))))

/-- The same for handlers that only check. -/
macro "settle_unit" f:ident : tactic => `(tactic|
  (refine ⟨?_, fun _ _ _ _ _ _ _ _ h1 h2 => ⟨(), h2, h1⟩⟩
   intro k v s h
   have hk : ∀ q ∈ readAttrs, k ≠ q := fun q hq e => h (e ▸ hq)
   simp only [readAttrs, List.forall_mem_cons] at hk
   simp [$f:ident, hk]))

omit [Arith F] [Lib F] in
theorem settled_simple : Settled (simpleAttr (F := F)) := by settle simpleAttr
theorem settled_array : Settled arrayAttr := by settle_unit arrayAttr
theorem settled_dist : Settled (distAttr (F := F)) := by settle distAttr
theorem settled_node : Settled (nodeAttr (F := F)) := by
  constructor
  · intro k v s h
    cases s
    have hk : ∀ q ∈ readAttrs, k ≠ q := fun q hq e => h (e ▸ hq)
    simp only [readAttrs, List.forall_mem_cons] at hk
    simp [nodeAttr, hk]
  · intro k v k' v' s a b hne h1 h2
    cases s
    unfold nodeAttr at h1 h2 ⊢
    simp only at h1
    split_ifs at h1 <;> simp only [map_eq_ok, Except.ok.injEq] at h1 <;>
      (first | (obtain ⟨x, hx, hx2⟩ := h1; subst hx2) | (subst h1)) <;> simp only at h2 <;>
      split_ifs at h2 <;> simp only [map_eq_ok, Except.ok.injEq] at h2 <;>
      (first | (obtain ⟨y, hy, hy2⟩ := h2; subst hy2) | (subst h2)) <;>
      (first | (simp [*, Except.map]; done) | (exfalso; simp_all; done))
theorem settled_pair : Settled pairAttr := by settle pairAttr
omit [Arith F] [Lib F] in
theorem settled_map : Settled (mapAttr (F := F)) := by settle mapAttr
omit [Arith F] [Lib F] in
theorem settled_derived : Settled (derivedAttr (F := F)) := by settle derivedAttr
theorem settled_miningField : Settled (miningFieldAttr F) := by settle miningFieldAttr
theorem settled_output : Settled outputAttr := by settle outputAttr
theorem settled_target : Settled (targetAttr (F := F)) := by settle targetAttr
theorem settled_verification : Settled (verificationAttr (F := F)) := by settle verificationAttr
theorem settled_count : Settled countAttr := by settle_unit countAttr
theorem settled_tree : Settled (treeAttr (F := F)) := by settle treeAttr
theorem settled_predictor : Settled (predictorAttr (F := F)) := by settle predictorAttr
theorem settled_regTable : Settled (regTableAttr (F := F)) := by settle regTableAttr
theorem settled_regression : Settled (regressionAttr (F := F)) := by settle regressionAttr
theorem settled_mining : Settled (miningAttr (F := F)) := by settle miningAttr
theorem settled_interval : Settled (intervalAttr F) := by settle_unit intervalAttr
theorem settled_dataField : Settled dataFieldAttr := by settle dataFieldAttr
theorem settled_dict : Settled dictAttr := by settle_unit dictAttr

end Handlers

end Gopmml
