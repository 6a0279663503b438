import Verif.Spec.Inline
import Verif.Proofs.Safe
import Verif.Props.Expressions
import Verif.Props.ModelFrame

/-!
# Inlining: expressions and lists of derived fields
-/

namespace Gopmml
open Spec

variable {F : Type} [Arith F] [Lib F]

theorem sumLoop_pairs {row row' : Row F} {args args' : List (Expr F)}
    (h : List.Forall₂ (fun a b => handleExpression row a = handleExpression row' b) args args') :
    ∀ s, sumLoop row s args = sumLoop row' s args' := by
  induction h with
  | nil => intro s; simp only [sumLoop]
  | cons h _ ih =>
    intro s
    simp only [sumLoop, h]
    congr 1
    funext v
    exact ih _

/-- Calls with arguments of the same values have the same value. -/
theorem apply_pairs {row row' : Row F} {args args' : List (Expr F)} (fn : String)
    (h : List.Forall₂ (fun a b => handleExpression row a = handleExpression row' b) args args') :
    handleExpression row (.apply fn args) = handleExpression row' (.apply fn args') := by
  have hsum := sumLoop_pairs h Arith.zero
  have hl := h.length_eq
  unfold handleExpression
  rw [hsum]
  cases h with
  | nil => rfl
  | cons h1 h =>
    cases h with
    | nil => simp only [h1, List.length_cons, List.length_nil]
    | cons h2 h =>
      cases h with
      | nil => simp only [h1, h2, List.length_cons, List.length_nil]
      | cons h3 h =>
        cases h with
        | nil => simp only [h1, h2, h3, List.length_cons, List.length_nil]
        | cons h4 h => simp only [hl]

omit [Arith F] [Lib F] in
theorem substs_eq (σ : List (String × Expr F)) (es : List (Expr F)) : substs σ es = es.map (subst σ) := by
  induction es with
  | nil => rw [substs]; rfl
  | cons e es ih => rw [substs, ih]; rfl

omit [Arith F] [Lib F] in
theorem clear_iff {D fs : List String} : clear D fs = true ↔ ∀ f ∈ fs, f ∉ D := by
  simp [clear]

/-- The row `r` holds the values of the expressions `σ`, computed in `r'`; the rows agree otherwise. -/
structure Steps (D : List String) (σ : List (String × Expr F)) (r r' : GoMap (GoVal F)) : Prop where
  agree : Agree (· ∉ D) r r'
  inD : ∀ s ∈ σ, s.1 ∈ D
  clear : ∀ s ∈ σ, ∀ f ∈ exprFields s.2, f ∉ D
  value : ∀ f e, σ.lookup f = some e → handleExpression (some r') e = .ok (Row.getD (some r) f)

theorem subst_eval {D : List String} {σ : List (String × Expr F)} {r r' : GoMap (GoVal F)}
    (h : Steps D σ r r') (e : Expr F) : (∀ f ∈ exprFields (subst σ e), f ∉ D) →
    handleExpression (some r) e = handleExpression (some r') (subst σ e) := by
  induction e using Expr.ind with
  | h1 f =>
    intro hc
    rw [subst] at hc ⊢
    cases hl : σ.lookup f with
    | none =>
      rw [hl] at hc
      simp only [Option.getD_none] at hc ⊢
      simp only [handleExpression, Row.getD, Row.get, Option.bind_some]
      rw [h.agree f (hc f (by simp [exprFields]))]
    | some e =>
      simp only [Option.getD_some]
      rw [h.value f e hl, handleExpression]
  | h2 dt v => intro _; rw [subst]; simp [handleExpression]
  | h4 m =>
    intro hc
    rw [subst] at hc ⊢
    exact Props.C35_expression_frame _ (fun f hf => h.agree f (hc f hf))
  | h5 k => intro _; rw [subst]; simp [handleExpression]
  | h3 fn args ih =>
    intro hc
    rw [subst] at hc ⊢
    rw [substs_eq] at hc ⊢
    apply apply_pairs
    rw [List.forall₂_map_right_iff, List.forall₂_same]
    intro a ha
    refine ih a ha fun f hf => hc f ?_
    rw [exprFields]
    exact Props.exprsFields_mem (List.mem_map_of_mem ha) hf

theorem number_eval {row : Row F} (e : Expr F) : makesNumber e = true → ∀ v, handleExpression row e = .ok v →
    ∃ x, v = .f64 x := by
  induction e using Expr.ind with
  | h1 f => intro h; simp [makesNumber] at h
  | h4 m => intro h; simp [makesNumber] at h
  | h5 k => intro h; simp [makesNumber] at h
  | h2 dt t =>
    intro _ v hv
    rw [handleExpression] at hv
    unfold handleConstant at hv
    split at hv
    · split at hv
      · simp only [Except.ok.injEq] at hv; exact ⟨_, hv.symm⟩
      · simp at hv
    · simp at hv
  | h3 fn args ih =>
    intro h v hv
    have hb : ∀ {α β : Type} {x : Res α} {f : α → Res β} {y : β}, x >>= f = .ok y → ∃ a, f a = .ok y := by
      intro α β x f y hx
      cases x with
      | error e => simp [bind, Except.bind] at hx
      | ok a => exact ⟨a, hx⟩
    unfold handleExpression at hv
    by_cases h1 : fn = "sum"
    · rw [if_pos h1] at hv
      obtain ⟨a, ha⟩ := hb hv
      exact ⟨a, (Except.ok.inj ha).symm⟩
    rw [if_neg h1] at hv
    by_cases h2 : fn = "*" ∨ fn = "+" ∨ fn = "-" ∨ fn = "/"
    · rw [if_pos h2] at hv
      split at hv
      · obtain ⟨a, ha⟩ := hb hv
        obtain ⟨b, hb'⟩ := hb ha
        split_ifs at hb' <;> exact ⟨_, (Except.ok.inj hb').symm⟩
      · simp at hv
    rw [if_neg h2] at hv
    have h3 : fn = "if" ∧ ∃ c a b, args = [c, a, b] ∧ makesNumber a = true ∧ makesNumber b = true := by
      unfold makesNumber at h
      split at h <;> simp_all
    obtain ⟨rfl, c, a, b, rfl, ha, hb'⟩ := h3
    simp only [String.reduceEq, if_false, if_true] at hv
    obtain ⟨w, hw⟩ := hb hv
    split_ifs at hw
    · exact ih a (by simp) ha v hw
    · exact ih b (by simp) hb' v hw

theorem canDrop_eval {op : OpType} {e : Expr F} (h : canDrop op e = true) (r : GoMap (GoVal F)) :
    ∃ v, handleExpression (some r) e = .ok v ∧ storeValue op v = v := by
  simp only [canDrop, Bool.and_eq_true, Bool.or_eq_true, bne_iff_ne] at h
  obtain ⟨v, hv⟩ := safeExpr_ok (K := []) (r := r) (by simp [Holds]) e h.1
  refine ⟨v, hv, ?_⟩
  cases op with
  | other k => rfl
  | continuous =>
    rcases h.2 with h | h
    · simp at h
    · obtain ⟨x, rfl⟩ := number_eval e h v hv
      rfl

omit [Arith F] [Lib F] in
theorem getD_insert {r : GoMap (GoVal F)} {x f : String} {v : GoVal F} (h : x ≠ f) :
    Row.getD (some (r.insert x v)) f = Row.getD (some r) f := by
  simp [Row.getD, Row.get, GoMap.getElem?_insert, h]

/-- Derived fields may be exchanged: they compute the same fields outside `D`, with the same types. -/
structure Reworks (D : String → Prop) (L L' : List (DerivedField F)) : Prop where
  types : ∀ f, ¬ D f → (L.filter (fun d => d.name = f)).map (·.dataType) =
    (L'.filter (fun d => d.name = f)).map (·.dataType)
  runs : ∀ r r' : GoMap (GoVal F), Agree (fun f => ¬ D f) r r' →
    (handleInput L (some r)).1 = (handleInput L' (some r')).1 ∧
    ∃ q q', (handleInput L (some r)).2 = some q ∧ (handleInput L' (some r')).2 = some q' ∧
      Agree (fun f => ¬ D f) q q'

omit [Arith F] in
theorem inlineFields_types {D : List String} (L : List (DerivedField F)) :
    ∀ σ {L'}, inlineFields D σ L = some L' → ∀ f, f ∉ D →
      (L.filter (fun d => d.name = f)).map (·.dataType) = (L'.filter (fun d => d.name = f)).map (·.dataType) := by
  induction L with
  | nil => intro σ L' h f hf; simp [inlineFields] at h; subst h; rfl
  | cons df dfs ih =>
    intro σ L' h f hf
    rw [inlineFields] at h
    split_ifs at h with h1 h2 h3 h4
    · have : df.name ≠ f := by rintro rfl; simp at h2; exact hf h2
      rw [List.filter_cons_of_neg (by simpa using this)]
      exact ih _ h f hf
    · obtain ⟨l, hl, rfl⟩ := Option.map_eq_some_iff.mp h
      by_cases hn : df.name = f
      · rw [List.filter_cons_of_pos (by simpa using hn), List.filter_cons_of_pos (by simpa using hn)]
        simp only [List.map_cons, ih _ hl f hf]
      · rw [List.filter_cons_of_neg (by simpa using hn), List.filter_cons_of_neg (by simpa using hn)]
        exact ih _ hl f hf

theorem inlineFields_runs {D : List String} (L : List (DerivedField F)) :
    ∀ σ {L'}, inlineFields D σ L = some L' → ∀ r r' : GoMap (GoVal F), Steps D σ r r' →
      (handleInput L (some r)).1 = (handleInput L' (some r')).1 ∧
      ∃ q q', (handleInput L (some r)).2 = some q ∧ (handleInput L' (some r')).2 = some q' ∧
        Agree (· ∉ D) q q' := by
  induction L with
  | nil =>
    intro σ L' h r r' hs
    simp [inlineFields] at h
    subst h
    exact ⟨rfl, r, r', rfl, rfl, hs.agree⟩
  | cons df dfs ih =>
    intro σ L' h r r' hs
    rw [inlineFields] at h
    split_ifs at h with h1 h2 h3 h4
    · simp only [Bool.not_eq_true', Bool.not_eq_false] at h1
      have hcl := clear_iff.mp h1
      have hD : df.name ∈ D := by simpa using h2
      obtain ⟨v, hv, hst⟩ := canDrop_eval h3 r'
      have he := subst_eval hs df.expr hcl
      rw [hv] at he
      rw [handleInput, he]
      simp only [hst, Row.set]
      refine ih _ h _ _ ⟨?_, ?_, ?_, ?_⟩
      · intro f hf
        rw [GoMap.getElem?_insert, if_neg (by rintro rfl; exact hf hD)]
        exact hs.agree f hf
      · exact List.forall_mem_cons.mpr ⟨hD, hs.inD⟩
      · exact List.forall_mem_cons.mpr ⟨hcl, hs.clear⟩
      · intro f e hl
        rw [List.lookup_cons] at hl
        by_cases hf : f = df.name
        · subst hf
          simp only [beq_self_eq_true] at hl
          obtain rfl := Option.some.inj hl
          rw [hv]
          simp [Row.getD, Row.get]
        · rw [beq_eq_false_iff_ne.mpr hf] at hl
          rw [getD_insert (Ne.symm hf)]
          exact hs.value f e hl
    · simp only [Bool.not_eq_true', Bool.not_eq_false] at h1
      have hcl := clear_iff.mp h1
      have hD : df.name ∉ D := by simpa using h2
      obtain ⟨l, hl, rfl⟩ := Option.map_eq_some_iff.mp h
      have he := subst_eval hs df.expr hcl
      rw [handleInput, handleInput, he]
      cases hv : handleExpression (some r') (subst σ df.expr) with
      | error e => exact ⟨rfl, r, r', rfl, rfl, hs.agree⟩
      | ok v =>
        simp only [Row.set]
        have hst : ∀ s ∈ σ, df.name ∉ exprFields s.2 := by
          intro s hs' hm
          exact h4 (List.any_eq_true.mpr ⟨s, hs', by simpa using hm⟩)
        refine ih _ hl _ _ ⟨?_, hs.inD, hs.clear, ?_⟩
        · intro f hf
          rw [GoMap.getElem?_insert, GoMap.getElem?_insert, hs.agree f hf]
        · intro f e hl
          have hmem : (f, e) ∈ σ := by
            rw [List.lookup_eq_some_iff] at hl
            obtain ⟨l1, l2, rfl, -⟩ := hl
            simp
          have hf : df.name ≠ f := fun hh => hD (hh ▸ hs.inD _ hmem)
          rw [getD_insert hf, ← hs.value f e hl]
          refine Props.C35_expression_frame e fun g hg => ?_
          have : df.name ≠ g := fun hh => hst _ hmem (hh ▸ hg)
          simp [Row.get, GoMap.getElem?_insert, this]

theorem inlineFields_reworks {D : List String} {L L' : List (DerivedField F)}
    (h : inlineFields D [] L = some L') : Reworks (· ∈ D) L L' :=
  ⟨inlineFields_types L [] h, fun r r' hr =>
    inlineFields_runs L [] h r r' ⟨hr, by simp, by simp, by simp⟩⟩

end Gopmml
