import Verif.Spec.Rules
import Verif.Proofs.Answer
import Verif.Proofs.Safe
import Verif.Props.Rewrite

/-!
# Trees as lists of rules
-/

namespace Gopmml
open Spec

variable {F : Type} {T : Node F → PredRes}

theorem all3_append_t {l l' : List PredRes} (h : ∀ x ∈ l, x = .t) : all3 (l ++ l') = all3 l' := by
  have h1 : PredRes.f ∉ l := fun hm => by simpa using h _ hm
  have h2 : PredRes.u ∉ l := fun hm => by simpa using h _ hm
  simp [all3, h1, h2]

mutual
theorem rules_path : (n : Node F) → (above : List (Node F)) → ∀ r ∈ rules above n, ∃ rest, r.1 = above ++ n :: rest
  | .mk id dc score rc dists nodes pred, above, r, hr => by
    rw [rules, List.mem_append, List.mem_singleton] at hr
    rcases hr with hr | rfl
    · obtain ⟨c, -, rest, h⟩ := rulesOf_path nodes _ r hr
      exact ⟨c :: rest, by rw [h]; simp⟩
    · exact ⟨[], rfl⟩
theorem rulesOf_path : (ns : List (Node F)) → (above : List (Node F)) → ∀ r ∈ rulesOf above ns,
    ∃ c ∈ ns, ∃ rest, r.1 = above ++ c :: rest
  | [], above, r, hr => by simp [rulesOf] at hr
  | n :: ns, above, r, hr => by
    rw [rulesOf, List.mem_append] at hr
    rcases hr with hr | hr
    · exact ⟨n, List.mem_cons_self, rules_path n above r hr⟩
    · obtain ⟨c, hc, h⟩ := rulesOf_path ns above r hr
      exact ⟨c, List.mem_cons_of_mem _ hc, h⟩
end

theorem all3_eq_t {l : List PredRes} : all3 l = .t ↔ ∀ x ∈ l, x = .t := by
  unfold all3
  constructor
  · intro h x hx
    split_ifs at h with h1 h2
    cases x with
    | t => rfl
    | f => exact absurd hx h1
    | u => exact absurd hx h2
  · intro h
    rw [if_neg (fun hm => by simpa using h _ hm), if_neg (fun hm => by simpa using h _ hm)]

theorem all3_eq_f {l : List PredRes} : all3 l = .f ↔ PredRes.f ∈ l := by
  unfold all3
  split_ifs with h1 h2 <;> simp [h1]

mutual
/-- The first rule that holds is that of the node one gets to by going to the first true child. -/
theorem rules_true : (n : Node F) → (above : List (Node F)) → (∀ p ∈ above, T p = .t) → T n = .t →
    ∃ r, FirstTrue T n r.2 ∧ (rules above n).find? (fun r => ruleValue T r = .t) = some r
  | .mk id dc score rc dists nodes pred, above, ha, ht => by
    rw [rules, List.find?_append]
    have ha' : ∀ p ∈ above ++ [.mk id dc score rc dists nodes pred], T p = .t := by
      intro p hp
      rcases List.mem_append.mp hp with hp | hp
      · exact ha p hp
      · rw [List.mem_singleton.mp hp]; exact ht
    rcases rulesOf_true nodes _ ha' with ⟨h1, h2⟩ | ⟨pre, c, post, r, h1, h2, h3, h4, h5⟩
    · rw [h2]
      refine ⟨(above ++ [.mk id dc score rc dists nodes pred], .mk id dc score rc dists nodes pred),
        .stop h1, ?_⟩
      rw [Option.none_or, List.find?_cons_of_pos]
      refine decide_eq_true (all3_eq_t.mpr ?_)
      intro x hx
      obtain ⟨p, hp, rfl⟩ := List.mem_map.mp hx
      exact ha' p hp
    · rw [h5]
      exact ⟨r, .step h1 h2 h3 h4, rfl⟩
theorem rulesOf_true : (ns : List (Node F)) → (above : List (Node F)) → (∀ p ∈ above, T p = .t) →
    ((∀ c ∈ ns, T c ≠ .t) ∧ (rulesOf above ns).find? (fun r => ruleValue T r = .t) = none) ∨
    ∃ pre c post r, ns = pre ++ c :: post ∧ (∀ d ∈ pre, T d ≠ .t) ∧ T c = .t ∧ FirstTrue T c r.2 ∧
      (rulesOf above ns).find? (fun r => ruleValue T r = .t) = some r
  | [], above, _ => .inl ⟨by simp, rfl⟩
  | n :: ns, above, ha => by
    rw [rulesOf, List.find?_append]
    by_cases ht : T n = .t
    · obtain ⟨r, h1, h2⟩ := rules_true n above ha ht
      rw [h2]
      exact .inr ⟨[], n, ns, r, rfl, by simp, ht, h1, rfl⟩
    · have hno : (rules above n).find? (fun r => ruleValue T r = .t) = none := by
        rw [List.find?_eq_none]
        intro r hr
        obtain ⟨rest, hp⟩ := rules_path n above r hr
        simp only [ruleValue, decide_eq_true_eq, all3_eq_t, hp]
        intro h
        exact ht (h _ (List.mem_map_of_mem (by simp)))
      rw [hno, Option.none_or]
      rcases rulesOf_true ns above ha with ⟨h1, h2⟩ | ⟨pre, c, post, r, h1, h2, h3, h4, h5⟩
      · exact .inl ⟨List.forall_mem_cons.mpr ⟨ht, h1⟩, h2⟩
      · exact .inr ⟨n :: pre, c, post, r, by rw [h1]; rfl, List.forall_mem_cons.mpr ⟨ht, h2⟩, h3, h4, h5⟩
end

theorem first_nonfalse_unique {pre pre' post post' : List (Node F)} {c c' : Node F}
    (h : pre ++ c :: post = pre' ++ c' :: post') (h1 : ∀ d ∈ pre, T d = .f) (h2 : T c ≠ .f)
    (h1' : ∀ d ∈ pre', T d = .f) (h2' : T c' ≠ .f) : c = c' := by
  induction pre generalizing pre' with
  | nil =>
    cases pre' with
    | nil => simp at h; exact h.1
    | cons d pre' =>
      simp only [List.nil_append, List.cons_append, List.cons.injEq] at h
      exact absurd (h1' d (by simp)) (h.1 ▸ h2)
  | cons d pre ih =>
    cases pre' with
    | nil =>
      simp only [List.nil_append, List.cons_append, List.cons.injEq] at h
      exact absurd (h1 d (by simp)) (h.1.symm ▸ h2')
    | cons d' pre' =>
      simp only [List.cons_append, List.cons.injEq] at h
      exact ih h.2 (fun e he => h1 e (by simp [he])) (fun e he => h1' e (by simp [he]))

/-- How a descent under nullPrediction ends that has not met a false test. -/
def Ends (T : Node F → PredRes) (n : Node F) (v : PredRes) (r : Node F) : Prop :=
  v = .u ∧ (∃ w, Visits T w n ∧ T w = .u) ∨ v = .t ∧ FirstTrue T n r ∧ ∀ w, Visits T w n → T w ≠ .u

theorem Ends.child {n c r : Node F} {v : PredRes} {pre post : List (Node F)} (ht : T n = .t)
    (hn : n.nodes = pre ++ c :: post) (hpre : ∀ d ∈ pre, T d = .f) (hc : T c ≠ .f) (h : Ends T c v r) :
    Ends T n v r := by
  rcases h with ⟨hv, w, hw, hu⟩ | ⟨hv, hr, hall⟩
  · exact .inl ⟨hv, w, .step ht hn hpre hc hw, hu⟩
  · have hct : T c = .t := by
      have := hall c .here
      cases h : T c <;> simp_all
    refine .inr ⟨hv, .step hn (fun d hd => by rw [hpre d hd]; simp) hct hr, fun w hw => ?_⟩
    cases hw with
    | here => rw [ht]; simp
    | step _ hn' hpre' hc' hw =>
      obtain rfl := first_nonfalse_unique (hn.symm.trans hn') hpre hc hpre' hc'
      exact hall w hw

theorem Ends.stop {n : Node F} (ht : T n = .t) (h : ∀ c ∈ n.nodes, T c = .f) : Ends T n .t n := by
  refine .inr ⟨rfl, .stop fun c hc => by rw [h c hc]; simp, fun w hw => ?_⟩
  cases hw with
  | here => rw [ht]; simp
  | step _ hn' _ hc' _ => exact absurd (h _ (by rw [hn']; simp)) hc'

mutual
theorem rules_null : (n : Node F) → (above : List (Node F)) → (∀ p ∈ above, T p = .t) → T n ≠ .f →
    ∃ r, Ends T n (ruleValue T r) r.2 ∧ (rules above n).find? (fun r => ruleValue T r ≠ .f) = some r
  | .mk id dc score rc dists nodes pred, above, ha, hf => by
    have hlast : ruleValue T (above ++ [.mk id dc score rc dists nodes pred], .mk id dc score rc dists nodes pred) =
        T (.mk id dc score rc dists nodes pred) := by
      simp only [ruleValue, List.map_append, List.map_cons, List.map_nil]
      rw [all3_append_t (by simpa using ha)]
      cases T (.mk id dc score rc dists nodes pred) <;> simp [all3]
    cases ht : T (.mk id dc score rc dists nodes pred) with
    | f => exact absurd ht hf
    | u =>
      cases hfind : (rules above (.mk id dc score rc dists nodes pred)).find? (fun r => ruleValue T r ≠ .f) with
      | none =>
        exfalso
        rw [List.find?_eq_none] at hfind
        have := hfind (above ++ [.mk id dc score rc dists nodes pred], .mk id dc score rc dists nodes pred)
          (by rw [rules]; simp)
        rw [hlast, ht] at this
        simp at this
      | some r =>
        refine ⟨r, .inl ⟨?_, _, .here, ht⟩, rfl⟩
        obtain ⟨rest, hp⟩ := rules_path _ above r (List.mem_of_find?_eq_some hfind)
        have h1 : ruleValue T r ≠ .f := by simpa using List.find?_some hfind
        have h2 : ruleValue T r ≠ .t := by
          simp only [ruleValue, ne_eq, all3_eq_t, hp]
          intro h
          have := h _ (List.mem_map_of_mem (f := T) (a := .mk id dc score rc dists nodes pred) (by simp))
          rw [ht] at this
          cases this
        cases h : ruleValue T r <;> simp_all
    | t =>
      rw [rules, List.find?_append]
      have ha' : ∀ p ∈ above ++ [.mk id dc score rc dists nodes pred], T p = .t := by
        intro p hp
        rcases List.mem_append.mp hp with hp | hp
        · exact ha p hp
        · rw [List.mem_singleton.mp hp]; exact ht
      rcases rulesOf_null nodes _ ha' with ⟨h1, h2⟩ | ⟨pre, c, post, r, h1, h2, h3, h4, h5⟩
      · rw [h2]
        refine ⟨(above ++ [.mk id dc score rc dists nodes pred], .mk id dc score rc dists nodes pred), ?_, ?_⟩
        · rw [hlast, ht]; exact .stop ht h1
        · rw [Option.none_or, List.find?_cons_of_pos]
          rw [hlast, ht]; simp
      · rw [h5]
        exact ⟨r, .child ht h1 h2 h3 h4, rfl⟩
theorem rulesOf_null : (ns : List (Node F)) → (above : List (Node F)) → (∀ p ∈ above, T p = .t) →
    ((∀ c ∈ ns, T c = .f) ∧ (rulesOf above ns).find? (fun r => ruleValue T r ≠ .f) = none) ∨
    ∃ pre c post r, ns = pre ++ c :: post ∧ (∀ d ∈ pre, T d = .f) ∧ T c ≠ .f ∧ Ends T c (ruleValue T r) r.2 ∧
      (rulesOf above ns).find? (fun r => ruleValue T r ≠ .f) = some r
  | [], above, _ => .inl ⟨by simp, rfl⟩
  | n :: ns, above, ha => by
    rw [rulesOf, List.find?_append]
    by_cases hf : T n = .f
    · have hno : (rules above n).find? (fun r => ruleValue T r ≠ .f) = none := by
        rw [List.find?_eq_none]
        intro r hr
        obtain ⟨rest, hp⟩ := rules_path n above r hr
        simp only [ruleValue, decide_eq_true_eq, ne_eq, not_not, all3_eq_f, hp]
        exact List.mem_map.mpr ⟨n, by simp, hf⟩
      rw [hno, Option.none_or]
      rcases rulesOf_null ns above ha with ⟨h1, h2⟩ | ⟨pre, c, post, r, h1, h2, h3, h4, h5⟩
      · exact .inl ⟨List.forall_mem_cons.mpr ⟨hf, h1⟩, h2⟩
      · exact .inr ⟨n :: pre, c, post, r, by rw [h1]; rfl, List.forall_mem_cons.mpr ⟨hf, h2⟩, h3, h4, h5⟩
    · obtain ⟨r, h1, h2⟩ := rules_null n above ha hf
      rw [h2]
      exact .inr ⟨[], n, ns, r, rfl, by simp, hf, h1, rfl⟩
end

/-! ## Flattened trees -/

theorem testValue_conj (leaf : SimplePred F → PredRes) (ps : List (Pred F)) :
    testValue leaf (conj ps) = all3 (ps.map (testValue leaf)) := by
  unfold conj
  split
  · rename_i h
    obtain ⟨p, hp, hf⟩ := List.any_eq_true.mp h
    cases p <;> simp [saysFalse] at hf
    rw [eq_comm, testValue, all3_eq_f]
    exact List.mem_map.mpr ⟨.false_, hp, rfl⟩
  · rename_i h
    have hnf : ∀ p ∈ ps, saysFalse p = false := by
      intro p hp
      by_contra hc
      exact h (List.any_eq_true.mpr ⟨p, hp, by simpa using hc⟩)
    have hall : all3 (ps.map (testValue leaf)) = all3 ((ps.filter (! saysTrue ·)).map (operandValue leaf)) := by
      have hop : ∀ p ∈ ps, saysTrue p = false → testValue leaf p = operandValue leaf p := by
        intro p hp ht
        have := hnf p hp
        cases p <;> simp_all [saysTrue, saysFalse, testValue]
      have htr : ∀ p : Pred F, saysTrue p = true → testValue leaf p = .t := by
        intro p ht
        cases p <;> simp_all [saysTrue, testValue]
      have key : ∀ x, x ≠ .t → (x ∈ ps.map (testValue leaf) ↔
          x ∈ (ps.filter (! saysTrue ·)).map (operandValue leaf)) := by
        intro x hx
        simp only [List.mem_map, List.mem_filter]
        constructor
        · rintro ⟨p, hp, rfl⟩
          have ht : saysTrue p = false := by
            by_contra hc
            exact hx (htr p (by simpa using hc))
          exact ⟨p, ⟨hp, by simp [ht]⟩, (hop p hp ht).symm⟩
        · rintro ⟨p, ⟨hp, ht⟩, rfl⟩
          exact ⟨p, hp, hop p hp (by simpa using ht)⟩
      simp only [all3, key _ (show PredRes.f ≠ .t by simp), key _ (show PredRes.u ≠ .t by simp)]
    rw [hall]
    split
    · rename_i hq
      rw [hq]; rfl
    · rename_i q qs hq
      rw [hq]
      simp only [testValue, operandValue, combine, Props.operandValues_map]

theorem simples_conj {ps : List (Pred F)} {s : SimplePred F} (h : s ∈ simples (conj ps)) :
    ∃ p ∈ ps, s ∈ simples p := by
  unfold conj at h
  split at h
  · simp [simples] at h
  · split at h
    · simp [simples] at h
    · rename_i q qs hq
      simp only [simples, mem_simpless] at h
      obtain ⟨p, hp, hs⟩ := h
      rw [← hq] at hp
      exact ⟨p, (List.mem_filter.mp hp).1, hs⟩

mutual
theorem rules_sub : (n : Node F) → (above : List (Node F)) → ∀ r ∈ rules above n, Sub r.2 n ∧
    ∀ p ∈ r.1, p ∈ above ∨ Sub p n
  | .mk id dc score rc dists nodes pred, above, r, hr => by
    rw [rules, List.mem_append, List.mem_singleton] at hr
    rcases hr with hr | hr
    · obtain ⟨c, hc, h1, h2⟩ := rulesOf_sub nodes _ r hr
      refine ⟨.child hc h1, fun p hp => ?_⟩
      rcases h2 p hp with h | h
      · rcases List.mem_append.mp h with h | h
        · exact .inl h
        · rw [List.mem_singleton.mp h]; exact .inr .refl
      · exact .inr (.child hc h)
    · rw [hr]
      refine ⟨.refl, fun p hp => ?_⟩
      rcases List.mem_append.mp hp with h | h
      · exact .inl h
      · rw [List.mem_singleton.mp h]; exact .inr .refl
theorem rulesOf_sub : (ns : List (Node F)) → (above : List (Node F)) → ∀ r ∈ rulesOf above ns, ∃ c ∈ ns,
    Sub r.2 c ∧ ∀ p ∈ r.1, p ∈ above ∨ Sub p c
  | [], above, r, hr => by simp [rulesOf] at hr
  | n :: ns, above, r, hr => by
    rw [rulesOf, List.mem_append] at hr
    rcases hr with hr | hr
    · exact ⟨n, List.mem_cons_self, rules_sub n above r hr⟩
    · obtain ⟨c, hc, h⟩ := rulesOf_sub ns above r hr
      exact ⟨c, List.mem_cons_of_mem _ hc, h⟩
end

theorem ruleNode_nodes (r : Rule F) : (ruleNode r).nodes = [] := by
  obtain ⟨path, id, dc, score, rc, dists, nodes, pred⟩ := r; rfl

theorem ruleNode_pred (r : Rule F) : (ruleNode r).pred = some (conj (r.1.filterMap (·.pred))) := by
  obtain ⟨path, id, dc, score, rc, dists, nodes, pred⟩ := r; rfl

section
variable [Arith F] [Lib F]

theorem nodeTest_rule {types : FieldTypes} {row : Row F} (r : Rule F) (h : ∀ n ∈ r.1, n.pred.isSome) :
    nodeTest types row (ruleNode r) = ruleValue (nodeTest types row) r := by
  unfold nodeTest ruleValue
  rw [ruleNode_pred]
  simp only [testValue_conj]
  congr 1
  generalize r.1 = l at h
  induction l with
  | nil => rfl
  | cons n l ih =>
    obtain ⟨p, hp⟩ := Option.isSome_iff_exists.mp (h n (by simp))
    rw [List.filterMap_cons]
    simp only [hp, List.map_cons]
    rw [ih fun n hn => h n (by simp [hn])]

omit [Lib F] in
theorem ownDist_rule {dd : List DataField} {d : TreeDoc F} (hnt : d.noTrueChildStrategy ≠ .returnNullPrediction)
    (r : Rule F) : ownDist dd d (ruleNode r) = ownDist dd d r.2 := by
  obtain ⟨path, id, dc, score, rc, dists, nodes, pred⟩ := r
  simp only [ownDist, ruleNode, hnt, and_false, if_false]
  rfl

end

end Gopmml
