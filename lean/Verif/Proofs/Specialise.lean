import Verif.Spec.Specialise
import Verif.Proofs.Rewrite
import Verif.Proofs.F64Ext

/-!
# Which outcomes a test can have on the rows of a box
-/

namespace Gopmml
open Spec

namespace Spec.Outcomes

theorem has_only (v : PredRes) : (only v).has v = true := by cases v <;> rfl

theorem all_spec {a : Outcomes} {P : PredRes → Bool} (h : a.all P = true) {v : PredRes} (hv : a.has v = true) :
    P v = true := by
  cases v <;> simp_all [all, has]

variable {vs : List PredRes} {as : List Outcomes}

theorem and_has (h : List.Forall₂ (fun v a => has a v = true) vs as) : (combine .and as).has (all3 vs) = true := by
  unfold all3
  split_ifs with h1 h2
  · simp only [combine, has, List.any_eq_true]
    induction h with
    | nil => simp at h1
    | cons h _ ih =>
      rcases List.mem_cons.mp h1 with rfl | h1
      · exact ⟨_, List.mem_cons_self, h⟩
      · obtain ⟨a, ha, hf⟩ := ih h1
        exact ⟨a, List.mem_cons_of_mem _ ha, hf⟩
  · simp only [combine, has, Bool.and_eq_true, List.any_eq_true, List.all_eq_true]
    constructor
    · clear h2
      induction h with
      | nil => simp
      | @cons v a _ _ h _ ih =>
        intro b hb
        rcases List.mem_cons.mp hb with rfl | hb
        · cases v <;> simp_all [has]
        · exact ih (fun h => h1 (List.mem_cons_of_mem _ h)) b hb
    · clear h1
      induction h with
      | nil => simp at h2
      | cons h _ ih =>
        rcases List.mem_cons.mp h2 with rfl | h2
        · exact ⟨_, List.mem_cons_self, h⟩
        · obtain ⟨a, ha, hf⟩ := ih h2
          exact ⟨a, List.mem_cons_of_mem _ ha, hf⟩
  · simp only [combine, has, List.all_eq_true]
    induction h with
    | nil => simp
    | @cons v a _ _ h _ ih =>
      intro b hb
      rcases List.mem_cons.mp hb with rfl | hb
      · cases v <;> simp_all [has]
      · exact ih (fun h => h1 (List.mem_cons_of_mem _ h)) (fun h => h2 (List.mem_cons_of_mem _ h)) b hb

theorem or_has (h : List.Forall₂ (fun v a => has a v = true) vs as) : (combine .or as).has (any3 vs) = true := by
  unfold any3
  split_ifs with h1 h2
  · simp only [combine, has, List.any_eq_true]
    induction h with
    | nil => simp at h1
    | cons h _ ih =>
      rcases List.mem_cons.mp h1 with rfl | h1
      · exact ⟨_, List.mem_cons_self, h⟩
      · obtain ⟨a, ha, hf⟩ := ih h1
        exact ⟨a, List.mem_cons_of_mem _ ha, hf⟩
  · simp only [combine, has, Bool.and_eq_true, List.any_eq_true, List.all_eq_true]
    constructor
    · clear h2
      induction h with
      | nil => simp
      | @cons v a _ _ h _ ih =>
        intro b hb
        rcases List.mem_cons.mp hb with rfl | hb
        · cases v <;> simp_all [has]
        · exact ih (fun h => h1 (List.mem_cons_of_mem _ h)) b hb
    · clear h1
      induction h with
      | nil => simp at h2
      | cons h _ ih =>
        rcases List.mem_cons.mp h2 with rfl | h2
        · exact ⟨_, List.mem_cons_self, h⟩
        · obtain ⟨a, ha, hf⟩ := ih h2
          exact ⟨a, List.mem_cons_of_mem _ ha, hf⟩
  · simp only [combine, has, List.all_eq_true]
    induction h with
    | nil => simp
    | @cons v a _ _ h _ ih =>
      intro b hb
      rcases List.mem_cons.mp hb with rfl | hb
      · cases v <;> simp_all [has]
      · exact ih (fun h => h1 (List.mem_cons_of_mem _ h)) (fun h => h2 (List.mem_cons_of_mem _ h)) b hb

theorem parity_has (h : List.Forall₂ (fun v a => has a v = true) vs as) (hu : PredRes.u ∉ vs) :
    if vs.count .t % 2 = 1 then (parity as).2 = true else (parity as).1 = true := by
  induction h with
  | nil => simp [parity]
  | @cons v a vs as h _ ih =>
    have ih := ih fun h => hu (List.mem_cons_of_mem _ h)
    cases v with
    | u => simp at hu
    | f =>
      simp only [List.count_cons, parity]
      split_ifs at ih ⊢ <;> simp_all [has]
    | t =>
      simp only [List.count_cons, parity]
      split_ifs at ih ⊢ <;> simp_all [has] <;> omega

theorem xor_has (h : List.Forall₂ (fun v a => has a v = true) vs as) : (combine .xor as).has (odd3 vs) = true := by
  unfold odd3
  by_cases h1 : PredRes.u ∈ vs
  · rw [if_pos h1]
    simp only [combine, has, List.any_eq_true]
    induction h with
    | nil => simp at h1
    | cons h _ ih =>
      rcases List.mem_cons.mp h1 with rfl | h1
      · exact ⟨_, List.mem_cons_self, h⟩
      · obtain ⟨a, ha, hf⟩ := ih h1
        exact ⟨a, List.mem_cons_of_mem _ ha, hf⟩
  · rw [if_neg h1]
    have := parity_has h h1
    split_ifs at this ⊢ <;> simpa [combine, has] using this

theorem first_has (h : List.Forall₂ (fun v a => has a v = true) vs as) : (first as).has (firstKnown vs) = true := by
  induction h with
  | nil => rfl
  | @cons v a vs as h _ ih =>
    cases v with
    | u =>
      have : firstKnown (PredRes.u :: vs) = firstKnown vs := by simp [firstKnown]
      rw [this]
      cases hv : firstKnown vs <;> rw [hv] at ih <;> simp_all [first, has]
    | t => simp_all [firstKnown, first, has]
    | f => simp_all [firstKnown, first, has]

theorem combine_has (op : BoolOp) (h : List.Forall₂ (fun v a => has a v = true) vs as) :
    (combine op as).has (Spec.combine op vs) = true := by
  cases op with
  | and => exact and_has h
  | or => exact or_has h
  | xor => exact xor_has h
  | surrogate => exact first_has h
  | other s => rfl

end Spec.Outcomes

section
variable {F : Type} {leaf : SimplePred F → PredRes} {out : SimplePred F → Outcomes}
  (h : ∀ s, (out s).has (leaf s) = true)
include h

set_option linter.unusedSectionVars false in
mutual
theorem operand_has : (p : Pred F) → (operandOutcomes out p).has (operandValue leaf p) = true
  | .true_ => rfl
  | .false_ => rfl
  | .set _ => rfl
  | .simple p => h p
  | .compound op ps => by
    rw [operandOutcomes, operandValue]
    exact Outcomes.combine_has op (operands_has ps)
theorem operands_has : (ps : List (Pred F)) → List.Forall₂ (fun v a => Outcomes.has a v = true)
    (operandValue.operandValues leaf ps) (operandOutcomes.operandsOutcomes out ps)
  | [] => .nil
  | p :: ps => .cons (operand_has p) (operands_has ps)
end

theorem test_has (p : Pred F) : (testOutcomes out p).has (testValue leaf p) = true := by
  cases p with
  | true_ => rfl
  | false_ => rfl
  | set a => exact operand_has h (.set a)
  | simple s => exact operand_has h (.simple s)
  | compound op ps => exact operand_has h (.compound op ps)
end

namespace F64

theorem eq_eq (x y : F64) : eq x y = (le x y && le y x) := by
  have key : ∀ a b : ℚ, decide (a = b) = ((decide (a < b) || decide (a = b)) && (decide (b < a) || decide (b = a))) := by
    intro a b
    rcases lt_trichotomy a b with h | rfl | h
    · simp [h.ne, h.ne', h.not_gt]
    · simp
    · simp [h.ne, h.ne', h.not_gt]
  have key0 : ∀ a : ℚ, decide (a = 0) =
      ((decide (a < 0) || decide (a = 0)) && (decide (0 < a) || decide (a = 0))) := by
    intro a
    have := key a 0
    rwa [show decide ((0 : ℚ) = a) = decide (a = 0) by simp [eq_comm]] at this
  cases x <;> cases y <;> simp only [le, lt, eq, Bool.false_or, Bool.or_false, Bool.and_self] <;>
    first
    | rfl
    | exact key _ _
    | exact key0 _
    | (rw [Bool.and_comm]; exact key0 _)
    | (rename_i a b; cases a <;> cases b <;> rfl)
    | (rename_i a b c; cases a <;> rfl)
    | (rename_i a; cases a <;> rfl)

theorem lt_of_le_of_lt {x y z : F64} (h : le x y = true) (h' : lt y z = true) : lt x z = true := by
  have h1 := le_not_nan h
  have h2 := lt_not_nan h'
  rw [le_iff h1.1 h1.2] at h
  rw [lt_iff h2.1 h2.2] at h'
  rw [lt_iff h1.1 h2.2]
  exact _root_.lt_of_le_of_lt h h'

theorem lt_of_lt_of_le {x y z : F64} (h : lt x y = true) (h' : le y z = true) : lt x z = true := by
  have h1 := lt_not_nan h
  have h2 := le_not_nan h'
  rw [lt_iff h1.1 h1.2] at h
  rw [le_iff h2.1 h2.2] at h'
  rw [lt_iff h1.1 h2.2]
  exact _root_.lt_of_lt_of_le h h'

end F64

theorem has_ofBool {a : Outcomes} {b : Bool} (h1 : b = true → a.t = true) (h2 : b = false → a.f = true) :
    a.has (ofBool b) = true := by
  cases b
  · exact h2 rfl
  · exact h1 rfl

theorem has_both (b : Bool) : Outcomes.has ⟨true, true, false⟩ (ofBool b) = true := by cases b <;> rfl

theorem between_has {lo hi x : F64} (h1 : F64.le lo x = true) (h2 : F64.le x hi = true) (dt : DataType)
    (op : SimpleOp) (text : String) :
    (betweenOutcomes dt op text lo hi).has (ofBool (satisfies dt op text (.f64 x))) = true := by
  have heq : ∀ c, F64.eq x c = true → F64.le lo c = true ∧ F64.le c hi = true := by
    intro c h
    rw [F64.eq_eq, Bool.and_eq_true] at h
    exact ⟨F64.le_trans h1 h.1, F64.le_trans h.2 h2⟩
  have hne : ∀ c, F64.eq x c = false → (F64.eq lo c && F64.eq c hi) = false := by
    intro c h
    rw [← Bool.not_eq_true] at h ⊢
    intro h'
    simp only [F64.eq_eq, Bool.and_eq_true] at h h'
    exact h ⟨F64.le_trans h2 h'.2.2, F64.le_trans h'.1.2 h1⟩
  unfold betweenOutcomes
  cases op with
  | isMissing => rfl
  | isNotMissing => rfl
  | other s => rfl
  | equal =>
    by_cases hd : dt = .double ∨ dt = .float
    · simp only [if_pos hd]
      have : satisfies dt .equal text (.f64 x) = (match Lib.parseFloat (F := F64) text with
          | some c => F64.eq x c | none => false) := by
        rcases hd with rfl | rfl <;> simp only [satisfies, denotes] <;>
          cases Lib.parseFloat (F := F64) text <;> rfl
      rw [this]
      cases Lib.parseFloat (F := F64) text with
      | none => exact has_both _
      | some c => exact has_ofBool (fun h => by simp [heq c h]) (fun h => by simp [hne c h])
    · simp only [if_neg hd]; exact has_both _
  | notEqual =>
    by_cases hd : dt = .double ∨ dt = .float
    · simp only [if_pos hd]
      have : satisfies dt .notEqual text (.f64 x) = !(match Lib.parseFloat (F := F64) text with
          | some c => F64.eq x c | none => false) := by
        rcases hd with rfl | rfl <;> simp only [satisfies, denotes] <;>
          cases Lib.parseFloat (F := F64) text <;> rfl
      rw [this]
      cases Lib.parseFloat (F := F64) text with
      | none => exact has_both _
      | some c =>
        refine has_ofBool (fun h => ?_) (fun h => ?_)
        · simp only [Bool.not_eq_true'] at h
          simp [hne c h]
        · simp only [Bool.not_eq_false'] at h
          simp [heq c h]
    · simp only [if_neg hd]; exact has_both _
  | lessThan =>
    by_cases hd : dt = .double ∨ dt = .float
    · simp only [if_pos hd]
      have : satisfies dt .lessThan text (.f64 x) = (match Lib.parseFloat (F := F64) text with
          | some c => F64.lt x c | none => false) := by
        rcases hd with rfl | rfl <;> simp only [satisfies, floatCmp] <;>
          cases Lib.parseFloat (F := F64) text <;> rfl
      rw [this]
      cases Lib.parseFloat (F := F64) text with
      | none => exact has_both _
      | some c =>
        refine has_ofBool (fun h => F64.lt_of_le_of_lt h1 h) (fun h => ?_)
        simp only [Bool.not_eq_true', ← Bool.not_eq_true] at h ⊢
        exact fun h' => h (F64.lt_of_le_of_lt h2 h')
    · simp only [if_neg hd]; exact has_both _
  | lessOrEqual =>
    by_cases hd : dt = .double ∨ dt = .float
    · simp only [if_pos hd]
      have : satisfies dt .lessOrEqual text (.f64 x) = (match Lib.parseFloat (F := F64) text with
          | some c => F64.le x c | none => false) := by
        rcases hd with rfl | rfl <;> simp only [satisfies, floatCmp] <;>
          cases Lib.parseFloat (F := F64) text <;> rfl
      rw [this]
      cases Lib.parseFloat (F := F64) text with
      | none => exact has_both _
      | some c =>
        refine has_ofBool (fun h => F64.le_trans h1 h) (fun h => ?_)
        simp only [Bool.not_eq_true', ← Bool.not_eq_true] at h ⊢
        exact fun h' => h (F64.le_trans h2 h')
    · simp only [if_neg hd]; exact has_both _
  | greaterThan =>
    by_cases hd : dt = .double ∨ dt = .float
    · simp only [if_pos hd]
      have : satisfies dt .greaterThan text (.f64 x) = (match Lib.parseFloat (F := F64) text with
          | some c => F64.lt c x | none => false) := by
        rcases hd with rfl | rfl <;> simp only [satisfies, floatCmp] <;>
          cases Lib.parseFloat (F := F64) text <;> rfl
      rw [this]
      cases Lib.parseFloat (F := F64) text with
      | none => exact has_both _
      | some c =>
        refine has_ofBool (fun h => F64.lt_of_lt_of_le h h2) (fun h => ?_)
        simp only [Bool.not_eq_true', ← Bool.not_eq_true] at h ⊢
        exact fun h' => h (F64.lt_of_lt_of_le h' h1)
    · simp only [if_neg hd]; exact has_both _
  | greaterOrEqual =>
    by_cases hd : dt = .double ∨ dt = .float
    · simp only [if_pos hd]
      have : satisfies dt .greaterOrEqual text (.f64 x) = (match Lib.parseFloat (F := F64) text with
          | some c => F64.le c x | none => false) := by
        rcases hd with rfl | rfl <;> simp only [satisfies, floatCmp] <;>
          cases Lib.parseFloat (F := F64) text <;> rfl
      rw [this]
      cases Lib.parseFloat (F := F64) text with
      | none => exact has_both _
      | some c =>
        refine has_ofBool (fun h => F64.le_trans h h2) (fun h => ?_)
        simp only [Bool.not_eq_true', ← Bool.not_eq_true] at h ⊢
        exact fun h' => h (F64.le_trans h' h1)
    · simp only [if_neg hd]; exact has_both _

theorem leaf_has {B : Box} {row : Row F64} (h : B.Has row) (types : FieldTypes) (s : SimplePred F64) :
    (leafOutcomes types B s).has (simpleVal types row s) = true := by
  have := h s.field
  unfold leafOutcomes
  cases hb : B s.field with
  | any => simp only; cases simpleVal types row s <;> rfl
  | absent =>
    rw [hb] at this
    simp only [Region.Holds] at this
    rw [simpleVal, this]
    exact Outcomes.has_only _
  | is v =>
    rw [hb] at this
    simp only [Region.Holds] at this
    rw [simpleVal, this]
    simp only
    cases types[s.field]? with
    | none => rfl
    | some dt => exact Outcomes.has_only _
  | between lo hi =>
    rw [hb] at this
    obtain ⟨x, hx, h1, h2⟩ := this
    rw [simpleVal, hx]
    simp only
    cases types[s.field]? with
    | none => rfl
    | some dt => exact between_has h1 h2 dt _ _

/-! ## Trees -/

section
variable {F : Type} [Arith F] [Lib F] {types : FieldTypes} {s : MissingValueStrategy} {nt : NoTrueChildStrategy}
  {R : Row F → Prop} {out : Pred F → Outcomes}

mutual
theorem CSimpler.refl : (n : CNode F) → CSimpler types s nt R n n
  | .mk _ _ _ _ _ cs => .mk (fun _ _ => rfl) (CSimplers.refl _ cs) fun _ => Iff.rfl
theorem CSimplers.refl (dc : String) : (ns : List (CNode F)) → CSimplers types s nt R dc ns ns
  | [] => .nil
  | n :: ns => .cons (CSimpler.refl n) (CSimplers.refl dc ns)
end

variable (ho : ∀ row, R row → ∀ p, (out p).has (testValue (simpleVal types row) p) = true)
include ho

theorem certain_spec {P : PredRes → Bool} {p q : Option (Pred F)}
    (hq : match p with
      | none => q = none
      | some p => ∃ p', compilePredicate types p = .ok p' ∧ q = some p') (h : certain out P p = true) :
    ∀ row, R row → ∃ v, runTest types q row = .ok v ∧ P v = true := by
  intro row hR
  cases p with
  | none => simp [certain] at h
  | some p =>
    obtain ⟨p', hp', rfl⟩ := hq
    exact ⟨_, runTest_spec row hp', Outcomes.all_spec h (ho row hR p)⟩

theorem specialTest_spec {p q : Option (Pred F)}
    (hq : match p with
      | none => q = none
      | some p => ∃ p', compilePredicate types p = .ok p' ∧ q = some p') :
    ∃ q', (match (motive := Option (Pred F) → Prop) specialTest out p with
      | none => q' = none
      | some p => ∃ p', compilePredicate types p = .ok p' ∧ q' = some p') ∧
      ∀ row, R row → runTest types q row = runTest types q' row := by
  unfold specialTest
  split_ifs with h1 h2
  · refine ⟨some .true_, ⟨.true_, by simp [compilePredicate], rfl⟩, fun row hR => ?_⟩
    obtain ⟨v, hv, h⟩ := certain_spec ho hq h1 row hR
    rw [hv, eq_of_beq h]; rfl
  · refine ⟨some .false_, ⟨.false_, by simp [compilePredicate], rfl⟩, fun row hR => ?_⟩
    obtain ⟨v, hv, h⟩ := certain_spec ho hq h2 row hR
    rw [hv, eq_of_beq h]; rfl
  · exact ⟨q, hq, fun _ _ => rfl⟩

mutual
theorem newNode_special : (n : Node F) → ∀ {c : CNode F}, newNode types n = .ok c →
    ∃ c', newNode types (specialNode out s nt n) = .ok c' ∧ CSimpler types s nt R c c'
  | .mk id dc score rc ds ns p, c, hc => by
    obtain ⟨cs, q, hcs, hq, rfl⟩ := newNode_ok hc
    obtain ⟨cs', hcs', hr, hne⟩ := newNodes_special dc ns hcs
    obtain ⟨q', hq', ht⟩ := specialTest_spec ho hq
    rw [specialNode]
    by_cases he : nt = .returnNullPrediction ∧ specialNodes out s nt dc ns = []
    · rw [if_pos he]
      exact ⟨_, compileTest_ok hcs hq', .mk ht (CSimplers.refl _ _) fun _ => Iff.rfl⟩
    · rw [if_neg he]
      refine ⟨_, compileTest_ok hcs' hq', .mk ht hr fun h => ?_⟩
      have h1 : cs' ≠ [] := fun h' => he ⟨h, hne.2.mpr h'⟩
      refine ⟨fun h' => ?_, fun h' => absurd h' h1⟩
      rw [← hne.1] at h'
      subst h'
      exact absurd (hne.2.mp (by rw [specialNodes])) h1
theorem newNodes_special (dc : String) : (ns : List (Node F)) → ∀ {cs : List (CNode F)}, newNodes types ns = .ok cs →
    ∃ cs', newNodes types (specialNodes out s nt dc ns) = .ok cs' ∧ CSimplers types s nt R dc cs cs' ∧
      ((ns = [] ↔ cs = []) ∧ (specialNodes out s nt dc ns = [] ↔ cs' = []))
  | [], cs, hc => by
    simp [newNodes] at hc
    subst hc
    exact ⟨[], by simp [newNodes, specialNodes], .nil, by simp, by simp [specialNodes]⟩
  | .mk id dc' score rc ds ns' p :: ns, cs, hc => by
    rw [newNodes] at hc
    simp only [bind_eq_ok] at hc
    obtain ⟨c1, h1, cs1, h2, hc⟩ := hc
    simp at hc
    subst hc
    obtain ⟨c', hc', hr⟩ := newNode_special (.mk id dc' score rc ds ns' p) h1
    obtain ⟨cs', hcs', hrs, -, hne⟩ := newNodes_special dc ns h2
    obtain ⟨cs2, q, -, hq, rfl⟩ := newNode_ok h1
    rw [specialNodes]
    change ∃ cs', newNodes types (if certain out (skips s dc id) p = true then specialNodes out s nt dc ns
      else if certain out (settles s) p = true then _ else _) = _ ∧ _ ∧ _ ∧
      ((if certain out (skips s dc id) p = true then specialNodes out s nt dc ns
      else if certain out (settles s) p = true then _ else _) = [] ↔ _)
    by_cases hs1 : certain out (skips s dc id) p = true
    · simp only [if_pos hs1]
      exact ⟨cs', hcs', .drop (certain_spec ho hq hs1) hrs, by simp, hne⟩
    · simp only [if_neg hs1]
      by_cases hs2 : certain out (settles s) p = true
      · simp only [if_pos hs2]
        exact ⟨[c'], by simp [newNodes, hc'], .stop hr (certain_spec ho hq hs2), by simp, by simp⟩
      · simp only [if_neg hs2]
        exact ⟨c' :: cs', by simp [newNodes, hc', hcs'], .cons hr hrs, by simp, by simp⟩
end
end

/-! ## How much is left -/

section
variable {F : Type}

theorem Spec.Outcomes.parity_only (vs : List PredRes) (h : PredRes.u ∉ vs) :
    Outcomes.parity (vs.map .only) = (decide (¬ vs.count .t % 2 = 1), decide (vs.count .t % 2 = 1)) := by
  induction vs with
  | nil => rfl
  | cons v vs ih =>
    have ih := ih fun h' => h (List.mem_cons_of_mem _ h')
    cases v with
    | u => simp at h
    | f => simp [Outcomes.parity, ih, Outcomes.only]
    | t =>
      simp only [List.map_cons, Outcomes.parity, ih, Outcomes.only, List.count_cons]
      have : (vs.count PredRes.t + 1) % 2 = 1 ↔ ¬ vs.count PredRes.t % 2 = 1 := by omega
      simp [this]

theorem Spec.Outcomes.parity_unknown (vs : List PredRes) (h : PredRes.u ∈ vs) :
    Outcomes.parity (vs.map .only) = (false, false) := by
  induction vs with
  | nil => simp at h
  | cons v vs ih =>
    cases v with
    | u => rfl
    | f => simp [Outcomes.parity, ih (by simpa using h), Outcomes.only]
    | t => simp [Outcomes.parity, ih (by simpa using h), Outcomes.only]

theorem Spec.Outcomes.first_only (vs : List PredRes) :
    Outcomes.first (vs.map .only) = .only (firstKnown vs) := by
  induction vs with
  | nil => rfl
  | cons v vs ih =>
    cases v with
    | u =>
      have : firstKnown (PredRes.u :: vs) = firstKnown vs := by simp [firstKnown]
      rw [this, List.map_cons, Outcomes.first, ih]
      simp [Outcomes.only]
    | f => simp [Outcomes.first, Outcomes.only, firstKnown]
    | t => simp [Outcomes.first, Outcomes.only, firstKnown]

theorem Spec.Outcomes.t_only (v : PredRes) : (Outcomes.only v).t = decide (v = .t) := by cases v <;> rfl
theorem Spec.Outcomes.f_only (v : PredRes) : (Outcomes.only v).f = decide (v = .f) := by cases v <;> rfl
theorem Spec.Outcomes.u_only (v : PredRes) : (Outcomes.only v).u = decide (v = .u) := by cases v <;> rfl

theorem Spec.Outcomes.any_only (vs : List PredRes) (w : PredRes) :
    vs.any (fun v => decide (v = w)) = decide (w ∈ vs) := by
  rw [Bool.eq_iff_iff]; simp

theorem Spec.Outcomes.all_only (vs : List PredRes) (w : PredRes) :
    vs.all (fun v => decide (v = w)) = decide (∀ v ∈ vs, v = w) := by
  rw [Bool.eq_iff_iff]; simp

theorem Spec.Outcomes.combine_only (op : BoolOp) (vs : List PredRes) :
    Outcomes.combine op (vs.map .only) = .only (Spec.combine op vs) := by
  have key : ∀ {a b c : PredRes}, (∀ v, v = a ∨ v = b ∨ v = c) → a ∉ vs → b ∉ vs → ∀ v ∈ vs, v = c := by
    intro a b c h h1 h2 v hv
    rcases h v with rfl | rfl | rfl
    · exact absurd hv h1
    · exact absurd hv h2
    · rfl
  cases op with
  | and =>
    simp only [Outcomes.combine, Spec.combine, all3, List.all_map, List.any_map, Function.comp_def, t_only, f_only,
      u_only, any_only, all_only]
    by_cases hf : PredRes.f ∈ vs
    · have h1 : ¬ ∀ v ∈ vs, v = .t := fun h => by simpa using h _ hf
      have h2 : (vs.all fun v => decide (v = .t) || decide (v = .u)) = false := by
        rw [List.all_eq_false]; exact ⟨.f, hf, by simp⟩
      simp [hf, h1, h2, Outcomes.only]
    · by_cases hu : PredRes.u ∈ vs
      · have h1 : ¬ ∀ v ∈ vs, v = .t := fun h => by simpa using h _ hu
        have h2 : (vs.all fun v => decide (v = .t) || decide (v = .u)) = true := by
          rw [List.all_eq_true]
          intro v hv
          cases v <;> simp at hf hv ⊢
          exact hf hv
        simp [hf, hu, h1, h2, Outcomes.only]
      · have h1 : ∀ v ∈ vs, v = .t := key (a := .f) (b := .u) (by intro v; cases v <;> simp) hf hu
        simp only [hf, hu, decide_false, Bool.and_false, if_false, Outcomes.only]
        simp only [decide_eq_true h1]
  | or =>
    simp only [Outcomes.combine, Spec.combine, any3, List.all_map, List.any_map, Function.comp_def, t_only, f_only,
      u_only, any_only, all_only]
    by_cases hf : PredRes.t ∈ vs
    · have h1 : ¬ ∀ v ∈ vs, v = .f := fun h => by simpa using h _ hf
      have h2 : (vs.all fun v => decide (v = .f) || decide (v = .u)) = false := by
        rw [List.all_eq_false]; exact ⟨.t, hf, by simp⟩
      simp [hf, h1, h2, Outcomes.only]
    · by_cases hu : PredRes.u ∈ vs
      · have h1 : ¬ ∀ v ∈ vs, v = .f := fun h => by simpa using h _ hu
        have h2 : (vs.all fun v => decide (v = .f) || decide (v = .u)) = true := by
          rw [List.all_eq_true]
          intro v hv
          cases v <;> simp at hf hv ⊢
          exact hf hv
        simp [hf, hu, h1, h2, Outcomes.only]
      · have h1 : ∀ v ∈ vs, v = .f := key (a := .t) (b := .u) (by intro v; cases v <;> simp) hf hu
        simp only [hf, hu, decide_false, Bool.and_false, if_false, Outcomes.only]
        simp only [decide_eq_true h1]
  | xor =>
    simp only [Outcomes.combine, Spec.combine, odd3, List.any_map, Function.comp_def, u_only, any_only]
    by_cases hu : PredRes.u ∈ vs
    · simp [hu, parity_unknown _ hu, Outcomes.only]
    · simp only [hu, parity_only _ hu, if_false, decide_false]
      by_cases hc : vs.count .t % 2 = 1
      · simp [hc, Outcomes.only]
      · simp only [hc, Outcomes.only]
        simp
  | surrogate => exact first_only vs
  | other s => rfl

mutual
theorem operand_only {out : SimplePred F → Outcomes} (h : ∀ s, ∃ v, out s = .only v) : (p : Pred F) →
    ∃ v, operandOutcomes out p = .only v
  | .true_ => ⟨.u, rfl⟩
  | .false_ => ⟨.u, rfl⟩
  | .set _ => ⟨.f, rfl⟩
  | .simple p => h p
  | .compound op ps => by
    obtain ⟨vs, hvs⟩ := operands_only h ps
    rw [operandOutcomes, hvs, Outcomes.combine_only]
    exact ⟨_, rfl⟩
theorem operands_only {out : SimplePred F → Outcomes} (h : ∀ s, ∃ v, out s = .only v) : (ps : List (Pred F)) →
    ∃ vs : List PredRes, operandOutcomes.operandsOutcomes out ps = vs.map .only
  | [] => ⟨[], rfl⟩
  | p :: ps => by
    obtain ⟨v, hv⟩ := operand_only h p
    obtain ⟨vs, hvs⟩ := operands_only h ps
    exact ⟨v :: vs, by rw [operandOutcomes.operandsOutcomes, hv, hvs]; rfl⟩
end

theorem test_only {out : SimplePred F → Outcomes} (h : ∀ s, ∃ v, out s = .only v) (p : Pred F) :
    ∃ v, testOutcomes out p = .only v := by
  cases p with
  | true_ => exact ⟨.t, rfl⟩
  | false_ => exact ⟨.f, rfl⟩
  | set a => exact operand_only h (.set a)
  | simple s => exact operand_only h (.simple s)
  | compound op ps => exact operand_only h (.compound op ps)

variable {out : Pred F → Outcomes} {s : MissingValueStrategy} {nt : NoTrueChildStrategy}

/-- A child with a known test makes no difference or settles the answer, unless it has no test. -/
theorem certain_or (hl : ∀ p, ∃ v, out p = .only v) (hs : Thorough s = false) (dc id : String) (p : Pred F) :
    certain out (skips s dc id) (some p) = true ∨ certain out (settles s) (some p) = true := by
  obtain ⟨v, hv⟩ := hl p
  simp only [certain, hv]
  cases v <;> cases s <;> simp_all [Outcomes.only, Outcomes.all, skips, settles, Thorough]

mutual
theorem specialNode_size : (n : Node F) → (allNodes (specialNode out s nt n)).length ≤ (allNodes n).length
  | .mk id dc score rc ds ns p => by
    rw [specialNode, allNodes, allNodes]
    by_cases h : nt = .returnNullPrediction ∧ specialNodes out s nt dc ns = []
    · rw [if_pos h]; simp
    · rw [if_neg h]
      have := specialNodes_size dc ns
      simpa using this
theorem specialNodes_size (dc : String) : (ns : List (Node F)) →
    (allNodes.allNodess (specialNodes out s nt dc ns)).length ≤ (allNodes.allNodess ns).length
  | [] => by rw [specialNodes]
  | n :: ns => by
    have h1 := specialNode_size n
    have h2 := specialNodes_size dc ns
    rw [specialNodes]
    split_ifs
    · rw [allNodes.allNodess, List.length_append]; omega
    · rw [allNodes.allNodess, allNodes.allNodess, allNodes.allNodess, List.length_append, List.length_append]
      simp only [List.length_nil]; omega
    · rw [allNodes.allNodess, allNodes.allNodess, List.length_append, List.length_append]; omega
end

mutual
theorem specialNode_path (hl : ∀ p, ∃ v, out p = .only v) (hs : Thorough s = false)
    (hnt : nt ≠ .returnNullPrediction) : (n : Node F) → AllPreds n →
    ∀ r ∈ allNodes (specialNode out s nt n), r.nodes.length ≤ 1
  | .mk id dc score rc ds ns p, hp, r, hr => by
    rw [specialNode, if_neg (fun h => hnt h.1), allNodes] at hr
    obtain ⟨h1, h2⟩ := specialNodes_path hl hs hnt dc ns fun n hn r hr => hp r (.child hn hr)
    rcases List.mem_cons.mp hr with rfl | hr
    · exact h1
    · exact h2 r hr
theorem specialNodes_path (hl : ∀ p, ∃ v, out p = .only v) (hs : Thorough s = false)
    (hnt : nt ≠ .returnNullPrediction) (dc : String) : (ns : List (Node F)) → (∀ n ∈ ns, AllPreds n) →
    (specialNodes out s nt dc ns).length ≤ 1 ∧
      ∀ r ∈ allNodes.allNodess (specialNodes out s nt dc ns), r.nodes.length ≤ 1
  | [], _ => by rw [specialNodes]; simp [allNodes.allNodess]
  | n :: ns, hp => by
    have h1 := specialNode_path hl hs hnt n (hp n (by simp))
    have h2 := specialNodes_path hl hs hnt dc ns fun n hn => hp n (by simp [hn])
    rw [specialNodes]
    obtain ⟨p, hq⟩ := hp n (by simp) n .refl
    have := certain_or hl hs dc n.id p
    rw [hq]
    split_ifs with k1 k2
    · exact h2
    · refine ⟨by simp, fun r hr => h1 r ?_⟩
      simpa [allNodes.allNodess] using hr
    · exact absurd this (by simp [k1, k2])
end

end

end Gopmml
