import Mathlib.Data.List.Forall2
import Mathlib.Tactic.SplitIfs
import Verif.Spec.Predicate

/-!
# Predicates: the evaluator computes the specification
-/

namespace Gopmml
open Spec

variable {F : Type} [Arith F] [Lib F]

@[simp] theorem res_bind_ok {α β : Type} (a : α) (f : α → Res β) :
    ((Except.ok a : Res α) >>= f) = f a := rfl
@[simp] theorem res_bind_error {α β : Type} (e : Fault) (f : α → Res β) :
    ((Except.error e : Res α) >>= f) = .error e := rfl
@[simp] theorem res_pure {α : Type} (a : α) : (pure a : Res α) = .ok a := rfl
@[simp] theorem res_map_ok {α β : Type} (a : α) (f : α → β) :
    (Except.map f (Except.ok a : Res α)) = .ok (f a) := rfl
@[simp] theorem res_map_error {α β : Type} (e : Fault) (f : α → β) :
    (Except.map f (Except.error e : Res α)) = .error e := rfl

theorem bind_eq_ok {α β : Type} {x : Res α} {f : α → Res β} {b : β} :
    (x >>= f) = .ok b ↔ ∃ a, x = .ok a ∧ f a = .ok b := by
  cases x with
  | error e => simp
  | ok a => simp

omit [Arith F] in
theorem getRawValue_ok {dt : DataType} {s : String} {v : GoVal F} (h : getRawValue dt s = .ok v) :
    (∃ b, dt = .boolean ∧ parseBool s = some b ∧ v = .bool b) ∨
    (∃ x, (dt = .double ∨ dt = .float) ∧ Lib.parseFloat s = some x ∧ v = .f64 x) ∨
    (∃ n, dt = .integer ∧ parseInt s = some n ∧ v = .int .int64 n) ∨
    (dt = .string ∧ v = .str s) := by
  unfold getRawValue at h
  split at h
  · split at h <;> simp_all [fail]
  · split at h <;> simp_all [fail]
  · split at h <;> simp_all [fail]
  · split at h <;> simp_all [fail]
  · simp_all
  · simp_all [fail]

omit [Arith F] in
theorem compile_simple {types : FieldTypes} {p : SimplePred F} {p' : Pred F}
    (h : compilePredicate types (.simple p) = .ok p') :
    ∃ dt raw, types[p.field]? = some dt ∧ getRawValue dt p.value = .ok raw ∧
      p' = .simple { p with raw := raw } := by
  unfold compilePredicate at h
  split at h
  · simp [fail] at h
  · rename_i dt hdt
    rw [bind_eq_ok] at h
    obtain ⟨raw, hraw, h⟩ := h
    simp at h
    exact ⟨dt, raw, hdt, hraw, h.symm⟩

/-- An accepted simple predicate evaluates to the specified value, without panic. -/
theorem evalSimple_spec {types : FieldTypes} {p : SimplePred F} {dt : DataType} {raw : GoVal F}
    (hdt : types[p.field]? = some dt) (hraw : getRawValue dt p.value = .ok raw) (row : Row F) :
    evalSimple types { p with raw := raw } row = .ok (simpleVal types row p) := by
  rcases getRawValue_ok hraw with ⟨b, rfl, hp, rfl⟩ | ⟨x, hd, hp, rfl⟩ | ⟨n, rfl, hp, rfl⟩ | ⟨rfl, rfl⟩
  · unfold evalSimple simpleVal
    simp only [hdt]
    cases row.get p.field with
    | none => rfl
    | some v =>
      cases hop : p.op <;> simp [satisfies, ofBool, tOrF, evalOrdering, denotes]
      all_goals (cases v <;> simp [GoVal.ifaceEq, hp])
      all_goals (rename_i a; cases a <;> cases b <;> simp)
  · unfold evalSimple simpleVal
    simp only [hdt]
    cases row.get p.field with
    | none => rfl
    | some v =>
      rcases hd with rfl | rfl <;>
      (cases hop : p.op <;>
        simp [satisfies, ofBool, tOrF, evalOrdering, assertF64, floatCmp, hp, denotes])
      all_goals (cases v <;> simp [GoVal.ifaceEq])
      all_goals congr
  · unfold evalSimple simpleVal
    simp only [hdt]
    cases row.get p.field with
    | none => rfl
    | some v =>
      cases hop : p.op <;>
        simp [satisfies, ofBool, tOrF, evalOrdering, assertI64, intCmp, hp, denotes]
      all_goals (cases v <;> simp [GoVal.ifaceEq])
      all_goals (rename_i k m; by_cases hm : m = n <;> cases k <;> simp [hm, eq_comm (a := n)])
  · unfold evalSimple simpleVal
    simp only [hdt]
    cases row.get p.field with
    | none => rfl
    | some v =>
      cases hop : p.op <;>
        simp [satisfies, ofBool, tOrF, evalOrdering, denotes]
      all_goals (cases v <;> simp [GoVal.ifaceEq])

/-- What the operand loop computes when every operand has a value. -/
theorem compoundLoop_eq {types : FieldTypes} {row : Row F} {op : BoolOp} {len : Nat}
    {ps : List (Pred F)} {vs : List PredRes}
    (h : List.Forall₂ (fun p v => evalOperand types row p = .ok v) ps vs) (tc uc : Nat) :
    compoundLoop types row op len tc uc ps =
      .ok (if op = .surrogate then
            (match vs.find? (· ≠ .u) with
              | some v => v
              | none => .u)
          else compoundFinish op len (tc + vs.count .t) (uc + vs.count .u)) := by
  induction h generalizing tc uc with
  | nil =>
    unfold compoundLoop
    simp only [List.count_nil, Nat.add_zero]
    cases op <;> simp [compoundFinish]
  | @cons p v ps vs hp _ ih =>
    unfold compoundLoop
    rw [hp]
    simp only [res_bind_ok]
    by_cases hs : op = .surrogate ∧ v ≠ .u
    · rw [if_pos hs, if_pos hs.1]; simp [hs.2]
    · rw [if_neg hs, ih]
      congr 1
      by_cases hop : op = .surrogate
      · have : v = .u := by simpa [hop] using hs
        simp [hop, this]
      · simp only [hop, if_false]
        cases v <;> simp <;> congr 1 <;> omega

theorem count_three (vs : List PredRes) :
    vs.count .t + vs.count .u + vs.count .f = vs.length := by
  induction vs with
  | nil => rfl
  | cons v vs ih => cases v <;> simp <;> omega

/-- The final switch computes the specified combination. -/
theorem compoundFinish_eq (op : BoolOp) (vs : List PredRes) (h : op ≠ .surrogate) :
    compoundFinish op vs.length (vs.count .t) (vs.count .u) = combine op vs := by
  have h3 := count_three vs
  have mt : PredRes.t ∈ vs ↔ 0 < vs.count .t := List.count_pos_iff.symm
  have mu : PredRes.u ∈ vs ↔ 0 < vs.count .u := List.count_pos_iff.symm
  have mf : PredRes.f ∈ vs ↔ 0 < vs.count .f := List.count_pos_iff.symm
  cases op <;> simp only [compoundFinish, combine, all3, any3, odd3, mt, mu, mf]
  · split_ifs <;> first | rfl | omega
  · exact absurd rfl h

theorem compoundLoop_combine {types : FieldTypes} {row : Row F} {op : BoolOp}
    {ps : List (Pred F)} {vs : List PredRes}
    (h : List.Forall₂ (fun p v => evalOperand types row p = .ok v) ps vs) :
    compoundLoop types row op ps.length 0 0 ps = .ok (combine op vs) := by
  rw [compoundLoop_eq h]
  by_cases hop : op = .surrogate
  · subst hop
    simp only [if_true, combine, firstKnown]
    cases vs.find? (· ≠ .u) <;> rfl
  · rw [if_neg hop, h.length_eq, Nat.zero_add, Nat.zero_add, compoundFinish_eq op vs hop]

omit [Arith F] in
theorem compilePredicates_forall {types : FieldTypes} {ps ps' : List (Pred F)}
    (h : compilePredicates types ps = .ok ps') :
    List.Forall₂ (fun p p' => compilePredicate types p = .ok p') ps ps' := by
  induction ps generalizing ps' with
  | nil => simp [compilePredicates] at h; subst h; exact .nil
  | cons p ps ih =>
    simp only [compilePredicates, bind_eq_ok] at h
    obtain ⟨p', hp, qs, hqs, h⟩ := h
    simp at h; subst h
    exact .cons hp (ih hqs)

mutual
/-- Accepted operands evaluate, without panic, to the specified value. -/
theorem evalOperand_spec {types : FieldTypes} (row : Row F) :
    (p : Pred F) → {p' : Pred F} → compilePredicate types p = .ok p' →
    evalOperand types row p' = .ok (operandValue (simpleVal types row) p)
  | .true_, p', h => by
    simp [compilePredicate] at h; subst h; simp [evalOperand, operandValue]
  | .false_, p', h => by
    simp [compilePredicate] at h; subst h; simp [evalOperand, operandValue]
  | .set f, p', h => by
    simp [compilePredicate] at h; subst h; simp [evalOperand, operandValue]
  | .simple p, p', h => by
    obtain ⟨dt, raw, hdt, hraw, rfl⟩ := compile_simple h
    simp only [evalOperand, operandValue]
    exact evalSimple_spec hdt hraw row
  | .compound op ps, p', h => by
    simp only [compilePredicate, bind_eq_ok] at h
    obtain ⟨ps', hps, h⟩ := h
    simp at h; subst h
    simp only [evalOperand, operandValue]
    exact compoundLoop_combine (evalOperands_spec row ps hps)
theorem evalOperands_spec {types : FieldTypes} (row : Row F) :
    (ps : List (Pred F)) → {ps' : List (Pred F)} → compilePredicates types ps = .ok ps' →
    List.Forall₂ (fun p v => evalOperand types row p = .ok v) ps'
      (operandValue.operandValues (simpleVal types row) ps)
  | [], ps', h => by
    simp [compilePredicates] at h; subst h; exact .nil
  | p :: ps, ps', h => by
    simp only [compilePredicates, bind_eq_ok] at h
    obtain ⟨q, hq, qs, hqs, h⟩ := h
    simp at h; subst h
    exact .cons (evalOperand_spec row p hq) (evalOperands_spec row ps hqs)
end

theorem runTest_spec {types : FieldTypes} (row : Row F) {p p' : Pred F}
    (h : compilePredicate types p = .ok p') :
    runTest types (some p') row = .ok (testValue (simpleVal types row) p) := by
  cases p with
  | true_ => simp [compilePredicate] at h; subst h; rfl
  | false_ => simp [compilePredicate] at h; subst h; rfl
  | set f => simp [compilePredicate] at h; subst h; rfl
  | simple p =>
    have h' := evalOperand_spec row _ h
    obtain ⟨dt, raw, hdt, hraw, rfl⟩ := compile_simple h
    simpa [runTest, testValue] using h'
  | compound op ps =>
    have h' := evalOperand_spec row _ h
    simp only [compilePredicate, bind_eq_ok] at h
    obtain ⟨ps', hps, h⟩ := h
    simp at h; subst h
    simpa [runTest, testValue] using h'

omit [Arith F] [Lib F] in
mutual
theorem operandValue_noConst {leaf : SimplePred F → PredRes} :
    (p : Pred F) → NoConst p → operandValue leaf p = value leaf p
  | .true_, h => by simp [NoConst] at h
  | .false_, h => by simp [NoConst] at h
  | .set _, _ => by simp [operandValue, value]
  | .simple _, _ => by simp [operandValue, value]
  | .compound op ps, h => by
    simp only [operandValue, value]
    rw [operandValues_noConst ps (by simpa [NoConst] using h)]
theorem operandValues_noConst {leaf : SimplePred F → PredRes} :
    (ps : List (Pred F)) → NoConst.NoConsts ps →
    operandValue.operandValues leaf ps = value.values leaf ps
  | [], _ => by simp [operandValue.operandValues, value.values]
  | p :: ps, h => by
    simp only [NoConst.NoConsts] at h
    simp only [operandValue.operandValues, value.values]
    rw [operandValue_noConst p h.1, operandValues_noConst ps h.2]
end

end Gopmml
