import Verif.Proofs.Predicate
import Verif.Proofs.F64Order
import Verif.Model.Replay

/-!
# Properties C01–C07: predicates

"Accepted" means accepted by `compilePredicate`, which `newNode` runs on every
predicate of a tree (C08 says exactly when it accepts).
-/

namespace Gopmml.Props
open Gopmml Spec

variable {F : Type} [Arith F] [Lib F]

/-- **C01** (double/float fields). -/
theorem C01_ordering_float {types : FieldTypes} {p : SimplePred F} {p' : Pred F} {row : Row F}
    {v : GoVal F} (hc : compilePredicate types (.simple p) = .ok p')
    (hdt : types[p.field]? = some .double ∨ types[p.field]? = some .float)
    (hv : row.get p.field = some v) :
    ∃ c, Lib.parseFloat p.value = some c ∧
      (p.op = .lessThan → runTest types (some p') row = .ok (if Arith.lt v.float64 c then .t else .f)) ∧
      (p.op = .lessOrEqual → runTest types (some p') row = .ok (if Arith.le v.float64 c then .t else .f)) ∧
      (p.op = .greaterThan → runTest types (some p') row = .ok (if Arith.lt c v.float64 then .t else .f)) ∧
      (p.op = .greaterOrEqual → runTest types (some p') row = .ok (if Arith.le c v.float64 then .t else .f)) := by
  obtain ⟨dt, raw, hd, hraw, rfl⟩ := compile_simple hc
  have hrun := runTest_spec row hc
  rw [hrun]
  have hd' : dt = .double ∨ dt = .float := by
    rcases hdt with h | h <;> rw [hd] at h <;> simp at h <;> simp [h]
  have hpf : ∃ c, Lib.parseFloat (F := F) p.value = some c := by
    rcases getRawValue_ok hraw with ⟨b, rfl, _⟩ | ⟨x, _, h, _⟩ | ⟨n, rfl, _⟩ | ⟨rfl, _⟩
    · simp at hd'
    · exact ⟨x, h⟩
    · simp at hd'
    · simp at hd'
  obtain ⟨c, hpf⟩ := hpf
  refine ⟨c, hpf, ?_⟩
  simp only [testValue, operandValue, simpleVal, hv, hd]
  refine ⟨?_, ?_, ?_, ?_⟩ <;> intro hop <;> rw [hop] <;>
    (rcases hd' with rfl | rfl <;> simp [satisfies, hpf, floatCmp, ofBool])

/-- **C01** (integer fields). -/
theorem C01_ordering_int {types : FieldTypes} {p : SimplePred F} {p' : Pred F} {row : Row F}
    {v : GoVal F} (hc : compilePredicate types (.simple p) = .ok p')
    (hdt : types[p.field]? = some .integer)
    (hv : row.get p.field = some v) :
    ∃ c, parseInt p.value = some c ∧
      (p.op = .lessThan → runTest types (some p') row = .ok (if v.int64 < c then .t else .f)) ∧
      (p.op = .lessOrEqual → runTest types (some p') row = .ok (if v.int64 ≤ c then .t else .f)) ∧
      (p.op = .greaterThan → runTest types (some p') row = .ok (if c < v.int64 then .t else .f)) ∧
      (p.op = .greaterOrEqual → runTest types (some p') row = .ok (if c ≤ v.int64 then .t else .f)) := by
  obtain ⟨dt, raw, hd, hraw, rfl⟩ := compile_simple hc
  have hrun := runTest_spec row hc
  rw [hrun]
  have hd' : dt = .integer := by rw [hd] at hdt; simpa using hdt
  subst hd'
  have hpf : ∃ c, parseInt p.value = some c := by
    rcases getRawValue_ok hraw with ⟨b, h, _⟩ | ⟨x, h, _⟩ | ⟨n, _, h, _⟩ | ⟨h, _⟩
    · simp at h
    · simp at h
    · exact ⟨n, h⟩
    · simp at h
  obtain ⟨c, hpf⟩ := hpf
  refine ⟨c, hpf, ?_⟩
  simp only [testValue, operandValue, simpleVal, hv, hd]
  refine ⟨?_, ?_, ?_, ?_⟩ <;> intro hop <;> rw [hop] <;>
    simp [satisfies, hpf, intCmp, ofBool]

/-- **C01** (fields of any other type): ordering predicates are false. -/
theorem C01_ordering_other {types : FieldTypes} {p : SimplePred F} {p' : Pred F} {row : Row F}
    {v : GoVal F} {dt : DataType} (hc : compilePredicate types (.simple p) = .ok p')
    (hdt : types[p.field]? = some dt) (h1 : dt ≠ .double) (h2 : dt ≠ .float) (h3 : dt ≠ .integer)
    (hv : row.get p.field = some v)
    (hop : p.op = .lessThan ∨ p.op = .lessOrEqual ∨ p.op = .greaterThan ∨ p.op = .greaterOrEqual) :
    runTest types (some p') row = .ok .f := by
  rw [runTest_spec row hc]
  simp only [testValue, operandValue, simpleVal, hv, hdt]
  rcases hop with h | h | h | h <;> rw [h] <;> cases dt <;> simp_all [satisfies, ofBool]

section Examples
open Replay

def exTypes : FieldTypes :=
  Std.ExtTreeMap.ofList ([("temperature", .double), ("n", .integer), ("outlook", .string),
    ("ok", .boolean)] : List (String × DataType))
def exRow : Row F64 :=
  some (Std.ExtTreeMap.ofList ([("temperature", .int .int 75), ("n", .int .int8 (-3)),
    ("outlook", .str "sunny")] : List (String × GoVal F64)))

-- C01's hypotheses are met: an `int` row value against a double constant, and an int8.
example : (compilePredicate (F := F64) exTypes (sp "temperature" .lessThan "90.5")).isOk ∧
    exTypes["temperature"]? = some .double ∧ exRow.get "temperature" = some (.int .int 75) ∧
    (do runTest exTypes (some (← compilePredicate exTypes (sp "temperature" .lessThan "90.5"))) exRow)
      matches .ok .t ∧
    (do runTest exTypes (some (← compilePredicate exTypes (sp "n" .greaterOrEqual "-3"))) exRow)
      matches .ok .t ∧
    (do runTest exTypes (some (← compilePredicate exTypes (sp "outlook" .lessThan "z"))) exRow)
      matches .ok .f := by decide +kernel
end Examples

/-- **C02**, absent field: unknown, except isMissing which is true. -/
theorem C02_absent {types : FieldTypes} {p : SimplePred F} {p' : Pred F} {row : Row F}
    (hc : compilePredicate types (.simple p) = .ok p') (hv : row.get p.field = none) :
    runTest types (some p') row = .ok (if p.op = .isMissing then .t else .u) := by
  rw [runTest_spec row hc]
  simp only [testValue, operandValue, simpleVal, hv]

/-- **C02**, present field: never unknown; isMissing false, isNotMissing true. -/
theorem C02_present {types : FieldTypes} {p : SimplePred F} {p' : Pred F} {row : Row F} {v : GoVal F}
    (hc : compilePredicate types (.simple p) = .ok p') (hv : row.get p.field = some v) :
    (runTest types (some p') row = .ok .t ∨ runTest types (some p') row = .ok .f) ∧
    (p.op = .isMissing → runTest types (some p') row = .ok .f) ∧
    (p.op = .isNotMissing → runTest types (some p') row = .ok .t) := by
  obtain ⟨dt, raw, hd, hraw, rfl⟩ := compile_simple hc
  rw [runTest_spec row hc]
  simp only [testValue, operandValue, simpleVal, hv, hd]
  refine ⟨?_, ?_, ?_⟩
  · unfold ofBool; split <;> simp
  · intro h; rw [h]; rfl
  · intro h; rw [h]; rfl

/-- **C02**, PMML's rule "isNotMissing is false on an absent field" does not hold: an
accepted predicate on a non-nil row evaluates to unknown. -/
theorem C02_isNotMissing_absent_not_false :
    ∃ (types : FieldTypes) (p : SimplePred F64) (p' : Pred F64) (row : Row F64),
      p.op = .isNotMissing ∧ compilePredicate types (.simple p) = .ok p' ∧ row ≠ none ∧
      row.get p.field = none ∧ runTest types (some p') row ≠ .ok .f := by
  have hc : compilePredicate (F := F64) exTypes (.simple ⟨"outlook", .isNotMissing, "", .nil⟩) =
      .ok (.simple ⟨"outlook", .isNotMissing, "", .str ""⟩) := by
    have : exTypes["outlook"]? = some .string := by decide +kernel
    simp [compilePredicate, this, getRawValue]
  refine ⟨exTypes, _, _, some ∅, rfl, hc, by simp, by simp [Row.get], ?_⟩
  rw [C02_absent hc (by simp [Row.get])]
  simp

omit [Arith F] in
/-- isMissing on a numeric field cannot even be declared without a numeric constant:
an empty constant is rejected (C02's anomaly for numeric fields). -/
theorem C02_isMissing_numeric_needs_constant {types : FieldTypes} {field : String}
    (hdt : types[field]? = some .double) (hp : Lib.parseFloat (F := F) "" = none) :
    ∀ op, compilePredicate (F := F) types (.simple ⟨field, op, "", .nil⟩) = fail (.parse "") := by
  intro op
  simp [compilePredicate, hdt, getRawValue, hp]

/-- **C03**: compounds of simple/set/compound predicates of any depth are three-valued
logic over their leaves; top-level `True`/`False` are true/false. -/
theorem C03_kleene {types : FieldTypes} {p p' : Pred F} (row : Row F)
    (hc : compilePredicate types p = .ok p')
    (hn : NoConst p ∨ p = .true_ ∨ p = .false_) :
    runTest types (some p') row = .ok (value (simpleVal types row) p) := by
  rw [runTest_spec row hc]
  rcases hn with h | rfl | rfl
  · have := operandValue_noConst (leaf := simpleVal types row) p h
    cases p <;> simp_all [testValue, NoConst]
  · rfl
  · rfl

/-- **C03** fails with nested constants: PMML makes `or(True)` true and `and(True)`
true; the code makes both unknown. -/
theorem C03_nested_constants_violate :
    ∃ (types : FieldTypes) (p p' : Pred F64) (row : Row F64),
      p = .compound .or [.true_] ∧ compilePredicate types p = .ok p' ∧
      value (simpleVal types row) p = .t ∧ runTest types (some p') row = .ok .u := by
  have hc : compilePredicate (F := F64) ∅ (.compound .or [.true_]) = .ok (.compound .or [.true_]) := by
    simp [compilePredicate, compilePredicates]
  refine ⟨∅, .compound .or [.true_], _, none, rfl, hc, by decide +kernel, ?_⟩
  rw [runTest_spec _ hc]
  decide +kernel

-- C03 on a nested accepted compound with an unknown leaf: (humidity absent).
example :
    let p : Pred F64 := .compound .and [Replay.sp "outlook" .equal "sunny",
      .compound .xor [Replay.sp "n" .lessThan "0", Replay.sp "temperature" .lessThan "50"],
      .compound .surrogate [Replay.sp "ok" .equal "true", Replay.sp "n" .equal "1"]]
    (compilePredicate exTypes p).isOk ∧ value (simpleVal exTypes exRow) p = .f ∧
    (do runTest exTypes (some (← compilePredicate exTypes p)) exRow) matches .ok .f := by
  decide +kernel

omit [Arith F] [Lib F] in
theorem operandValues_map (leaf : SimplePred F → PredRes) (ps : List (Pred F)) :
    operandValue.operandValues leaf ps = ps.map (operandValue leaf) := by
  induction ps with
  | nil => rfl
  | cons p ps ih => simp [operandValue.operandValues, ih]

theorem combine_perm {op : BoolOp} (hop : op ≠ .surrogate) {l m : List PredRes} (h : l.Perm m) :
    combine op l = combine op m := by
  cases op with
  | surrogate => exact absurd rfl hop
  | and => simp only [combine, all3, h.mem_iff]
  | or => simp only [combine, any3, h.mem_iff]
  | xor => simp only [combine, odd3, h.mem_iff, h.count_eq]
  | other s => rfl

omit [Arith F] in
theorem compilePredicates_ok_iff {types : FieldTypes} {ps : List (Pred F)} :
    (∃ ps', compilePredicates types ps = .ok ps') ↔
      ∀ p ∈ ps, ∃ p', compilePredicate types p = .ok p' := by
  induction ps with
  | nil => simp [compilePredicates]
  | cons p ps ih =>
    simp only [List.forall_mem_cons, ← ih]
    constructor
    · rintro ⟨ps', h⟩
      simp only [compilePredicates, bind_eq_ok] at h
      obtain ⟨p', hp, qs, hqs, -⟩ := h
      exact ⟨⟨p', hp⟩, qs, hqs⟩
    · rintro ⟨⟨p', hp⟩, qs, hqs⟩
      exact ⟨p' :: qs, by simp [compilePredicates, hp, hqs]⟩

omit [Arith F] in
theorem compile_compound_ok_iff {types : FieldTypes} {op : BoolOp} {ps : List (Pred F)} :
    (∃ p', compilePredicate types (.compound op ps) = .ok p') ↔
      ∀ p ∈ ps, ∃ p', compilePredicate types p = .ok p' := by
  rw [← compilePredicates_ok_iff]
  constructor
  · rintro ⟨p', h⟩
    simp only [compilePredicate, bind_eq_ok] at h
    obtain ⟨ps', h, -⟩ := h
    exact ⟨ps', h⟩
  · rintro ⟨ps', h⟩
    exact ⟨.compound op ps', by simp [compilePredicate, h]⟩

/-- **C04**: reordering the operands of and/or/xor (any operator but surrogate) changes
neither acceptance nor the value on any row. -/
theorem C04_operand_order {types : FieldTypes} {op : BoolOp} (hop : op ≠ .surrogate)
    {ps qs : List (Pred F)} (h : ps.Perm qs) :
    ((∃ p', compilePredicate types (.compound op ps) = .ok p') ↔
      ∃ q', compilePredicate types (.compound op qs) = .ok q') ∧
    ∀ p' q', compilePredicate types (.compound op ps) = .ok p' →
      compilePredicate types (.compound op qs) = .ok q' →
      ∀ row, runTest types (some p') row = runTest types (some q') row := by
  refine ⟨by simp only [compile_compound_ok_iff, h.mem_iff], ?_⟩
  intro p' q' hp hq row
  rw [runTest_spec row hp, runTest_spec row hq]
  simp only [testValue, operandValue, operandValues_map]
  rw [combine_perm hop (h.map _)]

/-- The hypothesis `op ≠ surrogate` is needed: `surrogate` depends on the order. -/
theorem C04_surrogate_depends_on_order :
    ∃ (types : FieldTypes) (p q p' q' : Pred F64) (row : Row F64),
      compilePredicate types (.compound .surrogate [p, q]) = .ok p' ∧
      compilePredicate types (.compound .surrogate [q, p]) = .ok q' ∧
      runTest types (some p') row ≠ runTest types (some q') row := by
  have h1 : (compilePredicate exTypes (.compound .surrogate
    [Replay.sp "n" .lessThan "0", Replay.sp "outlook" .equal "rain"])).isOk := by decide +kernel
  have h2 : (compilePredicate exTypes (.compound .surrogate
    [Replay.sp "outlook" .equal "rain", Replay.sp "n" .lessThan "0"])).isOk := by decide +kernel
  obtain ⟨p', hp⟩ : ∃ p', compilePredicate exTypes (.compound .surrogate
    [Replay.sp "n" .lessThan "0", Replay.sp "outlook" .equal "rain"]) = .ok p' := by
    revert h1; cases compilePredicate exTypes (.compound .surrogate
      [Replay.sp "n" .lessThan "0", Replay.sp "outlook" .equal "rain"]) <;> simp [Except.isOk, Except.toBool]
  obtain ⟨q', hq⟩ : ∃ p', compilePredicate exTypes (.compound .surrogate
    [Replay.sp "outlook" .equal "rain", Replay.sp "n" .lessThan "0"]) = .ok p' := by
    revert h2; cases compilePredicate exTypes (.compound .surrogate
      [Replay.sp "outlook" .equal "rain", Replay.sp "n" .lessThan "0"]) <;> simp [Except.isOk, Except.toBool]
  refine ⟨exTypes, _, _, p', q', exRow, hp, hq, ?_⟩
  rw [runTest_spec _ hp, runTest_spec _ hq]
  have e1 : testValue (simpleVal exTypes exRow) (.compound .surrogate
    [Replay.sp "n" .lessThan "0", Replay.sp "outlook" .equal "rain"]) = .t := by decide +kernel
  have e2 : testValue (simpleVal exTypes exRow) (.compound .surrogate
    [Replay.sp "outlook" .equal "rain", Replay.sp "n" .lessThan "0"]) = .f := by decide +kernel
  rw [e1, e2]; simp

-- C04: a permuted pair of accepted operand lists.
example : (compilePredicate (F := F64) exTypes (.compound .xor
      [Replay.sp "n" .lessThan "0", .compound .and [], Replay.sp "ok" .isMissing "1"])).isOk ∧
    [1, 2, 3].Perm [3, 1, 2] := by decide +kernel

mutual
theorem operandValue_congr {types : FieldTypes} {row row' : Row F} :
    (p : Pred F) → (∀ f ∈ predFields p, row.get f = row'.get f) →
    operandValue (simpleVal types row) p = operandValue (simpleVal types row') p
  | .true_, _ => by simp [operandValue]
  | .false_, _ => by simp [operandValue]
  | .set _, _ => by simp [operandValue]
  | .simple p, h => by
    have := h p.field (by simp [predFields])
    simp only [operandValue, simpleVal, this]
  | .compound op ps, h => by
    simp only [operandValue]
    rw [operandValues_congr ps (by simpa [predFields] using h)]
theorem operandValues_congr {types : FieldTypes} {row row' : Row F} :
    (ps : List (Pred F)) → (∀ f ∈ predFields.predsFields ps, row.get f = row'.get f) →
    operandValue.operandValues (simpleVal types row) ps =
      operandValue.operandValues (simpleVal types row') ps
  | [], _ => rfl
  | p :: ps, h => by
    simp only [predFields.predsFields, List.mem_append] at h
    simp only [operandValue.operandValues]
    rw [operandValue_congr p (fun f hf => h f (.inl hf)),
      operandValues_congr ps (fun f hf => h f (.inr hf))]
end

theorem testValue_congr {types : FieldTypes} {row row' : Row F} (p : Pred F)
    (h : ∀ f ∈ predFields p, row.get f = row'.get f) :
    testValue (simpleVal types row) p = testValue (simpleVal types row') p := by
  cases p <;> simp only [testValue] <;> exact operandValue_congr _ h

/-- **C05** (predicates): rows agreeing on the mentioned fields are not distinguished. -/
theorem C05_predicate_frame {types : FieldTypes} {p p' : Pred F} {row row' : Row F}
    (hc : compilePredicate types p = .ok p')
    (h : ∀ f ∈ predFields p, row.get f = row'.get f) :
    runTest types (some p') row = runTest types (some p') row' := by
  rw [runTest_spec row hc, runTest_spec row' hc, testValue_congr p h]

-- C05: two different rows that agree on the field mentioned.
example :
    let p : Pred F64 := .compound .and [Replay.sp "outlook" .equal "sunny"]
    (compilePredicate exTypes p).isOk ∧ predFields p = ["outlook"] ∧
    exRow.get "outlook" = Row.get (F := F64) (some ((∅ : GoMap _).insert "outlook" (.str "sunny"))) "outlook" ∧
    exRow.get "n" ≠ Row.get (F := F64) (some ((∅ : GoMap _).insert "outlook" (.str "sunny"))) "n" := by
  decide +kernel

section Splits
variable [Lib F64]

/-- **C06** (double/float fields, binary64): exactly one side of a split is taken by a
number, neither by NaN. -/
theorem C06_split_float {types : FieldTypes} {field text : String} {row : Row F64} {v : GoVal F64}
    {c : F64} {lt ge le gt : Pred F64}
    (hdt : types[field]? = some .double ∨ types[field]? = some .float)
    (hlt : compilePredicate types (.simple ⟨field, .lessThan, text, .nil⟩) = .ok lt)
    (hge : compilePredicate types (.simple ⟨field, .greaterOrEqual, text, .nil⟩) = .ok ge)
    (hle : compilePredicate types (.simple ⟨field, .lessOrEqual, text, .nil⟩) = .ok le)
    (hgt : compilePredicate types (.simple ⟨field, .greaterThan, text, .nil⟩) = .ok gt)
    (hv : row.get field = some v) (hpc : Lib.parseFloat text = some c) :
    (v.float64 ≠ .nan → c ≠ .nan →
      ((runTest types (some lt) row = .ok .t ∧ runTest types (some ge) row = .ok .f) ∨
       (runTest types (some lt) row = .ok .f ∧ runTest types (some ge) row = .ok .t)) ∧
      ((runTest types (some le) row = .ok .t ∧ runTest types (some gt) row = .ok .f) ∨
       (runTest types (some le) row = .ok .f ∧ runTest types (some gt) row = .ok .t))) ∧
    (v.float64 = .nan →
      runTest types (some lt) row = .ok .f ∧ runTest types (some ge) row = .ok .f ∧
      runTest types (some le) row = .ok .f ∧ runTest types (some gt) row = .ok .f) := by
  obtain ⟨c1, e1, h1, -⟩ := C01_ordering_float hlt hdt hv
  obtain ⟨c2, e2, -, -, -, h2⟩ := C01_ordering_float hge hdt hv
  obtain ⟨c3, e3, -, h3, -⟩ := C01_ordering_float hle hdt hv
  obtain ⟨c4, e4, -, -, h4, -⟩ := C01_ordering_float hgt hdt hv
  simp only [hpc, Option.some.injEq] at e1 e2 e3 e4
  subst e1; subst e2; subst e3; subst e4
  rw [h1 rfl, h2 rfl, h3 rfl, h4 rfl]
  constructor
  · intro hx hc
    have e1 : Arith.le c v.float64 = !Arith.lt v.float64 c := F64.le_eq_not_lt hc hx
    have e2 : Arith.le v.float64 c = !Arith.lt c v.float64 := F64.le_eq_not_lt hx hc
    rw [e1, e2]
    cases Arith.lt v.float64 c <;> cases Arith.lt c v.float64 <;> simp
  · intro hx
    rw [hx]
    have a : Arith.lt F64.nan c = false := F64.lt_nan_left c
    have b : Arith.lt c F64.nan = false := F64.lt_nan_right c
    have d : Arith.le F64.nan c = false := F64.le_nan_left c
    have e : Arith.le c F64.nan = false := F64.le_nan_right c
    simp [a, b, d, e]
end Splits

/-- **C06** (integer fields): exactly one side of a split is taken. -/
theorem C06_split_int {types : FieldTypes} {field text : String} {row : Row F} {v : GoVal F}
    {lt ge le gt : Pred F} (hdt : types[field]? = some .integer)
    (hlt : compilePredicate types (.simple ⟨field, .lessThan, text, .nil⟩) = .ok lt)
    (hge : compilePredicate types (.simple ⟨field, .greaterOrEqual, text, .nil⟩) = .ok ge)
    (hle : compilePredicate types (.simple ⟨field, .lessOrEqual, text, .nil⟩) = .ok le)
    (hgt : compilePredicate types (.simple ⟨field, .greaterThan, text, .nil⟩) = .ok gt)
    (hv : row.get field = some v) :
    ((runTest types (some lt) row = .ok .t ∧ runTest types (some ge) row = .ok .f) ∨
     (runTest types (some lt) row = .ok .f ∧ runTest types (some ge) row = .ok .t)) ∧
    ((runTest types (some le) row = .ok .t ∧ runTest types (some gt) row = .ok .f) ∨
     (runTest types (some le) row = .ok .f ∧ runTest types (some gt) row = .ok .t)) := by
  obtain ⟨c, e1, h1, -⟩ := C01_ordering_int hlt hdt hv
  obtain ⟨c2, e2, -, -, -, h2⟩ := C01_ordering_int hge hdt hv
  obtain ⟨c3, e3, -, h3, -⟩ := C01_ordering_int hle hdt hv
  obtain ⟨c4, e4, -, -, h4, -⟩ := C01_ordering_int hgt hdt hv
  simp only at e1 e2 e3 e4
  simp only [e1, Option.some.injEq] at e2 e3 e4
  subst e2; subst e3; subst e4
  rw [h1 rfl, h2 rfl, h3 rfl, h4 rfl]
  constructor
  · by_cases h : v.int64 < c
    · left; simp [h, not_le.mpr h]
    · right; simp [h, not_lt.mp h]
  · by_cases h : v.int64 ≤ c
    · left; simp [h, not_lt.mpr h]
    · right; simp [h, not_le.mp h]

-- C06: all four predicates accepted, the field present with a number / with NaN.
example : ∀ op ∈ [SimpleOp.lessThan, .greaterOrEqual, .lessOrEqual, .greaterThan],
    (compilePredicate (F := F64) exTypes (.simple ⟨"temperature", op, "0.1", .nil⟩)).isOk ∧
    (compilePredicate (F := F64) exTypes (.simple ⟨"n", op, "-3", .nil⟩)).isOk := by decide +kernel

/-- What `equal` means: the value has the very Go type that the constant parses to, and
equals it. -/
def EqualsConst (dt : DataType) (text : String) (v : GoVal F) : Prop :=
  (∃ b, dt = .boolean ∧ parseBool text = some b ∧ v = .bool b) ∨
  (∃ x c, (dt = .double ∨ dt = .float) ∧ Lib.parseFloat text = some c ∧
    v = .f64 x ∧ Arith.eq x c = true) ∨
  (∃ n, dt = .integer ∧ parseInt text = some n ∧ v = .int .int64 n) ∨
  (dt = .string ∧ v = .str text)

theorem denotes_iff {dt : DataType} {text : String} {v : GoVal F} :
    denotes dt text v = true ↔ EqualsConst dt text v := by
  unfold denotes EqualsConst
  cases dt <;> cases v <;> simp
  case integer.int k n => cases k <;> simp
  all_goals (cases h : Lib.parseFloat (F := F) text <;> simp)

/-- **C07** (`equal`). -/
theorem C07_equal {types : FieldTypes} {field text : String} {p' : Pred F}
    {row : Row F} {v : GoVal F} {dt : DataType} (hdt : types[field]? = some dt)
    (hc : compilePredicate types (.simple ⟨field, .equal, text, .nil⟩) = .ok p')
    (hv : row.get field = some v) :
    (EqualsConst dt text v → runTest types (some p') row = .ok .t) ∧
    (¬ EqualsConst dt text v → runTest types (some p') row = .ok .f) := by
  rw [runTest_spec row hc, ← denotes_iff]
  simp only [testValue, operandValue, simpleVal, hv, hdt, satisfies, ofBool]
  constructor <;> intro h <;> simp [h]

/-- **C07** (`notEqual`). -/
theorem C07_notEqual {types : FieldTypes} {field text : String} {p' : Pred F}
    {row : Row F} {v : GoVal F} {dt : DataType} (hdt : types[field]? = some dt)
    (hc : compilePredicate types (.simple ⟨field, .notEqual, text, .nil⟩) = .ok p')
    (hv : row.get field = some v) :
    (EqualsConst dt text v → runTest types (some p') row = .ok .f) ∧
    (¬ EqualsConst dt text v → runTest types (some p') row = .ok .t) := by
  rw [runTest_spec row hc, ← denotes_iff]
  simp only [testValue, operandValue, simpleVal, hv, hdt, satisfies, ofBool]
  constructor <;> intro h <;> simp [h]

/-- Consequence worth knowing: a Go `int` never equals a numeric constant, although the
ordering operators accept it. -/
theorem C07_plain_int_never_equal {types : FieldTypes} {field text : String} {p' : Pred F}
    {row : Row F} {n : Int}
    (hc : compilePredicate types (.simple ⟨field, .equal, text, .nil⟩) = .ok p')
    (hv : row.get field = some (.int .int n)) :
    runTest types (some p') row = .ok .f := by
  obtain ⟨dt, raw, hd, -, -⟩ := compile_simple hc
  exact (C07_equal hd hc hv).2 (by simp [EqualsConst])

-- C07: int64(75) equals integer constant 75, `int` 75 does not.
example :
    let run (v : GoVal F64) := do
      runTest exTypes (some (← compilePredicate exTypes (Replay.sp "n" .equal "75")))
        (some ((∅ : GoMap (GoVal F64)).insert "n" v))
    run (.int .int64 75) matches .ok .t ∧ run (.int .int 75) matches .ok .f := by decide +kernel

end Gopmml.Props
