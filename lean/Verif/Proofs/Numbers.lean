import Verif.Spec.Numbers
import Verif.Proofs.Maps

/-!
# Evaluation with other numbers
-/

set_option linter.unusedSectionVars false

namespace Gopmml
open Spec

variable {F G : Type} {φ : F → G}

/-! ## Maps and rows -/

section
variable {V W : Type} (f : V → W)

@[simp] theorem onValues_get (m : GoMap V) (k : String) : (onValues f m)[k]? = m[k]?.map f :=
  Std.ExtTreeMap.getElem?_map

@[simp] theorem onValues_empty : onValues f ∅ = ∅ := by
  refine Std.ExtTreeMap.ext_getElem? fun {k} => ?_
  rw [onValues_get]; simp

@[simp] theorem onValues_insert (m : GoMap V) (k : String) (v : V) :
    onValues f (m.insert k v) = (onValues f m).insert k (f v) := by
  refine Std.ExtTreeMap.ext_getElem? fun {x} => ?_
  rw [onValues_get, GoMap.getElem?_insert, GoMap.getElem?_insert, onValues_get]
  split <;> rfl

@[simp] theorem onValues_range {o : MapOrd} (h : ByKeys o) (m : GoMap V) :
    o.range (onValues f m) = (o.range m).map fun p => (p.1, f p.2) := by
  unfold MapOrd.range onValues
  rw [Std.ExtTreeMap.toList_map, ← h]

/-- A loop that inserts. -/
theorem onValues_foldl {α β : Type} (g : α → β) (k : GoMap V → α → GoMap V) (k' : GoMap W → β → GoMap W)
    (h : ∀ m a, k' (onValues f m) (g a) = onValues f (k m a)) (l : List α) (m : GoMap V) :
    (l.map g).foldl k' (onValues f m) = onValues f (l.foldl k m) := by
  induction l generalizing m with
  | nil => rfl
  | cons a l ih => simp only [List.map_cons, List.foldl_cons, h, ih]

end

theorem Spec.ByKeys.at_ {o : MapOrd} (h : ByKeys o) (i : Nat) : ByKeys (o.at_ i) :=
  fun site _ _ f l => h (i :: site) f l

theorem numRow_get (r : Row F) (k : String) : (numRow φ r).get k = (r.get k).map (numVal φ) := by
  cases r with
  | none => rfl
  | some m => exact onValues_get _ m k

theorem numRow_getD (r : Row F) (k : String) : (numRow φ r).getD k = numVal φ (r.getD k) := by
  unfold Row.getD
  rw [numRow_get]
  cases r.get k <;> rfl

theorem numRow_set (r : Row F) (k : String) (v : GoVal F) :
    (numRow φ r).set k (numVal φ v) = (r.set k v).map (numRow φ) := by
  cases r with
  | none => rfl
  | some m =>
    simp only [numRow, Option.map_some, Row.set, Except.map, onValues_insert]

/-! ## Values -/

@[simp] theorem numVal_int64 (v : GoVal F) : (numVal φ v).int64 = v.int64 := by
  cases v with
  | int k n => cases k <;> rfl
  | _ => rfl

@[simp] theorem numVal_toBool (v : GoVal F) : (numVal φ v).toBool = v.toBool := by cases v <;> rfl

theorem numVal_eq_nil (v : GoVal F) : numVal φ v = .nil ↔ v = .nil := by cases v <;> simp [numVal]

variable [Arith F] [Arith G] [Lib F] [Lib G] [Trans F] [Trans G]

theorem Spec.GoesAlong.zero (h : GoesAlong φ) : φ Arith.zero = Arith.zero := h.lit 0 1

theorem Spec.GoesAlong.one (h : GoesAlong φ) : φ Arith.one = Arith.one := h.lit 1 1

theorem numVal_float64 (h : GoesAlong φ) (v : GoVal F) : (numVal φ v).float64 = φ v.float64 := by
  cases v with
  | str s =>
    simp only [numVal, GoVal.float64, h.parse]
    cases (Lib.parseFloat s : Option F) with
    | none => exact h.zero.symm
    | some x => rfl
  | f64 x => rfl
  | f32 x => rfl
  | nil => exact (h.ofInt _).symm
  | bool b => exact (h.ofInt _).symm
  | int k n => cases k <;> exact (h.ofInt _).symm
  | other t s f => exact (h.ofInt _).symm

theorem numVal_string (h : GoesAlong φ) (v : GoVal F) : (numVal φ v).string = v.string := by
  cases v with
  | f64 x => exact h.text64 x
  | f32 x => exact h.text32 x
  | other t s f => cases s <;> rfl
  | _ => rfl

theorem numVal_ifaceEq (h : GoesAlong φ) (v w : GoVal F) : (numVal φ v).ifaceEq (numVal φ w) = v.ifaceEq w := by
  cases v <;> cases w <;> first | rfl | exact h.eq _ _

theorem getRawValue_num (h : GoesAlong φ) (dt : DataType) (s : String) :
    (getRawValue dt s : Res (GoVal G)) = (getRawValue dt s).map (numVal φ) := by
  unfold getRawValue
  cases dt with
  | boolean => cases parseBool s <;> rfl
  | double => simp only [h.parse]; cases (Lib.parseFloat s : Option F) <;> rfl
  | float => simp only [h.parse]; cases (Lib.parseFloat s : Option F) <;> rfl
  | integer => cases parseInt s <;> rfl
  | string => rfl
  | other k => rfl

/-! ## Predicates -/

theorem numPreds_eq (ps : List (Pred F)) : numPreds φ ps = ps.map (numPred φ) := by
  induction ps with
  | nil => rw [numPreds]; rfl
  | cons p ps ih => rw [numPreds, ih]; rfl

theorem numNodes_eq (ps : List (Node F)) : numNodes φ ps = ps.map (numNode φ) := by
  induction ps with
  | nil => rw [numNodes]; rfl
  | cons p ps ih => rw [numNodes, ih]; rfl

theorem numExprs_eq (ps : List (Expr F)) : numExprs φ ps = ps.map (numExpr φ) := by
  induction ps with
  | nil => rw [numExprs]; rfl
  | cons p ps ih => rw [numExprs, ih]; rfl

theorem numElems_eq (ps : List (ModelElem F)) : numElems φ ps = ps.map (numElem φ) := by
  induction ps with
  | nil => rw [numElems]; rfl
  | cons p ps ih => rw [numElems, ih]; rfl

theorem numSegs_length (ps : List (SegDoc F)) : (numSegs φ ps).length = ps.length := by
  induction ps with
  | nil => rw [numSegs]; rfl
  | cons p ps ih => cases p; rw [numSegs]; simp [ih]

mutual
theorem compilePredicate_num (h : GoesAlong φ) (types : FieldTypes) : (p : Pred F) →
    compilePredicate types (numPred φ p) = (compilePredicate types p).map (numPred φ)
  | .true_ => rfl
  | .false_ => rfl
  | .set f => rfl
  | .simple p => by
    rw [numPred, compilePredicate, compilePredicate]
    cases types[p.field]? with
    | none => rfl
    | some dt =>
      simp only
      rw [getRawValue_num h]
      cases (getRawValue dt p.value : Res (GoVal F)) with
      | error e => rfl
      | ok v => change _ = Except.ok (numPred φ _); rw [numPred]; rfl
  | .compound op ps => by
    rw [numPred, compilePredicate, compilePredicate, compilePredicates_num h types ps]
    cases compilePredicates types ps with
    | error e => rfl
    | ok v => change _ = Except.ok (numPred φ _); rw [numPred]; rfl
theorem compilePredicates_num (h : GoesAlong φ) (types : FieldTypes) : (ps : List (Pred F)) →
    compilePredicates types (numPreds φ ps) = (compilePredicates types ps).map (numPreds φ)
  | [] => by rw [numPreds, compilePredicates, compilePredicates]; change _ = Except.ok (numPreds φ _); rw [numPreds]; rfl
  | p :: ps => by
    rw [numPreds, compilePredicates, compilePredicates, compilePredicate_num h types p,
      compilePredicates_num h types ps]
    cases compilePredicate types p with
    | error e => rfl
    | ok q =>
      cases compilePredicates types ps with
      | error e => rfl
      | ok qs => change _ = Except.ok (numPreds φ _); rw [numPreds]; rfl
end

theorem evalOrdering_num (h : GoesAlong φ) (dt : DataType) {cf : F → F → Bool} {cf' : G → G → Bool}
    (hc : ∀ a b, cf' (φ a) (φ b) = cf a b) (ci : Int → Int → Bool) (v raw : GoVal F) :
    evalOrdering dt cf' ci (numVal φ v) (numVal φ raw) = evalOrdering dt cf ci v raw := by
  unfold evalOrdering
  cases dt with
  | double =>
    cases raw with
    | f64 x => exact congrArg (fun b => Except.ok (tOrF b)) ((congrArg (cf' · (φ x)) (numVal_float64 h v)).trans (hc _ _))
    | _ => rfl
  | float =>
    cases raw with
    | f64 x => exact congrArg (fun b => Except.ok (tOrF b)) ((congrArg (cf' · (φ x)) (numVal_float64 h v)).trans (hc _ _))
    | _ => rfl
  | integer =>
    cases raw with
    | int k n =>
      cases k <;> first | rfl | exact congrArg (fun m => Except.ok (tOrF (ci m n))) (numVal_int64 v)
    | _ => rfl
  | _ => rfl

theorem evalSimple_num (h : GoesAlong φ) (types : FieldTypes) (p : SimplePred F) (row : Row F) :
    evalSimple types ⟨p.field, p.op, p.value, numVal φ p.raw⟩ (numRow φ row) = evalSimple types p row := by
  unfold evalSimple
  simp only
  cases types[p.field]? with
  | none => rfl
  | some dt =>
    simp only
    by_cases hn : p.raw = .nil
    · rw [hn]; rfl
    · have hn' : numVal φ p.raw ≠ .nil := fun e => hn ((numVal_eq_nil _).1 e)
      generalize p.raw = raw at hn hn'
      rw [numRow_get]
      cases row.get p.field with
      | none => cases raw <;> rfl
      | some v =>
        have a1 := evalOrdering_num h dt (cf := fun a b => Arith.le b a) (cf' := fun a b => Arith.le b a)
          (fun a b => h.le b a) (fun a b => decide (b ≤ a)) v raw
        have a2 := evalOrdering_num h dt (cf := fun a b => Arith.lt b a) (cf' := fun a b => Arith.lt b a)
          (fun a b => h.lt b a) (fun a b => decide (b < a)) v raw
        have a3 := evalOrdering_num h dt (cf := fun a b => Arith.le a b) (cf' := fun a b => Arith.le a b)
          (fun a b => h.le a b) (fun a b => decide (a ≤ b)) v raw
        have a4 := evalOrdering_num h dt (cf := fun a b => Arith.lt a b) (cf' := fun a b => Arith.lt a b)
          (fun a b => h.lt a b) (fun a b => decide (a < b)) v raw
        have a5 := numVal_ifaceEq h v raw
        cases raw with
        | nil => exact absurd rfl hn
        | _ =>
          cases p.op with
          | equal => exact congrArg (fun b => Except.ok (tOrF b)) a5
          | notEqual => exact congrArg (fun b => Except.ok (tOrF !b)) a5
          | greaterOrEqual => exact a1
          | greaterThan => exact a2
          | lessOrEqual => exact a3
          | lessThan => exact a4
          | _ => rfl

mutual
theorem evalOperand_num (h : GoesAlong φ) (types : FieldTypes) (row : Row F) : (p : Pred F) →
    evalOperand types (numRow φ row) (numPred φ p) = evalOperand types row p
  | .true_ => by rw [numPred, evalOperand, evalOperand]
  | .false_ => by rw [numPred, evalOperand, evalOperand]
  | .set f => by rw [numPred, evalOperand, evalOperand]
  | .simple p => by rw [numPred, evalOperand, evalOperand, evalSimple_num h]
  | .compound op ps => by
    rw [numPred, evalOperand, evalOperand, compoundLoop_num h types row op _ _ _ ps, numPreds_eq, List.length_map]
theorem compoundLoop_num (h : GoesAlong φ) (types : FieldTypes) (row : Row F) (op : BoolOp) (len tc uc : Nat) :
    (ps : List (Pred F)) →
    compoundLoop types (numRow φ row) op len tc uc (numPreds φ ps) = compoundLoop types row op len tc uc ps
  | [] => by rw [numPreds, compoundLoop, compoundLoop]
  | p :: ps => by
    rw [numPreds, compoundLoop, compoundLoop, evalOperand_num h types row p]
    refine congrArg _ (funext fun v => ?_)
    rw [compoundLoop_num h types row op len _ _ ps]
end

theorem runTest_num (h : GoesAlong φ) (types : FieldTypes) (p : Option (Pred F)) (row : Row F) :
    runTest types (p.map (numPred φ)) (numRow φ row) = runTest types p row := by
  cases p with
  | none => rfl
  | some p =>
    have := evalOperand_num h types row p
    cases p with
    | simple p => rw [Option.map_some, numPred, runTest, runTest, ← numPred]; exact this; all_goals nofun
    | compound op ps => rw [Option.map_some, numPred, runTest, runTest, ← numPred]; exact this; all_goals nofun
    | _ => rfl

/-! ## Expressions -/

theorem handleConstant_num (h : GoesAlong φ) (dt : DataType) (s : String) :
    (handleConstant dt s : Res (GoVal G)) = (handleConstant dt s).map (numVal φ) := by
  unfold handleConstant
  cases dt with
  | double => simp only [h.parse]; cases (Lib.parseFloat s : Option F) <;> rfl
  | _ => rfl

theorem mapColumns_num (pairs : List FieldColumnPair) (row : Row F) :
    mapColumns pairs (numRow φ row) = onValues (numVal φ) (mapColumns pairs row) := by
  unfold mapColumns
  have := onValues_foldl (numVal φ) (id : FieldColumnPair → FieldColumnPair)
    (fun columns pair => match row.get pair.field with
      | some data => columns.insert pair.column data
      | none => columns)
    (fun columns pair => match (numRow φ row).get pair.field with
      | some data => columns.insert pair.column data
      | none => columns) ?_ pairs ∅
  · rw [List.map_id, onValues_empty] at this; exact this
  · intro m a
    simp only [id, numRow_get]
    cases row.get a.field with
    | none => rfl
    | some v => simp

theorem cellIs_num (c : Option (GoVal F)) (s : String) : cellIs (c.map (numVal φ)) s = cellIs c s := by
  cases c with
  | none => rfl
  | some v => cases v <;> rfl

theorem mapLookup_num (h : GoesAlong φ) (tables : List (List (GoMap (GoVal F)))) (columns : GoMap (GoVal F)) :
    mapLookup (tables.map (·.map (onValues (numVal φ)))) (onValues (numVal φ) columns) =
      onValues (numVal φ) (mapLookup tables columns) := by
  have hget : ∀ (m : GoMap (GoVal F)) (k : String),
      (((onValues (numVal φ) m)[k]?).getD .nil) = numVal φ (m[k]?.getD .nil) := by
    intro m k; rw [onValues_get]; cases m[k]? <;> rfl
  unfold mapLookup
  refine onValues_foldl (numVal φ) _ _ _ (fun m rows => ?_) tables columns
  refine onValues_foldl (numVal φ) _ _ _ (fun m row => ?_) rows m
  rw [hget, hget, numVal_string h, onValues_get, cellIs_num]
  split
  · rw [onValues_insert]
  · rfl

theorem handleMapValues_num (h : GoesAlong φ) (m : MapValues F) (row : Row F) :
    handleMapValues (numMapValues φ m) (numRow φ row) = (handleMapValues m row).map (numVal φ) := by
  unfold handleMapValues
  simp only [numMapValues, mapColumns_num, mapLookup_num h, onValues_get]
  generalize mapLookup m.inlineTables (mapColumns m.fieldColumnPairs row) = c
  cases c["data:output"]? with
  | some v => rfl
  | none =>
    simp only [Option.map_none]
    cases m.defaultValue with
    | some d => exact getRawValue_num h _ _
    | none =>
      simp only
      cases c["data:input"]? <;> rfl

/-- Products may be computed. -/
abbrev MulOr (φ : F → G) (p : Prop) : Prop := Products φ ∨ p

theorem isNil_num (v : GoVal F) : (match numVal φ v with | .nil => true | _ => false) =
    (match v with | .nil => true | _ => false) := by cases v <;> rfl

mutual
theorem handleExpression_num (h : GoesAlong φ) (row : Row F) : (e : Expr F) → MulOr φ (ExprPlain e) →
    handleExpression (numRow φ row) (numExpr φ e) = (handleExpression row e).map (numVal φ)
  | .fieldRef f, _ => by rw [numExpr, handleExpression, handleExpression, numRow_getD]; rfl
  | .const dt v, _ => by rw [numExpr, handleExpression, handleExpression, handleConstant_num h]
  | .mapValues m, _ => by rw [numExpr, handleExpression, handleExpression, handleMapValues_num h]
  | .other k, _ => by rw [numExpr, handleExpression, handleExpression]; rfl
  | .apply fn args, hp => by
    have hps : MulOr φ (ExprsPlain args) := hp.imp_right fun h => by rw [ExprPlain] at h; exact h.2
    have hmul : MulOr φ (fn ≠ "*") := hp.imp_right fun h => by rw [ExprPlain] at h; exact h.1
    have hargs : ∀ e ∈ args, MulOr φ (ExprPlain e) →
        handleExpression (numRow φ row) (numExpr φ e) = (handleExpression row e).map (numVal φ) := by
      intro e he hp
      have := List.sizeOf_lt_of_mem he
      exact handleExpression_num h row e hp
    have hplain : ∀ e ∈ args, MulOr φ (ExprPlain e) := by
      rcases hps with hps | hps
      · exact fun e _ => .inl hps
      · intro e he
        refine .inr ?_
        clear hargs hp
        induction args with
        | nil => simp at he
        | cons a as ih =>
          rw [ExprsPlain] at hps
          rcases List.mem_cons.1 he with rfl | he
          · exact hps.1
          · exact ih hps.2 he
    have hall := fun e he => hargs e he (hplain e he)
    have hz : (Arith.zero : G) = φ Arith.zero := h.zero.symm
    rw [numExpr, handleExpression.eq_def, handleExpression.eq_def]
    simp only
    by_cases h1 : fn = "sum"
    · rw [if_pos h1, if_pos h1, hz, sumLoop_num h row _ args hps]
      cases sumLoop row Arith.zero args <;> rfl
    rw [if_neg h1, if_neg h1]
    by_cases h2 : fn = "*" ∨ fn = "+" ∨ fn = "-" ∨ fn = "/"
    · rw [if_pos h2, if_pos h2, numExprs_eq]
      rcases args with _ | ⟨a, _ | ⟨b, _ | ⟨c, l⟩⟩⟩
      · rfl
      · rfl
      · simp only [List.map_cons, List.map_nil]
        rw [hall a (by simp), hall b (by simp)]
        cases handleExpression row a with
        | error e => rfl
        | ok v =>
          cases handleExpression row b with
          | error e => rfl
          | ok w =>
            simp only [Except.map, bind, Except.bind, numVal_float64 h]
            by_cases g1 : fn = "*"
            · rcases hmul with hmul | hmul
              · rw [if_pos g1, if_pos g1, ← hmul]; rfl
              · exact absurd g1 hmul
            rw [if_neg g1, if_neg g1]
            by_cases g2 : fn = "+"
            · rw [if_pos g2, if_pos g2, ← h.add]; rfl
            rw [if_neg g2, if_neg g2]
            by_cases g3 : fn = "-"
            · rw [if_pos g3, if_pos g3, ← h.sub]; rfl
            rw [if_neg g3, if_neg g3, ← h.div]; rfl
      · simp [Except.map]
    rw [if_neg h2, if_neg h2]
    by_cases h3 : fn = "isMissing"
    · rw [if_pos h3, if_pos h3, numExprs_eq]
      rcases args with _ | ⟨a, _ | ⟨b, l⟩⟩
      · rfl
      · simp only [List.map_cons, List.map_nil]
        rw [hall a (by simp)]
        cases handleExpression row a with
        | error e => rfl
        | ok v => cases v <;> rfl
      · simp [Except.map]
    rw [if_neg h3, if_neg h3]
    by_cases h4 : fn = "isNotMissing"
    · rw [if_pos h4, if_pos h4, numExprs_eq]
      rcases args with _ | ⟨a, _ | ⟨b, l⟩⟩
      · rfl
      · simp only [List.map_cons, List.map_nil]
        rw [hall a (by simp)]
        cases handleExpression row a with
        | error e => rfl
        | ok v => cases v <;> rfl
      · simp [Except.map]
    rw [if_neg h4, if_neg h4]
    by_cases h5 : fn = "if"
    · rw [if_pos h5, if_pos h5, numExprs_eq]
      rcases args with _ | ⟨a, _ | ⟨b, _ | ⟨c, _ | ⟨d, l⟩⟩⟩⟩
      · rfl
      · rfl
      · rfl
      · simp only [List.map_cons, List.map_nil]
        rw [hall a (by simp), hall b (by simp), hall c (by simp)]
        cases handleExpression row a with
        | error e => rfl
        | ok v =>
          simp only [Except.map, bind, Except.bind, numVal_toBool]
          cases v.toBool <;> rfl
      · simp [Except.map]
    rw [if_neg h5, if_neg h5]
    rfl
theorem sumLoop_num (h : GoesAlong φ) (row : Row F) (s : F) : (es : List (Expr F)) → MulOr φ (ExprsPlain es) →
    sumLoop (numRow φ row) (φ s) (numExprs φ es) = (sumLoop row s es).map φ
  | [], _ => by rw [numExprs, sumLoop, sumLoop]; rfl
  | e :: es, hp => by
    have h1 : MulOr φ (ExprPlain e) := hp.imp_right fun h => by rw [ExprsPlain] at h; exact h.1
    have h2 : MulOr φ (ExprsPlain es) := hp.imp_right fun h => by rw [ExprsPlain] at h; exact h.2
    rw [numExprs, sumLoop, sumLoop, handleExpression_num h row e h1]
    cases handleExpression row e with
    | error e => rfl
    | ok v =>
      change sumLoop _ (Arith.add (φ s) (numVal φ v).float64) _ = Except.map φ (sumLoop row (Arith.add s v.float64) es)
      rw [numVal_float64 h, ← h.add, sumLoop_num h row _ es h2]
end

theorem storeValue_num (h : GoesAlong φ) (op : OpType) (v : GoVal F) :
    storeValue op (numVal φ v) = numVal φ (storeValue op v) := by
  cases op with
  | continuous => exact congrArg GoVal.f64 (numVal_float64 h v)
  | other s => rfl

theorem handleInput_num (h : GoesAlong φ) : (dfs : List (DerivedField F)) → (row : Row F) →
    MulOr φ (∀ t ∈ dfs, ExprPlain t.expr) →
    handleInput (dfs.map (numDerived φ)) (numRow φ row) =
      ((handleInput dfs row).1, numRow φ (handleInput dfs row).2)
  | [], _, _ => rfl
  | df :: dfs, row, hp => by
    rw [List.map_cons, handleInput, handleInput]
    simp only [numDerived]
    rw [handleExpression_num h row df.expr (hp.imp_right fun h => h df (by simp))]
    cases handleExpression row df.expr with
    | error e => rfl
    | ok v =>
      simp only [Except.map, storeValue_num h, numRow_set]
      cases row.set df.name (storeValue df.opType v) with
      | error e => rfl
      | ok row' => exact handleInput_num h dfs row' (hp.imp_right fun h t ht => h t (by simp [ht]))

end Gopmml
