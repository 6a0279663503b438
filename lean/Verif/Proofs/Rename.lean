import Verif.Spec.Rename
import Verif.Proofs.Mining
import Verif.Proofs.TreeEval
import Mathlib.Logic.Equiv.Basic

/-!
# Evaluation under new names
-/

namespace Gopmml
open Spec

variable {F : Type}

/-! ## Outcomes and maps -/

section
variable {ρ : String → String}

theorem Spec.RenRes.bind {α β γ δ : Type} {R : α → β → Prop} {S : γ → δ → Prop} {x : Res α} {y : Res β}
    {f : α → Res γ} {g : β → Res δ} (h : RenRes ρ R x y) (hf : ∀ a b, R a b → RenRes ρ S (f a) (g b)) :
    RenRes ρ S (x >>= f) (y >>= g) := by
  cases x <;> cases y <;> first | exact h.elim | exact h | exact hf _ _ h

theorem Spec.RenRes.map {α β γ δ : Type} {R : α → β → Prop} {S : γ → δ → Prop} {x : Res α} {y : Res β}
    {f : α → γ} {g : β → δ} (h : RenRes ρ R x y) (hf : ∀ a b, R a b → S (f a) (g b)) :
    RenRes ρ S (x.map f) (y.map g) := by
  cases x <;> cases y <;> first | exact h.elim | exact h | exact hf _ _ h

theorem Spec.RenRes.mono {α β : Type} {R S : α → β → Prop} {x : Res α} {y : Res β} (h : RenRes ρ R x y)
    (hf : ∀ a b, R a b → S a b) : RenRes ρ S x y := by
  cases x <;> cases y <;> first | exact h.elim | exact h | exact hf _ _ h

theorem RenMap.empty {V : Type} : RenMap ρ (∅ : GoMap V) (∅ : GoMap V) := by intro k; simp

theorem RenRow.get {r r' : Row F} (h : RenRow ρ r r') (k : String) : r'.get (ρ k) = r.get k := by
  cases r <;> cases r' <;> first | exact h.elim | rfl | exact h k

theorem RenRow.getD {r r' : Row F} (h : RenRow ρ r r') (k : String) : r'.getD (ρ k) = r.getD k := by
  unfold Row.getD; rw [RenRow.get h]

theorem renPreds_eq : (ps : List (Pred F)) → renPreds ρ ps = ps.map (renPred ρ)
  | [] => rfl
  | p :: ps => by rw [renPreds, renPreds_eq ps]; rfl

theorem renNodes_eq : (ps : List (Node F)) → renNodes ρ ps = ps.map (renNode ρ)
  | [] => rfl
  | p :: ps => by rw [renNodes, renNodes_eq ps]; rfl

theorem renExprs_eq : (ps : List (Expr F)) → renExprs ρ ps = ps.map (renExpr ρ)
  | [] => rfl
  | p :: ps => by rw [renExprs, renExprs_eq ps]; rfl

theorem renElems_eq : (ps : List (ModelElem F)) → renElems ρ ps = ps.map (renElem ρ)
  | [] => rfl
  | p :: ps => by rw [renElems, renElems_eq ps]; rfl

theorem renSegs_length : (ps : List (SegDoc F)) → (renSegs ρ ps).length = ps.length
  | [] => rfl
  | .mk _ _ _ :: ps => by rw [renSegs]; simp [renSegs_length ps]

end

variable {ρ : Equiv.Perm String}

theorem RenMap.insert {V : Type} {m m' : GoMap V} (h : RenMap ρ m m') (k : String) (v : V) :
    RenMap ρ (m.insert k v) (m'.insert (ρ k) v) := by
  intro x
  rw [GoMap.getElem?_insert, GoMap.getElem?_insert, h x]
  simp only [EmbeddingLike.apply_eq_iff_eq]

theorem RenMap.eq_empty {V : Type} {m m' : GoMap V} (h : RenMap ρ m m') : m' = ∅ ↔ m = ∅ := by
  constructor
  · rintro rfl
    refine Std.ExtTreeMap.ext_getElem? fun {k} => ?_
    rw [← h k]; simp
  · rintro rfl
    refine Std.ExtTreeMap.ext_getElem? fun {k} => ?_
    have := h (ρ.symm k)
    rw [Equiv.apply_symm_apply] at this
    rw [this]; simp

theorem RenMap.foldl_insert {α V : Type} (f : α → String) (v : α → V) (l : List α) : ∀ {m m' : GoMap V}, RenMap ρ m m' →
    RenMap ρ (l.foldl (fun m a => m.insert (f a) (v a)) m) (l.foldl (fun m a => m.insert (ρ (f a)) (v a)) m') := by
  induction l with
  | nil => intro m m' h; exact h
  | cons a l ih => intro m m' h; exact ih (RenMap.insert h _ _)

theorem RenRow.set {r r' : Row F} (h : RenRow ρ r r') (k : String) (v : GoVal F) :
    RenRes ρ (RenRow ρ) (r.set k v) (r'.set (ρ k) v) := by
  cases r <;> cases r' <;> first | exact h.elim | rfl | exact RenMap.insert h k v

/-! ## Predicates -/

section
variable [Arith F] [Lib F]

omit [Arith F] in
theorem getRawValue_ren (dt : DataType) (s : String) :
    RenRes ρ Eq (getRawValue (F := F) dt s) (getRawValue dt s) := by
  unfold getRawValue
  split <;> (try split) <;> rfl

omit [Arith F] in
mutual
theorem compilePredicate_ren {types types' : FieldTypes} (h : RenMap ρ types types') : (p : Pred F) →
    RenRes ρ (fun a b => b = renPred ρ a) (compilePredicate types p) (compilePredicate types' (renPred ρ p))
  | .true_ => rfl
  | .false_ => rfl
  | .set f => rfl
  | .simple p => by
    rw [renPred, compilePredicate, compilePredicate, h p.field]
    cases types[p.field]? with
    | none => rfl
    | some dt =>
      refine (getRawValue_ren dt p.value).bind fun a b hab => ?_
      subst hab
      rfl
  | .compound op ps => by
    rw [renPred, compilePredicate, compilePredicate]
    refine (compilePredicates_ren h ps).bind fun a b hab => ?_
    subst hab
    rfl
theorem compilePredicates_ren {types types' : FieldTypes} (h : RenMap ρ types types') : (ps : List (Pred F)) →
    RenRes ρ (fun a b => b = renPreds ρ a) (compilePredicates types ps) (compilePredicates types' (renPreds ρ ps))
  | [] => rfl
  | p :: ps => by
    rw [renPreds, compilePredicates, compilePredicates]
    refine (compilePredicate_ren h p).bind fun a b hab => (compilePredicates_ren h ps).bind fun c d hcd => ?_
    subst hab; subst hcd
    rfl
end

theorem evalOrdering_ren (dt : DataType) (cf : F → F → Bool) (ci : Int → Int → Bool) (v raw : GoVal F) :
    RenRes ρ Eq (evalOrdering dt cf ci v raw) (evalOrdering dt cf ci v raw) := by
  unfold evalOrdering
  cases dt <;> (try rfl) <;> cases raw <;> (try rfl)
  all_goals rename_i k n; cases k <;> rfl

theorem evalSimple_ren {types types' : FieldTypes} (h : RenMap ρ types types') {row row' : Row F}
    (hr : RenRow ρ row row') (p : SimplePred F) :
    RenRes ρ Eq (evalSimple types p row) (evalSimple types' { p with field := ρ p.field } row') := by
  unfold evalSimple
  simp only [h p.field, RenRow.get hr]
  cases types[p.field]? with
  | none => rfl
  | some dt =>
    simp only
    cases p.raw with
    | nil => rfl
    | _ =>
      simp only
      cases row.get p.field with
      | none => rfl
      | some v =>
        simp only
        cases p.op <;> first | rfl | exact evalOrdering_ren _ _ _ _ _

mutual
theorem evalOperand_ren {types types' : FieldTypes} (h : RenMap ρ types types') {row row' : Row F}
    (hr : RenRow ρ row row') : (p : Pred F) →
    RenRes ρ Eq (evalOperand types row p) (evalOperand types' row' (renPred ρ p))
  | .true_ => rfl
  | .false_ => rfl
  | .set f => rfl
  | .simple p => by
    rw [renPred, evalOperand, evalOperand]
    exact evalSimple_ren h hr p
  | .compound op ps => by
    rw [renPred, evalOperand, evalOperand, renPreds_eq, List.length_map, ← renPreds_eq]
    exact compoundLoop_ren h hr op _ _ _ ps
theorem compoundLoop_ren {types types' : FieldTypes} (h : RenMap ρ types types') {row row' : Row F}
    (hr : RenRow ρ row row') (op : BoolOp) (len tc uc : Nat) : (ps : List (Pred F)) →
    RenRes ρ Eq (compoundLoop types row op len tc uc ps) (compoundLoop types' row' op len tc uc (renPreds ρ ps))
  | [] => rfl
  | p :: ps => by
    rw [renPreds, compoundLoop, compoundLoop]
    refine (evalOperand_ren h hr p).bind fun a b hab => ?_
    subst hab
    split_ifs
    · rfl
    all_goals exact compoundLoop_ren h hr op _ _ _ ps
end

theorem runTest_ren {types types' : FieldTypes} (h : RenMap ρ types types') {row row' : Row F}
    (hr : RenRow ρ row row') (p : Option (Pred F)) :
    RenRes ρ Eq (runTest types p row) (runTest types' (p.map (renPred ρ)) row') := by
  cases p with
  | none => rfl
  | some p =>
    rw [Option.map_some]
    cases p with
    | simple s => exact evalOperand_ren h hr (.simple s)
    | compound op ps => exact evalOperand_ren h hr (.compound op ps)
    | _ => rfl

/-! ## Expressions -/

omit [Arith F] [Lib F] in
theorem mapColumns_ren {row row' : Row F} (hr : RenRow ρ row row') (ps : List FieldColumnPair) :
    mapColumns (ps.map fun p => { p with field := ρ p.field }) row' = mapColumns ps row := by
  unfold mapColumns
  rw [List.foldl_map]
  congr 1
  funext c p
  simp only [RenRow.get hr]

omit [Arith F] in
theorem handleConstant_ren (dt : DataType) (s : String) :
    RenRes ρ Eq (handleConstant (F := F) dt s) (handleConstant dt s) := by
  unfold handleConstant
  split <;> (try split) <;> rfl

omit [Arith F] in
theorem handleMapValues_ren {row row' : Row F} (hr : RenRow ρ row row') (m : MapValues F) :
    RenRes ρ Eq (handleMapValues m row)
      (handleMapValues { m with fieldColumnPairs := m.fieldColumnPairs.map fun p => { p with field := ρ p.field } } row') := by
  unfold handleMapValues
  simp only [mapColumns_ren hr]
  split
  · rfl
  · split
    · exact getRawValue_ren _ _
    · split <;> rfl

mutual
theorem handleExpression_ren {row row' : Row F} (hr : RenRow ρ row row') : (e : Expr F) →
    RenRes ρ Eq (handleExpression row e) (handleExpression row' (renExpr ρ e))
  | .fieldRef f => by
    rw [renExpr, handleExpression, handleExpression, RenRow.getD hr]
    rfl
  | .const dt v => by
    rw [renExpr, handleExpression, handleExpression]
    exact handleConstant_ren dt v
  | .mapValues m => by
    rw [renExpr, handleExpression, handleExpression]
    exact handleMapValues_ren hr m
  | .other k => by
    rw [renExpr, handleExpression, handleExpression]
    rfl
  | .apply fn args => by
    rw [renExpr, handleExpression.eq_def, handleExpression.eq_def row']
    simp only
    by_cases c1 : fn = "sum"
    · simp only [if_pos c1]
      refine (sumLoop_ren hr _ args).bind fun a b hab => ?_
      subst hab; rfl
    simp only [if_neg c1]
    by_cases c2 : fn = "*" ∨ fn = "+" ∨ fn = "-" ∨ fn = "/"
    · simp only [if_pos c2]
      match args with
      | [] => rfl
      | [a] => rfl
      | [a, b] =>
        simp only [renExprs]
        refine (handleExpression_ren hr a).bind fun x y hxy => (handleExpression_ren hr b).bind fun z w hzw => ?_
        subst hxy; subst hzw
        split_ifs <;> rfl
      | a :: b :: c :: l =>
        simp only [renExprs]
        rw [renExprs_eq]
        simp [RenRes, renFault, renErr]
    simp only [if_neg c2]
    by_cases c3 : fn = "isMissing"
    · simp only [if_pos c3]
      match args with
      | [] => rfl
      | [a] =>
        simp only [renExprs]
        refine (handleExpression_ren hr a).bind fun x y hxy => ?_
        subst hxy; rfl
      | a :: b :: l =>
        simp only [renExprs]
        rw [renExprs_eq]
        simp [RenRes, renFault, renErr]
    simp only [if_neg c3]
    by_cases c4 : fn = "isNotMissing"
    · simp only [if_pos c4]
      match args with
      | [] => rfl
      | [a] =>
        simp only [renExprs]
        refine (handleExpression_ren hr a).bind fun x y hxy => ?_
        subst hxy; rfl
      | a :: b :: l =>
        simp only [renExprs]
        rw [renExprs_eq]
        simp [RenRes, renFault, renErr]
    simp only [if_neg c4]
    by_cases c5 : fn = "if"
    · simp only [if_pos c5]
      match args with
      | [] => rfl
      | [a] => rfl
      | [a, b] => rfl
      | [a, b, c] =>
        simp only [renExprs]
        refine (handleExpression_ren hr a).bind fun x y hxy => ?_
        subst hxy
        split_ifs
        · exact handleExpression_ren hr b
        · exact handleExpression_ren hr c
      | a :: b :: c :: d :: l =>
        simp only [renExprs]
        rw [renExprs_eq]
        simp [RenRes, renFault, renErr]
    · simp only [if_neg c5]
      rfl
theorem sumLoop_ren {row row' : Row F} (hr : RenRow ρ row row') (s : F) : (es : List (Expr F)) →
    RenRes ρ Eq (sumLoop row s es) (sumLoop row' s (renExprs ρ es))
  | [] => by rw [renExprs, sumLoop, sumLoop]; rfl
  | e :: es => by
    rw [renExprs, sumLoop, sumLoop]
    refine (handleExpression_ren hr e).bind fun a b hab => ?_
    subst hab
    exact sumLoop_ren hr _ es
end

theorem handleInput_ren : (dfs : List (DerivedField F)) → ∀ {row row' : Row F}, RenRow ρ row row' →
    RenRes ρ Eq (handleInput dfs row).1 (handleInput (dfs.map (renDerived ρ)) row').1 ∧
    RenRow ρ (handleInput dfs row).2 (handleInput (dfs.map (renDerived ρ)) row').2
  | [], row, row', h => ⟨rfl, h⟩
  | df :: dfs, row, row', h => by
    rw [List.map_cons, handleInput, handleInput]
    have h1 := handleExpression_ren h df.expr
    simp only [renDerived]
    generalize handleExpression row df.expr = x at h1
    generalize handleExpression row' (renExpr ρ df.expr) = y at h1
    cases x with
    | error e => cases y with
      | error e' => exact ⟨h1, h⟩
      | ok b => exact h1.elim
    | ok a => cases y with
      | error e' => exact h1.elim
      | ok b =>
        cases (h1 : a = b)
        simp only
        have h2 := RenRow.set h df.name (storeValue df.opType a)
        generalize row.set df.name (storeValue df.opType a) = x at h2
        generalize row'.set (ρ df.name) (storeValue df.opType a) = y at h2
        cases x with
        | error e => cases y with
          | error e' => exact ⟨h2, h⟩
          | ok b => exact h2.elim
        | ok r => cases y with
          | error e' => exact h2.elim
          | ok r' => exact handleInput_ren dfs h2


/-! ## Trees -/

omit [Arith F] [Lib F] in
mutual
/-- A compiled node under new names. -/
def renC (ρ : String → String) : CNode F → CNode F
  | .mk id dc sd sc p cs => .mk id dc sd sc (p.map (renPred ρ)) (renCs ρ cs)
def renCs (ρ : String → String) : List (CNode F) → List (CNode F)
  | [] => []
  | c :: cs => renC ρ c :: renCs ρ cs
end

omit [Arith F] [Lib F] in
theorem renCs_eq {ρ : String → String} : (ps : List (CNode F)) → renCs ρ ps = ps.map (renC ρ)
  | [] => rfl
  | p :: ps => by rw [renCs, renCs_eq ps]; rfl

mutual
theorem newNode_ren {types types' : FieldTypes} (h : RenMap ρ types types') : (n : Node F) →
    RenRes ρ (fun a b => b = renC ρ a) (newNode types n) (newNode types' (renNode ρ n))
  | .mk id dc score rc ds ns p => by
    rw [renNode, newNode, newNode]
    refine (newNodes_ren h ns).bind fun a b hab => ?_
    subst hab
    cases p with
    | none => rfl
    | some p =>
      refine (compilePredicate_ren h p).bind fun c d hcd => ?_
      subst hcd; rfl
theorem newNodes_ren {types types' : FieldTypes} (h : RenMap ρ types types') : (ns : List (Node F)) →
    RenRes ρ (fun a b => b = renCs ρ a) (newNodes types ns) (newNodes types' (renNodes ρ ns))
  | [] => rfl
  | n :: ns => by
    rw [renNodes, newNodes, newNodes]
    refine (newNode_ren h n).bind fun a b hab => (newNodes_ren h ns).bind fun c d hcd => ?_
    subst hab; subst hcd
    rfl
end

/-- What nodes see, under new names. -/
structure CtxRen (ρ : Equiv.Perm String) (c c' : TreeCtx F) : Prop where
  strategy : c'.strategy = c.strategy
  noTrueChild : c'.noTrueChild = c.noTrueChild
  penalty : c'.penalty = c.penalty
  target : c'.targetField = ρ c.targetField
  dd : c'.dd = c.dd.map (renData ρ)
  types : RenMap ρ c.types c'.types

omit [Lib F] in
theorem outputScoreDist_ren (h0 : ρ "" = "") {c c' : TreeCtx F} (h : CtxRen ρ c c') (n : CNode F) :
    outputScoreDist c' (renC ρ n) = outputScoreDist c n := by
  obtain ⟨id, dc, sd, sc, p, cs⟩ := n
  have e1 : renCs ρ cs ≠ [] ↔ cs ≠ [] := by rw [renCs_eq]; simp
  have e2 : ρ c.targetField ≠ "" ↔ c.targetField ≠ "" := by
    rw [not_iff_not]
    constructor
    · intro hh; exact ρ.injective (hh.trans h0.symm)
    · intro hh; rw [hh, h0]
  have e3 : ∀ s, targetDist c' s = targetDist c s := by
    intro s
    unfold targetDist
    rw [h.dd, h.target, List.flatMap_map]
    congr 1
    funext f
    simp only [renData, EmbeddingLike.apply_eq_iff_eq]
  unfold outputScoreDist
  simp only [renC, CNode.children, CNode.scoreDist, CNode.score, e1, h.target, h.noTrueChild, e3]
  by_cases ht : c.targetField = ""
  · rw [if_neg (not_not.mpr ((not_iff_not.mp e2).mpr ht)), if_neg (not_not.mpr ht)]
    by_cases hc : cs = [] <;> by_cases hd : sd = [] <;> simp [hc, hd]
  · rw [if_pos (e2.mpr ht), if_pos ht]
    by_cases hc : cs = [] <;> by_cases hd : sd = [] <;> simp [hc, hd]

omit [Arith F] [Lib F] in
theorem childScores_ren {ρ : String → String} (cs : List (CNode F)) (rs : List (NodeRes F)) :
    childScores (renCs ρ cs) rs = childScores cs rs := by
  unfold childScores
  rw [renCs_eq, List.zip_map_left, List.foldl_map]
  congr 1
  funext m p
  obtain ⟨⟨id, dc, sd, sc, q, ks⟩, r⟩ := p
  rfl

omit [Lib F] in
theorem weightedAgg_ren {ρ : String → String} (o : MapOrd) (cs : List (CNode F)) (rs : List (NodeRes F)) :
    weightedAgg o (liveChildren (renCs ρ cs) rs) = weightedAgg o (liveChildren cs rs) := by
  have e : liveChildren (renCs ρ cs) rs = (liveChildren cs rs).map (Prod.map (renC ρ) id) := by
    unfold liveChildren
    rw [renCs_eq, List.zip_map_left, List.filter_map]
    rfl
  have e1 : ∀ n : CNode F, (renC ρ n).id = n.id ∧ (renC ρ n).score = n.score := by
    intro n; cases n; exact ⟨rfl, rfl⟩
  have h1 : liveScores (liveChildren (renCs ρ cs) rs) = liveScores (liveChildren cs rs) := by
    rw [e]; unfold liveScores
    rw [List.foldl_map]
    simp only [Prod.map, e1, id]
  have h2 : childRecordCounts (liveChildren (renCs ρ cs) rs) = childRecordCounts (liveChildren cs rs) := by
    rw [e]; unfold childRecordCounts
    rw [List.foldl_map]
    simp only [Prod.map, e1]
  have h3 : totalRecordCount (liveChildren (renCs ρ cs) rs) = totalRecordCount (liveChildren cs rs) := by
    rw [e]; unfold totalRecordCount
    rw [List.foldl_map]
    simp only [Prod.map, e1]
  unfold weightedAgg
  rw [h1, h2, h3]

section
set_option linter.unusedSectionVars false
variable {c c' : TreeCtx F} {row row' : Row F} (h0 : ρ "" = "") (h : CtxRen ρ c c') (hr : RenRow ρ row row')
include h0 h hr

mutual
theorem evalNone_ren : (n : CNode F) → RenRes ρ Eq (evalNone c row n) (evalNone c' row' (renC ρ n))
  | .mk id dc sd sc p cs => by
    have ho := outputScoreDist_ren h0 h (.mk id dc sd sc p cs)
    rw [renC] at ho ⊢
    rw [evalNone, evalNone]
    refine (runTest_ren h.types hr p).bind fun a b hab => ?_
    subst hab
    split_ifs
    · rfl
    · refine (evalNoneChildren_ren cs).bind fun x y hxy => ?_
      subst hxy
      cases x with
      | none => simp only [ho]; rfl
      | some r => rfl
theorem evalNoneChildren_ren : (cs : List (CNode F)) →
    RenRes ρ Eq (evalNoneChildren c row cs) (evalNoneChildren c' row' (renCs ρ cs))
  | [] => rfl
  | n :: cs => by
    rw [renCs, evalNoneChildren, evalNoneChildren]
    refine (evalNone_ren n).bind fun x y hxy => ?_
    subst hxy
    split_ifs
    · rfl
    · exact evalNoneChildren_ren cs
end

mutual
theorem evalNull_ren : (n : CNode F) → RenRes ρ Eq (evalNull c row n) (evalNull c' row' (renC ρ n))
  | .mk id dc sd sc p cs => by
    have ho := outputScoreDist_ren h0 h (.mk id dc sd sc p cs)
    rw [renC] at ho ⊢
    rw [evalNull, evalNull]
    refine (runTest_ren h.types hr p).bind fun a b hab => ?_
    subst hab
    split_ifs
    · rfl
    · rfl
    · refine (evalNullChildren_ren cs).bind fun x y hxy => ?_
      subst hxy
      cases x with
      | none => simp only [ho]; rfl
      | some r => rfl
theorem evalNullChildren_ren : (cs : List (CNode F)) →
    RenRes ρ Eq (evalNullChildren c row cs) (evalNullChildren c' row' (renCs ρ cs))
  | [] => rfl
  | n :: cs => by
    rw [renCs, evalNullChildren, evalNullChildren]
    refine (evalNull_ren n).bind fun x y hxy => ?_
    subst hxy
    split_ifs
    · rfl
    · rfl
    · exact evalNullChildren_ren cs
end

mutual
theorem evalLast_ren : (n : CNode F) → RenRes ρ Eq (evalLast c row n) (evalLast c' row' (renC ρ n))
  | .mk id dc sd sc p cs => by
    have ho := outputScoreDist_ren h0 h (.mk id dc sd sc p cs)
    rw [renC] at ho ⊢
    rw [evalLast, evalLast]
    refine (runTest_ren h.types hr p).bind fun a b hab => ?_
    subst hab
    split_ifs
    · rfl
    · refine (evalLastChildren_ren cs).bind fun x y hxy => ?_
      subst hxy
      simp only [ho]
      split_ifs <;> rfl
theorem evalLastChildren_ren : (cs : List (CNode F)) →
    RenRes ρ Eq (evalLastChildren c row cs) (evalLastChildren c' row' (renCs ρ cs))
  | [] => rfl
  | n :: cs => by
    rw [renCs, evalLastChildren, evalLastChildren]
    refine (evalLast_ren n).bind fun x y hxy => (evalLastChildren_ren cs).bind fun z w hzw => ?_
    subst hxy; subst hzw
    rfl
end

mutual
theorem evalDefault_ren : (n : CNode F) → RenRes ρ Eq (evalDefault c row n) (evalDefault c' row' (renC ρ n))
  | .mk id dc sd sc p cs => by
    have ho := outputScoreDist_ren h0 h (.mk id dc sd sc p cs)
    rw [renC] at ho ⊢
    rw [evalDefault, evalDefault]
    refine (runTest_ren h.types hr p).bind fun a b hab => ?_
    subst hab
    split_ifs
    · rfl
    · refine (evalDefaultChildren_ren cs).bind fun x y hxy => ?_
      subst hxy
      simp only [ho, childScores_ren, h.penalty]
      split_ifs
      · rfl
      · cases (childScores cs x)[dc]? <;> rfl
      · rfl
theorem evalDefaultChildren_ren : (cs : List (CNode F)) →
    RenRes ρ Eq (evalDefaultChildren c row cs) (evalDefaultChildren c' row' (renCs ρ cs))
  | [] => rfl
  | n :: cs => by
    rw [renCs, evalDefaultChildren, evalDefaultChildren]
    refine (evalDefault_ren n).bind fun x y hxy => (evalDefaultChildren_ren cs).bind fun z w hzw => ?_
    subst hxy; subst hzw
    rfl
end

mutual
theorem evalWeighted_ren (o : MapOrd) : (n : CNode F) →
    RenRes ρ Eq (evalWeighted c row o n) (evalWeighted c' row' o (renC ρ n))
  | .mk id dc sd sc p cs => by
    have ho := outputScoreDist_ren h0 h (.mk id dc sd sc p cs)
    rw [renC] at ho ⊢
    rw [evalWeighted, evalWeighted]
    refine (runTest_ren h.types hr p).bind fun a b hab => ?_
    subst hab
    split_ifs
    · rfl
    · refine (evalWeightedChildren_ren o 2 cs).bind fun x y hxy => ?_
      subst hxy
      simp only [ho, weightedAgg_ren]
      split_ifs <;> rfl
theorem evalWeightedChildren_ren (o : MapOrd) (i : Nat) : (cs : List (CNode F)) →
    RenRes ρ Eq (evalWeightedChildren c row o i cs) (evalWeightedChildren c' row' o i (renCs ρ cs))
  | [] => rfl
  | n :: cs => by
    rw [renCs, evalWeightedChildren, evalWeightedChildren]
    refine (evalWeighted_ren (o.at_ i) n).bind fun x y hxy =>
      (evalWeightedChildren_ren o (i + 1) cs).bind fun z w hzw => ?_
    subst hxy; subst hzw
    rfl
end

mutual
theorem evalAggregate_ren (o : MapOrd) : (n : CNode F) →
    RenRes ρ Eq (evalAggregate c row o n) (evalAggregate c' row' o (renC ρ n))
  | .mk id dc sd sc p cs => by
    have ho := outputScoreDist_ren h0 h (.mk id dc sd sc p cs)
    rw [renC] at ho ⊢
    rw [evalAggregate, evalAggregate]
    refine (runTest_ren h.types hr p).bind fun a b hab => ?_
    subst hab
    simp only [ho]
    split_ifs
    · rfl
    · refine (evalAggregateChildren_ren o 1 cs).bind fun x y hxy => ?_
      subst hxy
      split_ifs <;> rfl
theorem evalAggregateChildren_ren (o : MapOrd) (i : Nat) : (cs : List (CNode F)) →
    RenRes ρ Eq (evalAggregateChildren c row o i cs) (evalAggregateChildren c' row' o i (renCs ρ cs))
  | [] => rfl
  | n :: cs => by
    rw [renCs, evalAggregateChildren, evalAggregateChildren]
    refine (evalAggregate_ren (o.at_ i) n).bind fun x y hxy =>
      (evalAggregateChildren_ren o (i + 1) cs).bind fun z w hzw => ?_
    subst hxy; subst hzw
    rfl
end

theorem evalNode_ren (o : MapOrd) (n : CNode F) :
    RenRes ρ Eq (evalNode c o row n) (evalNode c' o row' (renC ρ n)) := by
  unfold evalNode
  rw [h.strategy]
  cases c.strategy with
  | nullPrediction => exact evalNull_ren h0 h hr n
  | aggregateNodes => exact evalAggregate_ren h0 h hr o n
  | weightedConfidence => exact evalWeighted_ren h0 h hr o n
  | defaultChild => exact evalDefault_ren h0 h hr n
  | lastPrediction => exact evalLast_ren h0 h hr n
  | none => exact evalNone_ren h0 h hr n
  | other s => exact evalNone_ren h0 h hr n

end

omit [Arith F] [Lib F] in
theorem findTarget_ren (init : String) (fs : List MiningField) :
    findTarget (ρ init) (fs.map (renMining ρ)) = ρ (findTarget init fs) := by
  unfold findTarget
  rw [List.foldl_map]
  induction fs generalizing init with
  | nil => rfl
  | cons f fs ih =>
    rw [List.foldl_cons, List.foldl_cons, ← ih]
    simp only [renMining]
    congr 1
    by_cases hu : f.usageType = .target <;> simp [hu]

omit [Arith F] [Lib F] in
theorem buildTypes_ren (dd : List DataField) (td : TD F) :
    RenMap ρ (buildTypes dd td) (buildTypes (dd.map (renData ρ)) (td.map (renDerived ρ))) := by
  unfold buildTypes
  rw [List.foldl_map, List.foldl_map]
  exact RenMap.foldl_insert _ _ _ (RenMap.foldl_insert _ _ _ RenMap.empty)

omit [Arith F] [Lib F] in
theorem withDefaults_ren (fs : List MiningField) :
    (fs.map (renMining ρ)).map MiningField.withDefaults = (fs.map MiningField.withDefaults).map (renMining ρ) := by
  rw [List.map_map, List.map_map]
  rfl

/-- A tree evaluator under new names. -/
structure TreeRen (ρ : Equiv.Perm String) (m m' : TreeModel F) : Prop where
  validated : m'.validated = m.validated
  compiled : m'.compiled = m.compiled
  ctx : CtxRen ρ m.ctx m'.ctx
  fn : m'.model.functionName = m.model.functionName
  lt : m'.model.localTransformations = m.model.localTransformations.map (renDerived ρ)
  root : m'.root = renC ρ m.root
  keys : KeysOk m.outKeys ∧ KeysOk m'.outKeys

theorem newTreeModel_ren (h0 : ρ "" = "") (dd : List DataField) (td : TD F) (d : TreeDoc F) :
    RenRes ρ (TreeRen ρ) (newTreeModel dd td d).1
      (newTreeModel (dd.map (renData ρ)) (td.map (renDerived ρ)) (renTree ρ d)).1 ∧
    (newTreeModel (dd.map (renData ρ)) (td.map (renDerived ρ)) (renTree ρ d)).2 =
      (newTreeModel dd td d).2.map (renDerived ρ) := by
  have hv : ∀ (dd : List DataField) (d : TreeDoc F), (TreeModel.init dd d).validate =
      if d.functionName ≠ .classification ∧ d.functionName ≠ .regression then
        (fail .unsupportedMiningFunction, TreeModel.init dd d)
      else (.ok (), { TreeModel.init dd d with
        model := { d with miningFields := d.miningFields.map MiningField.withDefaults }
        validated := true }) := fun _ _ => rfl
  have hfn : (renTree ρ d).functionName = d.functionName := rfl
  by_cases hf : d.functionName ≠ .classification ∧ d.functionName ≠ .regression
  · have e1 : newTreeModel dd td d = (fail .unsupportedMiningFunction, td) := by
      unfold newTreeModel; rw [hv, if_pos hf]
    have e2 : newTreeModel (dd.map (renData ρ)) (td.map (renDerived ρ)) (renTree ρ d) =
        (fail .unsupportedMiningFunction, td.map (renDerived ρ)) := by
      unfold newTreeModel; rw [hv, hfn, if_pos hf]
    rw [e1, e2]
    exact ⟨rfl, rfl⟩
  · have hty := buildTypes_ren (ρ := ρ) dd (td ++ d.localTransformations)
    have hn := newNode_ren hty d.node
    have ht := findTarget_ren (ρ := ρ) "" (d.miningFields.map MiningField.withDefaults)
    rw [List.map_append] at hty hn
    rw [h0] at ht
    unfold newTreeModel
    rw [hv, hv, hfn, if_neg hf, if_neg hf]
    simp only [TreeModel.init, renTree, TreeModel.compile, withDefaults_ren, ht]
    generalize newNode (buildTypes dd (td ++ d.localTransformations)) d.node = x at hn
    generalize newNode (buildTypes (dd.map (renData ρ)) (td.map (renDerived ρ) ++ d.localTransformations.map (renDerived ρ)))
      (renNode ρ d.node) = y at hn
    cases x with
    | error e => cases y with
      | error e' => exact ⟨hn, by simp⟩
      | ok b => exact hn.elim
    | ok a => cases y with
      | error e' => exact hn.elim
      | ok b =>
        refine ⟨?_, by simp⟩
        exact { validated := rfl, compiled := rfl, fn := rfl, lt := rfl, root := hn, keys := ⟨keysOk_empty, keysOk_empty⟩,
                ctx := ⟨rfl, rfl, rfl, rfl, rfl, hty⟩ }


theorem report_ren (hs : ∀ k, Reserved k → ρ k = k) (fn : MiningFunction) (target : String) (a : Ans F) :
    RenRes ρ (RenRow ρ) (report fn target a) (report fn (ρ target) a) := by
  obtain ⟨dist, r⟩ := a
  unfold report
  split_ifs
  · exact trivial
  · cases fn with
    | classification =>
      refine (?_ : RenMap ρ _ _)
      unfold classRow
      have : ∀ s : ScoreDist F, ("probability(" ++ s.value ++ ")") = ρ ("probability(" ++ s.value ++ ")") :=
        fun s => (hs _ (.inr (.inr ⟨_, rfl⟩))).symm
      have key := RenMap.foldl_insert (ρ := ρ) (fun s : ScoreDist F => "probability(" ++ s.value ++ ")")
        (fun s => (.f64 s.probability : GoVal F)) dist (RenMap.insert RenMap.empty target (.str (pickBest dist).value))
      simp only [← this] at key
      exact key
    | regression =>
      cases dist with
      | nil => rfl
      | cons s l =>
        simp only
        cases Lib.parseFloat (F := F) s.value with
        | none => rfl
        | some x =>
          have := RenMap.insert (ρ := ρ) (RenMap.empty (V := GoVal F)) "score" (.f64 x)
          rw [hs "score" (.inr (.inl rfl))] at this
          exact this
    | other s => exact RenMap.empty

theorem treeEvaluate_ren (hs : ∀ k, Reserved k → ρ k = k) {m m' : TreeModel F} (h : TreeRen ρ m m')
    (hv : m.validated = true) (hc : m.compiled = true) (o : MapOrd) {row row' : Row F} (hr : RenRow ρ row row') :
    RenRes ρ (RenRow ρ) (m.evaluate o row).res (m'.evaluate o row').res ∧
    RenRow ρ (m.evaluate o row).row (m'.evaluate o row').row := by
  obtain ⟨e1, e2, -⟩ := evaluate_eq hv hc h.keys.1 o row
  obtain ⟨e1', e2', -⟩ := evaluate_eq (h.validated.trans hv) (h.compiled.trans hc) h.keys.2 o row'
  have hi := handleInput_ren m.model.localTransformations hr
  rw [h.lt] at e1' e2'
  rw [e1, e2, e1', e2']
  refine ⟨?_, hi.2⟩
  generalize handleInput m.model.localTransformations row = x at hi
  generalize handleInput (m.model.localTransformations.map (renDerived ρ)) row' = y at hi
  obtain ⟨x, r⟩ := x
  obtain ⟨y, r'⟩ := y
  obtain ⟨hi, hr'⟩ := hi
  cases x with
  | error e => cases y with
    | error e' => exact hi
    | ok b => exact hi.elim
  | ok a => cases y with
    | error e' => exact hi.elim
    | ok b =>
      simp only
      have hn := evalNode_ren (hs "" (.inl rfl)) h.ctx hr' o m.root
      rw [h.root]
      simp only at hn
      generalize evalNode m.ctx o r m.root = x at hn
      generalize evalNode m'.ctx o r' (renC ρ m.root) = y at hn
      cases x with
      | error e => cases y with
        | error e' => exact hn
        | ok b => exact hn.elim
      | ok a => cases y with
        | error e' => exact hn.elim
        | ok b =>
          cases (hn : a = b)
          simp only
          have := report_ren hs m.model.functionName m.targetField a
          rw [h.fn, show m'.targetField = ρ m.targetField from h.ctx.target]
          exact this

/-! ## Regression models -/

variable [Trans F]

omit [Lib F] in
theorem normalize_ren (n : Normalization) (x : F) : RenRes ρ Eq (normalize n x) (normalize n x) := by
  cases n <;> rfl

omit [Trans F] in
theorem linearLoop_ren {row row' : Row F} (hr : RenRow ρ row row') : (nps : List (NumericPredictor F)) → ∀ y,
    RenRes ρ Eq (linearLoop row y nps) (linearLoop row' y (nps.map fun np => { np with name := ρ np.name }))
  | [], y => rfl
  | np :: nps, y => by
    rw [List.map_cons, linearLoop, linearLoop, RenRow.get hr]
    cases row.get np.name with
    | none => rfl
    | some t => exact linearLoop_ren hr nps _

theorem binaryLoop_ren {row row' : Row F} (hr : RenRow ρ row row') (n : Normalization) :
    (nps : List (NumericPredictor F)) → ∀ y,
    RenRes ρ Eq (binaryLoop n row y nps) (binaryLoop n row' y (nps.map fun np => { np with name := ρ np.name }))
  | [], y => rfl
  | np :: nps, y => by
    rw [List.map_cons, binaryLoop, binaryLoop, RenRow.get hr]
    cases row.get np.name with
    | none => rfl
    | some t =>
      refine (normalize_ren n t.float64).bind fun a b hab => ?_
      subst hab
      exact binaryLoop_ren hr n nps _

omit [Arith F] [Lib F] [Trans F] in
theorem binaryOut_ren (outputs : List OutputField) (cat : String) (pred : F) : ∀ {out out' : GoMap (GoVal F)},
    RenMap ρ out out' → RenMap ρ (binaryOut outputs cat pred out) (binaryOut (outputs.map (renOutput ρ)) cat pred out') := by
  unfold binaryOut
  induction outputs with
  | nil => intro out out' h; exact h
  | cons f fs ih =>
    intro out out' h
    rw [List.map_cons, List.foldl_cons, List.foldl_cons]
    apply ih
    by_cases hc : cat = f.value
    · rw [if_pos hc, if_pos (show cat = (renOutput ρ f).value from hc)]
      exact RenMap.insert h _ _
    · rw [if_neg hc, if_neg (show ¬ cat = (renOutput ρ f).value from hc)]
      exact h

theorem binaryTables_ren {row row' : Row F} (hr : RenRow ρ row row') (n : Normalization) (outputs : List OutputField) :
    (ts : List (RegressionTable F)) → ∀ (y : F) {out out' : GoMap (GoVal F)}, RenMap ρ out out' →
    RenRes ρ (RenMap ρ) (binaryTables n outputs row y out ts)
      (binaryTables n (outputs.map (renOutput ρ)) row' y out' (ts.map (renTable ρ)))
  | [], y, out, out', h => h
  | t :: ts, y, out, out', h => by
    rw [List.map_cons, binaryTables, binaryTables]
    have e : (renTable ρ t).predictors ≠ [] ↔ t.predictors ≠ [] := by simp [renTable]
    by_cases hp : t.predictors ≠ []
    · rw [if_pos hp, if_pos (e.mpr hp)]
      refine (binaryLoop_ren hr n t.predictors _).bind fun a b hab => ?_
      subst hab
      exact binaryTables_ren hr n outputs ts _ (binaryOut_ren outputs _ _ h)
    · rw [if_neg hp, if_neg (mt e.mp hp)]
      exact binaryTables_ren hr n outputs ts _ (binaryOut_ren outputs _ _ h)

omit [Trans F] in
theorem linearAll_ren {row row' : Row F} (hr : RenRow ρ row row') : (ts : List (RegressionTable F)) →
    RenRes ρ Eq (linearAll row ts) (linearAll row' (ts.map (renTable ρ)))
  | [] => rfl
  | t :: ts => by
    rw [List.map_cons, linearAll, linearAll]
    refine (linearLoop_ren hr t.predictors _).bind fun a b hab => (linearAll_ren hr ts).bind fun c d hcd => ?_
    subst hab; subst hcd
    rfl

omit [Lib F] in
theorem multiclassOut_ren (n : Normalization) (y : List F) : (l : List (String × F)) → ∀ {out out' : GoMap (GoVal F)},
    RenMap ρ out out' →
    RenRes ρ (RenMap ρ) (multiclassOut n y out l) (multiclassOut n y out' (l.map fun p => (ρ p.1, p.2)))
  | [], out, out', h => h
  | (t, yi) :: l, out, out', h => by
    rw [List.map_cons, multiclassOut.eq_def, multiclassOut.eq_def (n := n) (out := out')]
    simp only
    cases n with
    | softmax => exact multiclassOut_ren .softmax y l (RenMap.insert h _ _)
    | simplemax => exact multiclassOut_ren .simplemax y l (RenMap.insert h _ _)
    | _ => rfl

omit [Arith F] [Lib F] [Trans F] in
theorem outFieldMap_ren (h0 : ρ "" = "") (outputs : List OutputField) (k : String) :
    ((outFieldMap (outputs.map (renOutput ρ)))[k]?).getD "" = ρ (((outFieldMap outputs)[k]?).getD "") := by
  unfold outFieldMap
  rw [List.foldl_map]
  have : ∀ (l : List OutputField) (m m' : GoMap String), (m'[k]?) = (m[k]?).map ρ →
      (l.foldl (fun m f => m.insert (renOutput ρ f).value (renOutput ρ f).name) m')[k]? =
      ((l.foldl (fun m f => m.insert f.value f.name) m)[k]?).map ρ := by
    intro l
    induction l with
    | nil => intro m m' h; exact h
    | cons f l ih =>
      intro m m' h
      apply ih
      rw [GoMap.getElem?_insert, GoMap.getElem?_insert]
      by_cases hc : f.value = k
      · rw [if_pos hc, if_pos (show (renOutput ρ f).value = k from hc)]
        rfl
      · rw [if_neg hc, if_neg (show ¬ (renOutput ρ f).value = k from hc)]
        exact h
  rw [this outputs ∅ ∅ (by simp)]
  cases (List.foldl (fun m f => m.insert f.value f.name) (∅ : GoMap String) outputs)[k]? with
  | none => simp [h0]
  | some x => simp

theorem regressionEvaluate_ren (h0 : ρ "" = "") (d : RegressionDoc F) {row row' : Row F} (hr : RenRow ρ row row') :
    RenRes ρ (RenRow ρ) (d.evaluate row) ((renRegression ρ d).evaluate row') := by
  unfold RegressionDoc.evaluate
  have e1 : (renRegression ρ d).functionName = d.functionName := rfl
  have e2 : (renRegression ρ d).outputs = d.outputs.map (renOutput ρ) := rfl
  have e3 : (renRegression ρ d).tables = d.tables.map (renTable ρ) := rfl
  have e4 : (renRegression ρ d).normalization = d.normalization := rfl
  rw [e1]
  cases d.functionName with
  | regression =>
    simp only
    unfold RegressionDoc.evalRegression
    rw [e2, e3, e4]
    match d.tables with
    | [] => rfl
    | [t] =>
      match d.outputs with
      | [] => rfl
      | [f] =>
        simp only [List.map_cons, List.map_nil]
        refine (linearLoop_ren hr t.predictors _).bind fun a b hab => ?_
        subst hab
        refine (normalize_ren _ a).bind fun c d hcd => ?_
        subst hcd
        exact RenMap.insert RenMap.empty f.name _
      | a :: b :: l => simp [RenRes, renFault, renErr]
    | a :: b :: l => simp [RenRes, renFault, renErr]
  | classification =>
    simp only
    rw [e2, List.length_map]
    split_ifs
    · unfold RegressionDoc.evalBinary
      rw [e2, e3, e4]
      refine (binaryTables_ren hr _ _ d.tables _ RenMap.empty).bind fun a b hab => ?_
      exact hab
    · unfold RegressionDoc.evalMulticlass
      rw [e2, e3, e4]
      simp only
      refine (linearAll_ren hr d.tables).bind fun a b hab => ?_
      subst hab
      have : ((d.tables.map (renTable ρ)).map fun t => ((outFieldMap (d.outputs.map (renOutput ρ)))[t.targetCategory]?).getD "") =
          (d.tables.map fun t => ((outFieldMap d.outputs)[t.targetCategory]?).getD "").map ρ := by
        rw [List.map_map, List.map_map]
        apply List.map_congr_left
        intro t _
        simp only [Function.comp, outFieldMap_ren h0]
        rfl
      rw [this, List.zip_map_left (f := ρ)]
      refine (multiclassOut_ren _ a _ RenMap.empty).bind fun a b hab => ?_
      exact hab
  | other s => rfl

/-! ## Ensembles -/

omit [Arith F] [Lib F] [Trans F] in
theorem replacement_ren (fs : List MiningField) (k : String) :
    replacement (fs.map (renMining ρ)) (ρ k) = replacement fs k := by
  unfold replacement
  rw [List.filter_map, List.getLast?_map]
  have : (fun f : MiningField => decide (f.name = ρ k ∧ f.missingValueReplacement.isSome = true)) ∘ renMining ρ =
      fun f => decide (f.name = k ∧ f.missingValueReplacement.isSome = true) := by
    funext f
    simp [renMining]
  rw [this]
  cases (fs.filter fun f => decide (f.name = k ∧ f.missingValueReplacement.isSome = true)).getLast? <;> rfl

omit [Arith F] [Lib F] [Trans F] in
theorem impute_ren (o o' : MapOrd) (fs : List MiningField) {row row' : Row F} (hr : RenRow ρ row row') :
    RenRes ρ Eq (imputeLoop (o.range (buildDefaults fs)) row).1
      (imputeLoop (o'.range (buildDefaults (fs.map (renMining ρ)))) row').1 ∧
    RenRow ρ (imputeLoop (o.range (buildDefaults fs)) row).2
      (imputeLoop (o'.range (buildDefaults (fs.map (renMining ρ)))) row').2 := by
  cases row with
  | none => cases row' with
    | some r => exact hr.elim
    | none =>
      rcases impute_none (F := F) o fs with ⟨⟨k, hk⟩, e⟩ | ⟨hk, e⟩
      · rcases impute_none (F := F) o' (fs.map (renMining ρ)) with ⟨-, e'⟩ | ⟨hk', -⟩
        · rw [e, e']; exact ⟨rfl, trivial⟩
        · rw [← replacement_ren (ρ := ρ), hk'] at hk; cases hk
      · rcases impute_none (F := F) o' (fs.map (renMining ρ)) with ⟨⟨k, hk'⟩, -⟩ | ⟨-, e'⟩
        · rw [← ρ.apply_symm_apply k, replacement_ren, hk] at hk'; cases hk'
        · rw [e, e']; exact ⟨rfl, trivial⟩
  | some r => cases row' with
    | none => exact hr.elim
    | some r' =>
      obtain ⟨x, e, hx⟩ := impute_some o fs r
      obtain ⟨x', e', hx'⟩ := impute_some o' (fs.map (renMining ρ)) r'
      rw [e, e']
      refine ⟨rfl, fun k => ?_⟩
      rw [hx k, hx' (ρ k), replacement_ren, (hr : RenMap ρ r r') k]

omit [Arith F] [Lib F] [Trans F] in
theorem writeAll_ren (o o' : MapOrd) {out out' : GoMap (GoVal F)} (ho : RenMap ρ out out') {row row' : Row F}
    (hr : RenRow ρ row row') :
    RenRes ρ Eq (writeAll (o.range out) row).1 (writeAll (o'.range out') row').1 ∧
    RenRow ρ (writeAll (o.range out) row).2 (writeAll (o'.range out') row').2 := by
  have hn : row = none ↔ row' = none := by cases row <;> cases row' <;> first | exact hr.elim | simp
  rcases writeAll_extended o out row with ⟨h1, h2, e⟩ | ⟨x, e, hx⟩
  · rcases writeAll_extended o' out' row' with ⟨h1', h2', e'⟩ | ⟨x', e', hx'⟩
    · rw [e, e']; exact ⟨rfl, trivial⟩
    · exact absurd ((RenMap.eq_empty ho).mp (hx'.2.1 (hn.mp h1))) h2
  · rcases writeAll_extended o' out' row' with ⟨h1', h2', e'⟩ | ⟨x', e', hx'⟩
    · exact absurd ((RenMap.eq_empty ho).mpr (hx.2.1 (hn.mpr h1'))) h2'
    · rw [e, e']
      refine ⟨rfl, ?_⟩
      have hg : ∀ k, x'.get (ρ k) = x.get k := by
        intro k
        rw [hx.2.2 k, hx'.2.2 (ρ k), ho k, RenRow.get hr]
      have hx0 : x = none ↔ x' = none := by rw [← hx.1, ← hx'.1, hn]
      cases x with
      | none => cases x' with
        | none => trivial
        | some r => simp at hx0
      | some r => cases x' with
        | none => simp at hx0
        | some r' => exact hg

/-- An ensemble under new names. -/
structure StateRen (ρ : Equiv.Perm String) (s s' : MiningState F) : Prop where
  validated : s'.validated = s.validated
  compiled : s'.compiled = s.compiled
  method : s'.head.method = s.head.method
  fn : s'.head.functionName = s.head.functionName
  lt : s'.head.localTransformations = s.head.localTransformations.map (renDerived ρ)
  count : s'.segments.length = s.segments.length
  defaults : ∃ fs, s.defaultValues = buildDefaults fs ∧ s'.defaultValues = buildDefaults (fs.map (renMining ρ))
  outputs : s'.outputFields = s.outputFields.map (renOutput ρ)
  targets : s'.targets = s.targets.map (renTarget ρ)

omit [Lib F] [Trans F] in
theorem initScores_ren {s s' : MiningState F} (h : StateRen ρ s s') : RenMap ρ (initScores s) (initScores s') := by
  unfold initScores
  rw [h.outputs, h.targets, List.foldl_map, List.foldl_map]
  exact RenMap.foldl_insert _ _ _ (RenMap.foldl_insert _ _ _ RenMap.empty)

omit [Trans F] in
theorem addScore_ren (hs : ρ "score" = "score") (o o' : MapOrd) (fn : MiningFunction) {out out' : Out F}
    (ho : RenRow ρ out out') {sm sm' : GoMap F} (h : RenMap ρ sm sm') :
    RenMap ρ ((o.range sm).foldl (addScore fn out) sm) ((o'.range sm').foldl (addScore fn out') sm') := by
  intro k
  rw [addScore_getElem?, addScore_getElem?, h k]
  have : contribution fn (ρ k) out' = contribution fn k out := by
    unfold contribution
    cases out with
    | none => cases out' with
      | none => rfl
      | some m => exact ho.elim
    | some m => cases out' with
      | none => exact ho.elim
      | some m' =>
        have h1 := (ho : RenMap ρ m m') k
        have h2 := (ho : RenMap ρ m m') "score"
        rw [hs] at h2
        by_cases hf : fn = .classification <;> simp [hf, h1, h2]
  rw [this]

omit [Lib F] [Trans F] in
theorem rescale_ren (ts : List (Target F)) : ∀ {sm sm' : GoMap F}, RenMap ρ sm sm' →
    RenMap ρ (rescale ts sm) (rescale (ts.map (renTarget ρ)) sm') := by
  unfold rescale
  induction ts with
  | nil => intro sm sm' h; exact h
  | cons t ts ih =>
    intro sm sm' h
    rw [List.map_cons, List.foldl_cons, List.foldl_cons]
    apply ih
    simp only [renTarget]
    cases t.rescaleFactor with
    | none =>
      cases t.rescaleConstant with
      | none => exact h
      | some k => simp only; rw [h t.field]; exact RenMap.insert h _ _
    | some k1 =>
      have h1 := RenMap.insert h t.field (Arith.mul ((sm[t.field]?).getD Arith.zero) k1)
      cases t.rescaleConstant with
      | none => simp only; rw [h t.field]; exact h1
      | some k => simp only; rw [h t.field, h1 t.field]; exact RenMap.insert h1 _ _

omit [Lib F] [Trans F] in
theorem sumFinish_ren (o o' : MapOrd) {s s' : MiningState F} (h : StateRen ρ s s') {sm sm' : GoMap F}
    (hm : RenMap ρ sm sm') : RenMap ρ (sumFinish o s sm) (sumFinish o' s' sm') := by
  intro k
  unfold sumFinish
  rw [scoresToRow_getElem?, scoresToRow_getElem?, h.targets, rescale_ren s.targets hm k]

omit [Trans F] in
theorem averageLoop_ren (o o' : MapOrd) (n : Nat) {out out' : GoMap (GoVal F)} (h : RenMap ρ out out') :
    RenMap ρ (averageLoop n (o.range out) out) (averageLoop n (o'.range out') out') := by
  intro k
  rw [averageLoop_getElem?, averageLoop_getElem?, h k]

theorem sumSegments_ren (hs : ρ "score" = "score") (fn : MiningFunction) {ms ms' : List (EModel F)}
    (h : List.Forall₂ (Alpha ρ) ms ms') : ∀ (o : MapOrd) (i : Nat) {sm sm' : GoMap F} {row row' : Row F}, RenMap ρ sm sm' →
    RenRow ρ row row' →
    RenRes ρ (RenMap ρ) (sumSegments o fn i sm ms row).res (sumSegments o fn i sm' ms' row').res ∧
    RenRow ρ (sumSegments o fn i sm ms row).row (sumSegments o fn i sm' ms' row').row := by
  induction h with
  | nil => intro o i sm sm' row row' h1 h2; rw [sumSegments, sumSegments]; exact ⟨h1, h2⟩
  | @cons m m' ms ms' h hs' ih =>
    intro o i sm sm' row row' h1 h2
    rw [sumSegments, sumSegments]
    obtain ⟨h3, h4⟩ := h (o.at_ (2 * i)) row row' h2
    revert h3 h4
    generalize EModel.evaluate (o.at_ (2 * i)) m row = e
    generalize EModel.evaluate (o.at_ (2 * i)) m' row' = e'
    obtain ⟨x, r, n⟩ := e
    obtain ⟨x', r', n'⟩ := e'
    intro h3 h4
    cases x with
    | error f => cases x' with
      | error f' => exact ⟨h3, h4⟩
      | ok b => exact h3.elim
    | ok a => cases x' with
      | error f' => exact h3.elim
      | ok b => exact ih o (i + 1) (addScore_ren hs _ _ fn h3 h1) h4

theorem chainSegments_ren {ms ms' : List (EModel F)} (h : List.Forall₂ (Alpha ρ) ms ms') :
    ∀ (o : MapOrd) (i : Nat) {out out' : Out F} {row row' : Row F}, RenRow ρ out out' → RenRow ρ row row' →
    RenRes ρ (RenRow ρ) (chainSegments o i out ms row).res (chainSegments o i out' ms' row').res ∧
    RenRow ρ (chainSegments o i out ms row).row (chainSegments o i out' ms' row').row := by
  induction h with
  | nil => intro o i out out' row row' h1 h2; rw [chainSegments, chainSegments]; exact ⟨h1, h2⟩
  | @cons m m' ms ms' h hs' ih =>
    intro o i out out' row row' h1 h2
    rw [chainSegments, chainSegments]
    have hout : RenMap ρ (out.getD ∅) (out'.getD ∅) := by
      cases out <;> cases out' <;> first | exact h1.elim | exact RenMap.empty | exact h1
    have hw := writeAll_ren (o.at_ (2 * i)) (o.at_ (2 * i)) hout h2
    revert hw
    generalize writeAll ((o.at_ (2 * i)).range (out.getD ∅)) row = w
    generalize writeAll ((o.at_ (2 * i)).range (out'.getD ∅)) row' = w'
    obtain ⟨w, r⟩ := w
    obtain ⟨w', r'⟩ := w'
    rintro ⟨hw, hr⟩
    cases w with
    | error f => cases w' with
      | error f' => exact ⟨hw, hr⟩
      | ok b => exact hw.elim
    | ok a => cases w' with
      | error f' => exact hw.elim
      | ok b =>
        simp only
        obtain ⟨h3, h4⟩ := h (o.at_ (2 * i + 1)) r r' hr
        revert h3 h4
        generalize EModel.evaluate (o.at_ (2 * i + 1)) m r = e
        generalize EModel.evaluate (o.at_ (2 * i + 1)) m' r' = e'
        obtain ⟨x, r, n⟩ := e
        obtain ⟨x', r', n'⟩ := e'
        intro h3 h4
        cases x with
        | error f => cases x' with
          | error f' => exact ⟨h3, h4⟩
          | ok b => exact h3.elim
        | ok a => cases x' with
          | error f' => exact h3.elim
          | ok b => exact ih o (i + 1) h3 h4

theorem mining_ren (hs : ρ "score" = "score") {s s' : MiningState F} (h : StateRen ρ s s') {ms ms' : List (EModel F)}
    (hm : List.Forall₂ (Alpha ρ) ms ms') : Alpha ρ (.mining s ms) (.mining s' ms') := by
  intro o row row' hr
  rw [EModel.evaluate, EModel.evaluate, h.validated, h.compiled]
  by_cases hv : ¬ s.validated = true
  · rw [if_pos hv, if_pos hv]; exact ⟨rfl, hr⟩
  rw [if_neg hv, if_neg hv]
  by_cases hc : ¬ s.compiled = true
  · rw [if_pos hc, if_pos hc]; exact ⟨rfl, hr⟩
  rw [if_neg hc, if_neg hc]
  obtain ⟨fs, e1, e2⟩ := h.defaults
  rw [e1, e2, h.lt, h.method, h.fn, h.count]
  have hi := impute_ren (o.at_ 0) (o.at_ 0) fs hr
  revert hi
  generalize imputeLoop ((o.at_ 0).range (buildDefaults fs)) row = x
  generalize imputeLoop ((o.at_ 0).range (buildDefaults (fs.map (renMining ρ)))) row' = y
  obtain ⟨x, r⟩ := x
  obtain ⟨y, r'⟩ := y
  rintro ⟨hi, hr'⟩
  cases x with
  | error f => cases y with
    | error f' => exact ⟨hi, hr'⟩
    | ok b => exact hi.elim
  | ok a => cases y with
    | error f' => exact hi.elim
    | ok b =>
      simp only
      have hi := handleInput_ren s.head.localTransformations hr'
      revert hi
      generalize handleInput s.head.localTransformations r = x
      generalize handleInput (s.head.localTransformations.map (renDerived ρ)) r' = y
      obtain ⟨x, r⟩ := x
      obtain ⟨y, r'⟩ := y
      rintro ⟨hi, hr'⟩
      cases x with
      | error f => cases y with
        | error f' => exact ⟨hi, hr'⟩
        | ok b => exact hi.elim
      | ok a => cases y with
        | error f' => exact hi.elim
        | ok b =>
          simp only
          have hsum := sumSegments_ren hs s.head.functionName hm (o.at_ 1) 0 (initScores_ren h) hr'
          have hch := chainSegments_ren hm (o.at_ 1) 0 (out := some ∅) (out' := some ∅) (RenMap.empty (ρ := ρ)) hr'
          cases s.head.method with
          | average =>
            refine ⟨hsum.1.map fun a b hab => ?_, hsum.2⟩
            exact averageLoop_ren _ _ _ (sumFinish_ren _ _ h hab)
          | sum => exact ⟨hsum.1.map fun a b hab => sumFinish_ren _ _ h hab, hsum.2⟩
          | modelChain => exact hch
          | selectFirst =>
            cases hm with
            | nil => rw [selectFirst, selectFirst]; exact ⟨rfl, hr'⟩
            | cons h1 _ => rw [selectFirst, selectFirst]; exact h1 (o.at_ 1) _ _ hr'
          | empty => exact ⟨rfl, hr'⟩
          | other k => exact ⟨rfl, hr'⟩

omit [Arith F] [Lib F] [Trans F] in
theorem validate_eq (dd : List DataField) (h : MiningHead F) (segs : List (SegDoc F)) :
    (MiningState.init dd h segs).validate =
      (fun mth : MultipleModelMethod =>
        if mth = .average ∨ mth = .modelChain ∨ mth = .sum ∨ mth = .selectFirst then
          if h.outputs.all (fun f => f.feature = .empty ∨ f.feature = .probability) then
            (.ok (), { MiningState.init dd { h with method := mth } segs with validated := true })
          else (fail .unsupportedOutputFeature, MiningState.init dd { h with method := mth } segs)
        else (fail .unsupportedMultipleModelMethod, MiningState.init dd { h with method := mth } segs))
      (if h.method = .empty then .sum else h.method) := rfl

omit [Arith F] [Lib F] [Trans F] in
theorem validate_lt (dd : List DataField) (h : MiningHead F) (segs : List (SegDoc F)) :
    (MiningState.init dd h segs).validate.2.head.localTransformations = h.localTransformations := by
  rw [validate_eq]
  simp only
  split_ifs <;> rfl

omit [Arith F] [Lib F] [Trans F] in
theorem validate_ren (dd : List DataField) (h : MiningHead F) (segs : List (SegDoc F)) :
    RenRes ρ Eq (MiningState.init dd h segs).validate.1
      (MiningState.init (dd.map (renData ρ)) (renHead ρ h) (renSegs ρ segs)).validate.1 ∧
    ((MiningState.init dd h segs).validate.1 = .ok () →
      StateRen ρ { (MiningState.init dd h segs).validate.2.prepare with compiled := true }
        { (MiningState.init (dd.map (renData ρ)) (renHead ρ h) (renSegs ρ segs)).validate.2.prepare with compiled := true }) := by
  rw [validate_eq, validate_eq, show (renHead ρ h).method = h.method from rfl]
  generalize (if h.method = .empty then MultipleModelMethod.sum else h.method) = mth
  have e : (renHead ρ h).outputs.all (fun f => decide (f.feature = .empty ∨ f.feature = .probability)) =
      h.outputs.all (fun f => decide (f.feature = .empty ∨ f.feature = .probability)) := by
    rw [show (renHead ρ h).outputs = h.outputs.map (renOutput ρ) from rfl, List.all_map]; rfl
  simp only [e]
  by_cases c1 : mth = .average ∨ mth = .modelChain ∨ mth = .sum ∨ mth = .selectFirst
  · simp only [if_pos c1]
    by_cases c2 : (h.outputs.all (fun f => decide (f.feature = .empty ∨ f.feature = .probability))) = true
    · simp only [if_pos c2]
      refine ⟨rfl, fun _ => ⟨rfl, rfl, rfl, rfl, rfl, renSegs_length segs, ⟨h.miningFields, rfl, rfl⟩, rfl, rfl⟩⟩
    · simp only [if_neg c2]
      exact ⟨rfl, fun hh => by cases hh⟩
  · simp only [if_neg c1]
    exact ⟨rfl, fun hh => by cases hh⟩

mutual
theorem newModel_ren (hs : ∀ k, Reserved k → ρ k = k) (dd : List DataField) : (e : ModelElem F) → ∀ td : TD F,
    RenRes ρ (Alpha ρ) (newModel dd e td).1 (newModel (dd.map (renData ρ)) (renElem ρ e) (td.map (renDerived ρ))).1 ∧
    (newModel (dd.map (renData ρ)) (renElem ρ e) (td.map (renDerived ρ))).2 = (newModel dd e td).2.map (renDerived ρ)
  | .tree d, td => by
    rw [renElem, newModel, newModel]
    have key := newTreeModel_ren (hs "" (.inl rfl)) dd td d
    have hval : ∀ m td', newTreeModel dd td d = (.ok m, td') → m.validated = true ∧ m.compiled = true := by
      intro m td' hm
      obtain ⟨-, -, hv, hc, -⟩ := newTreeModel_ok hm
      exact ⟨hv, hc⟩
    revert key hval
    generalize newTreeModel dd td d = x
    generalize newTreeModel (dd.map (renData ρ)) (td.map (renDerived ρ)) (renTree ρ d) = y
    obtain ⟨x, t⟩ := x
    obtain ⟨y, t'⟩ := y
    rintro ⟨h1, h2⟩ hval
    cases x with
    | error f => cases y with
      | error f' => exact ⟨h1, h2⟩
      | ok b => exact h1.elim
    | ok a => cases y with
      | error f' => exact h1.elim
      | ok b =>
        refine ⟨fun o row row' hr => ?_, h2⟩
        obtain ⟨hv, hc⟩ := hval a t rfl
        rw [EModel.evaluate, EModel.evaluate]
        exact treeEvaluate_ren hs h1 hv hc o hr
  | .regression d, td => by
    rw [renElem, newModel, newModel]
    refine ⟨fun o row row' hr => ?_, rfl⟩
    rw [EModel.evaluate, EModel.evaluate]
    exact ⟨regressionEvaluate_ren (hs "" (.inl rfl)) d hr, hr⟩
  | .mining h segs, td => by
    rw [renElem, newModel, newModel]
    have hv := validate_ren (ρ := ρ) dd h segs
    have hlt := validate_lt dd h segs
    have hlt' := validate_lt (dd.map (renData ρ)) (renHead ρ h) (renSegs ρ segs)
    revert hv hlt hlt'
    generalize (MiningState.init dd h segs).validate = x
    generalize (MiningState.init (dd.map (renData ρ)) (renHead ρ h) (renSegs ρ segs)).validate = y
    obtain ⟨x, s⟩ := x
    obtain ⟨y, s'⟩ := y
    rintro ⟨h1, h2⟩ hlt hlt'
    cases x with
    | error f => cases y with
      | error f' => exact ⟨h1, rfl⟩
      | ok b => exact h1.elim
    | ok a => cases y with
      | error f' => exact h1.elim
      | ok b =>
        simp only at hlt hlt' h2 ⊢
        rw [hlt, hlt', show (renHead ρ h).localTransformations = h.localTransformations.map (renDerived ρ) from rfl,
          ← List.map_append]
        have key := compileSegments_ren hs dd segs (td ++ h.localTransformations)
        revert key
        generalize compileSegments dd segs (td ++ h.localTransformations) = x
        generalize compileSegments (dd.map (renData ρ)) (renSegs ρ segs) ((td ++ h.localTransformations).map (renDerived ρ)) = y
        obtain ⟨x, ms, t⟩ := x
        obtain ⟨y, ms', t'⟩ := y
        rintro ⟨h3, h4, h5⟩
        cases x with
        | error f => cases y with
          | error f' => exact ⟨h3, h5⟩
          | ok b => exact h3.elim
        | ok a => cases y with
          | error f' => exact h3.elim
          | ok b => exact ⟨mining_ren (hs _ (.inr (.inl rfl))) (h2 trivial) h4, h5⟩
  | .other k, td => ⟨rfl, rfl⟩
theorem compileSegments_ren (hs : ∀ k, Reserved k → ρ k = k) (dd : List DataField) : (segs : List (SegDoc F)) →
    ∀ td : TD F,
    RenRes ρ Eq (compileSegments dd segs td).1
      (compileSegments (dd.map (renData ρ)) (renSegs ρ segs) (td.map (renDerived ρ))).1 ∧
    List.Forall₂ (Alpha ρ) (compileSegments dd segs td).2.1
      (compileSegments (dd.map (renData ρ)) (renSegs ρ segs) (td.map (renDerived ρ))).2.1 ∧
    (compileSegments (dd.map (renData ρ)) (renSegs ρ segs) (td.map (renDerived ρ))).2.2 =
      (compileSegments dd segs td).2.2.map (renDerived ρ)
  | [], td => ⟨rfl, .nil, rfl⟩
  | .mk id ps [] :: segs, td => ⟨rfl, .nil, rfl⟩
  | .mk id ps [e] :: segs, td => by
    rw [renSegs, renElems, renElems, compileSegments, compileSegments]
    have key := newModel_ren hs dd e td
    revert key
    generalize newModel dd e td = x
    generalize newModel (dd.map (renData ρ)) (renElem ρ e) (td.map (renDerived ρ)) = y
    obtain ⟨x, t⟩ := x
    obtain ⟨y, t'⟩ := y
    rintro ⟨h1, h2⟩
    cases x with
    | error f => cases y with
      | error f' => exact ⟨h1, .nil, h2⟩
      | ok b => exact h1.elim
    | ok a => cases y with
      | error f' => exact h1.elim
      | ok b =>
        simp only at h2 ⊢
        subst h2
        obtain ⟨h3, h4, h5⟩ := compileSegments_ren hs dd segs t
        exact ⟨h3, .cons h1 h4, h5⟩
  | .mk id ps (e1 :: e2 :: es) :: segs, td => by
    rw [renSegs, renElems, renElems, compileSegments, compileSegments]
    · refine ⟨?_, .nil, rfl⟩
      rw [renElems_eq]
      simp [RenRes, renFault, renErr]
    all_goals simp
end

end

end Gopmml
