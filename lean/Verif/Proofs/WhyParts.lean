import Verif.Proofs.Why

/-!
# The error of a decoder is the first in the document: predicates, nodes, expressions
-/

namespace Gopmml.Why

open Gopmml Structs Spec.Why

variable {F : Type} [Arith F] [Lib F]

set_option linter.unusedSectionVars false
set_option linter.unusedSimpArgs false

/-! ## Predicates -/

theorem arrayAttr_syntax (k v : String) (u : Unit) (e : DecErr) (h : arrayAttr k v u = .error e) : e = .syntax v := by
  unfold arrayAttr at h
  by_cases hk : k = "n"
  · rw [if_pos hk] at h
    exact attrInt_error (map_error h)
  · rw [if_neg hk] at h
    cases h

theorem arrayAttr_err (k v : String) (u : Unit) : err (arrayAttr k v u) = attrWhy F sArrayType (k, v) :=
  err_attr (arrayAttr_isOk k v u) (arrayAttr_syntax k v u)

theorem array_err (as : Attrs) (ch : List Xml) (u : Unit) :
    err (attrLoop arrayAttr as u) = why F "ArrayType" as ch := by
  have h : childrenRead F sArrayType ch = true := by
    induction ch with
    | nil => exact childrenRead_nil _
    | cons c cs ih =>
      rw [childrenRead_cons, ih]
      cases c with
      | text => rw [childReads_text]; rfl
      | elem n as ch => rw [childReads_elem]; rfl
  rw [why_eq (s := sArrayType) (by simp [find, goStructs]) (by decide +kernel), childrenWhy_reads _ _ ch h, Option.or_none,
    attrLoop_err (arrayAttr_err (F := F))]

theorem setChild_err (n : String) (as : Attrs) (ch : List Xml) (u : Unit) :
    err (setChild n as ch u) = childWhy F "SimpleSetPredicate" sSimpleSetPredicate (.elem n as ch) := by
  rw [childWhy_elem]
  on_names n ["Array", "Extension"] do
    simp [setChild, sSimpleSetPredicate, find, err_ok, err_map, array_err (F := F) as ch, harmW, *]

theorem leafPred_err (n : String) (as : Attrs) (ch : List Xml) :
    (leafPred (F := F) n as ch).map err =
      if n ∈ ["False", "SimplePredicate", "SimpleSetPredicate", "True"] then some (why F n as ch) else none := by
  by_cases h : n = "SimpleSetPredicate"
  · subst h
    rw [if_pos (by simp), why_eq (s := sSimpleSetPredicate) (by simp [find, goStructs]) (by decide +kernel),
      noneWhy (set_attrs as), Option.none_or, ← reflectLoop_err (setChild_err (F := F)) ch ()]
    unfold leafPred
    rw [if_neg (by simp), if_neg (by simp), if_pos rfl, Option.map_some]
    have := attrLoop_ok (f := fun k v f => if k = "field" then v else f) as ""
    generalize attrLoop _ as "" = r at this
    cases r with
    | error e => cases this
    | ok f => dsimp only; rw [err_map]
  · have hs : err (attrLoop (simpleAttr (F := F)) as ⟨"", .other "", "", .nil⟩) = none := by
      apply err_isOk
      rw [attrLoop_isOk (P := fun _ => true) (fun k v s => simpleAttr_isOk k v s), List.all_eq_true]
      intros; rfl
    on_names n ["False", "SimplePredicate", "True"] do
      simp [leafPred, err_map, err_ok, harmW, *]

mutual
theorem compoundItem_err : (x : Xml) → (ps : List (Pred F)) →
    err (consumed "CompoundPredicate" (compoundItem x ps)) = childWhy F "CompoundPredicate" sCompoundPredicate x
  | .text _ _, ps => by rw [compoundItem, childWhy_text]; rfl
  | .elem n as ch, ps => by
    rw [childWhy_regular _ compound_regular, compoundItem]
    by_cases h1 : n = "Extension"
    · subst h1
      rw [if_pos rfl, if_pos (by simp [names, sCompoundPredicate]), why_harmless (by simp [harmless])]; rfl
    rw [if_neg h1]
    by_cases h2 : n = "CompoundPredicate"
    · rw [if_pos h2]
      have := compoundBody_err ch ([] : List (Pred F))
      rw [h2, if_pos (by simp [names, sCompoundPredicate]),
        why_eq (s := sCompoundPredicate) (by simp [find, goStructs]) (by decide +kernel), noneWhy (compound_attrs as),
        Option.none_or, ← this]
      cases consumed "CompoundPredicate" (compoundBody ch ([] : List (Pred F))) <;> rfl
    rw [if_neg h2]
    have hl := leafPred_err (F := F) n as ch
    cases hp : leafPred (F := F) n as ch with
    | none =>
      rw [hp, Option.map_none] at hl
      have hn : n ∉ ["False", "SimplePredicate", "SimpleSetPredicate", "True"] := by
        intro hn; rw [if_pos hn] at hl; cases hl
      rw [if_neg (by simp [names, sCompoundPredicate] at hn ⊢; exact ⟨h1, h2, hn⟩),
        if_pos (by decide +kernel), ← compoundBody_err ch ps]
      dsimp only
      rcases compoundBody ch ps with e | ⟨_, _ | _⟩ <;> rfl
    | some r =>
      rw [hp, Option.map_some] at hl
      have hn : n ∈ ["False", "SimplePredicate", "SimpleSetPredicate", "True"] := by
        refine Decidable.byContradiction fun hn => ?_; rw [if_neg hn] at hl; cases hl
      rw [if_pos hn] at hl
      rw [if_pos (by simp [names, sCompoundPredicate] at hn ⊢; exact .inr (.inr hn)), ← Option.some_inj.1 hl]
      cases r <;> rfl
theorem compoundBody_err : (xs : List Xml) → (ps : List (Pred F)) →
    err (consumed "CompoundPredicate" (compoundBody xs ps)) = childrenWhy F "CompoundPredicate" sCompoundPredicate xs
  | [], ps => by rw [compoundBody, childrenWhy_nil]; rfl
  | x :: xs, ps => by
    rw [compoundBody, childrenWhy_cons, ← compoundItem_err x ps]
    rcases compoundItem x ps with e | ⟨ps', _ | _⟩
    · rfl
    · rfl
    · dsimp only
      rw [compoundBody_err xs ps']
      rfl
end

theorem decodePred_err (n : String) (as : Attrs) (ch : List Xml) :
    (decodePred (F := F) n as ch).map err = if n ∈ preds then some (why F n as ch) else none := by
  unfold decodePred
  by_cases h : n = "CompoundPredicate"
  · subst h
    rw [if_pos rfl, Option.map_some, err_map, compoundBody_err, if_pos (by simp [preds]),
      why_eq (s := sCompoundPredicate) (by simp [find, goStructs]) (by decide +kernel), noneWhy (compound_attrs as),
      Option.none_or]
  · rw [if_neg h, leafPred_err]
    simp [preds, h]

/-! ## Tree nodes -/

theorem distAttr_err (k v : String) (d : ScoreDistribution F) : err (distAttr k v d) = attrWhy F sScoreDistribution (k, v) :=
  err_attr (distAttr_isOk k v d) (by attr_err distAttr)

theorem decodeDist_err (as : Attrs) (ch : List Xml) :
    err (decodeDist (F := F) as) = why F "ScoreDistribution" as ch := by
  rw [why_eq (s := sScoreDistribution) (by simp [find, goStructs]) (by decide +kernel),
    childrenWhy_reads _ _ ch (ext_regular rfl rfl ch), Option.or_none, decodeDist, attrLoop_err distAttr_err]

theorem nodeAttr_err (k v : String) (x : Node F) : err (nodeAttr k v x) = attrWhy F sNode (k, v) :=
  err_attr (nodeAttr_isOk k v x) (by obtain ⟨id, dc, sc, rc, ds, ns, p⟩ := x; attr_err nodeAttr)

mutual
theorem nodeItem_err : (x : Xml) → (nd : Node F) → err (consumed "Node" (nodeItem x nd)) = childWhy F "Node" sNode x
  | .text _ _, nd => by rw [nodeItem, childWhy_text]; rfl
  | .elem n as ch, nd => by
    rw [childWhy_regular _ node_regular, nodeItem]
    by_cases h1 : n = "Extension"
    · subst h1
      rw [if_pos rfl, if_pos (by simp [names, sNode]), why_harmless (by simp [harmless])]; rfl
    rw [if_neg h1]
    by_cases h2 : n = "Node"
    · rw [if_pos h2, h2, if_pos (by simp [names, sNode]),
        why_eq (s := sNode) (by simp [find, goStructs]) (by decide +kernel), ← attrLoop_err nodeAttr_err as Node.zero]
      cases attrLoop nodeAttr as (Node.zero : Node F) with
      | error e => rfl
      | ok y =>
        have := nodeBody_err ch y
        rw [← this]
        dsimp only
        cases consumed "Node" (nodeBody ch y) <;> rfl
    rw [if_neg h2]
    by_cases h3 : n = "ScoreDistribution"
    · subst h3
      rw [if_pos rfl, if_pos (by simp [names, sNode]), ← decodeDist_err]
      cases decodeDist (F := F) as <;> rfl
    rw [if_neg h3]
    by_cases h4 : n = "Partition"
    · subst h4
      rw [if_pos rfl, if_pos (by simp [names, sNode]), why_harmless (by simp [harmless])]; rfl
    rw [if_neg h4]
    have hl := decodePred_err (F := F) n as ch
    cases hp : decodePred (F := F) n as ch with
    | none =>
      rw [hp, Option.map_none] at hl
      have hn : n ∉ preds := by
        intro hn; rw [if_pos hn] at hl; cases hl
      dsimp only
      by_cases h5 : n = "DecisionTree"
      · subst h5
        rw [if_pos (.inl rfl), if_pos (by simp [names, sNode]), why_harmless (by simp [harmless])]; rfl
      by_cases h6 : n = "Regression"
      · subst h6
        rw [if_pos (.inr rfl), if_pos (by simp [names, sNode]), why_harmless (by simp [harmless])]; rfl
      rw [if_neg (by simp [h5, h6]), if_neg (by simp [names, sNode, preds] at hn ⊢; simp [*]),
        if_pos (by decide +kernel), ← nodeBody_err ch nd]
      rcases nodeBody ch nd with e | ⟨_, _ | _⟩ <;> rfl
    | some r =>
      rw [hp, Option.map_some] at hl
      have hn : n ∈ preds := by
        refine Decidable.byContradiction fun hn => ?_; rw [if_neg hn] at hl; cases hl
      rw [if_pos hn] at hl
      have hm : n ∈ names sNode := by
        simp [names, sNode, preds] at hn ⊢; rcases hn with h | h | h | h | h <;> simp [h]
      rw [if_pos hm, ← Option.some_inj.1 hl]
      cases r <;> rfl
theorem nodeBody_err : (xs : List Xml) → (nd : Node F) →
    err (consumed "Node" (nodeBody xs nd)) = childrenWhy F "Node" sNode xs
  | [], nd => by rw [nodeBody, childrenWhy_nil]; rfl
  | x :: xs, nd => by
    rw [nodeBody, childrenWhy_cons, ← nodeItem_err x nd]
    rcases nodeItem x nd with e | ⟨nd', _ | _⟩
    · rfl
    · rfl
    · dsimp only
      rw [nodeBody_err xs nd']
      rfl
end

theorem decodeNode_err (as : Attrs) (ch : List Xml) (x : Node F) : err (decodeNode as ch x) = why F "Node" as ch := by
  rw [why_eq (s := sNode) (by simp [find, goStructs]) (by decide +kernel), ← attrLoop_err nodeAttr_err as x, decodeNode]
  cases attrLoop nodeAttr as x with
  | error e => rfl
  | ok y =>
    dsimp only
    rw [nodeBody_err]
    rfl

/-! ## Tables and expressions -/

theorem row_err (ch : List Xml) (r : GoMap (GoVal F)) : err (consumed "row" (bodyLoop rowHandle ch r)) = none :=
  err_isOk ((consumed_isOk "row" _).trans (rowBody_isOk ch r))

theorem decodeTable_err (as : Attrs) (ch : List Xml) (rows : List (GoMap (GoVal F))) :
    err (decodeTable ch rows) = why F "InlineTable" as ch := by
  rw [why_eq (s := sInlineTable) (by simp [find, goStructs]) (by decide +kernel), decodeTable,
    bodyLoop_err (F := F) (s := sInlineTable)]
  · rw [noneWhy (no_attrs rfl as), Option.none_or]
  · intro n as ch x
    rw [childWhy_elem]
    by_cases h : n = "row"
    · subst h
      have hr := row_err ch (∅ : GoMap (GoVal F))
      simp only [tableHandle, sInlineTable, find, if_true, if_false, Option.elim_some]
      rw [if_neg (by simp), why_harmless (by simp [harmless]), ← hr]
      cases consumed "row" (bodyLoop rowHandle ch (∅ : GoMap (GoVal F))) <;> rfl
    · simp [tableHandle, sInlineTable, find, h]

theorem pair_err (as : Attrs) (x : FieldColumnPair) : err (attrLoop pairAttr as x) = none :=
  err_isOk (pair_isOk as x)

theorem mapAttr_err (k v : String) (m : MapValues F) : err (mapAttr k v m) = attrWhy F sMapValues (k, v) :=
  err_attr (mapAttr_isOk k v m) (by attr_err mapAttr)

theorem mapChild_err (n : String) (as : Attrs) (ch : List Xml) (m : MapValues F) :
    err (mapChild n as ch m) = childWhy F "MapValues" sMapValues (.elem n as ch) := by
  rw [childWhy_elem]
  on_names n ["FieldColumnPair", "InlineTable", "Extension"] do
    simp [mapChild, sMapValues, find, err_ok, err_map, pair_err, decodeTable_err as, harmW, *]

theorem decodeMap_err (as : Attrs) (ch : List Xml) : err (decodeMap (F := F) as ch) = why F "MapValues" as ch := by
  rw [why_eq (s := sMapValues) (by simp [find, goStructs]) (by decide +kernel), ← attrLoop_err mapAttr_err as ⟨none, .other "", [], []⟩, decodeMap]
  cases attrLoop mapAttr as (⟨none, .other "", [], []⟩ : MapValues F) with
  | error e => rfl
  | ok y =>
    dsimp only
    rw [reflectLoop_err mapChild_err]
    rfl

theorem leafExpr_err (n : String) (as : Attrs) (ch : List Xml) :
    (leafExpr (F := F) n as ch).map err = if n ∈ leaves then some (why F n as ch) else none := by
  have h1 : ∀ {σ : Type} (f : String → String → σ → σ) (x : σ), err (attrLoop (fun k v s => .ok (f k v s)) as x) = none :=
    fun f x => err_isOk (attrLoop_ok as x)
  on_names n ["Constant", "FieldRef", "MapValues", "Aggregate", "Discretize", "Lag", "NormContinuous", "NormDiscrete",
      "TextIndex"] do
    simp [leafExpr, leaves, otherExpr, err_map, err_ok, h1, decodeMap_err, harmW, *]

mutual
theorem applyItem_err : (x : Xml) → (ps : List (Expr F)) → err (consumed "Apply" (applyItem x ps)) = childWhy F "Apply" sApply x
  | .text _ _, ps => by rw [applyItem, childWhy_text]; rfl
  | .elem n as ch, ps => by
    rw [childWhy_regular _ apply_regular, applyItem]
    by_cases h1 : n = "Extension"
    · subst h1
      rw [if_pos rfl, if_pos (by simp [names, sApply]), why_harmless (by simp [harmless])]; rfl
    rw [if_neg h1]
    by_cases h2 : n = "Apply"
    · rw [if_pos h2]
      have := applyBody_err ch ([] : List (Expr F))
      rw [h2, if_pos (by simp [names, sApply]), why_eq (s := sApply) (by simp [find, goStructs]) (by decide +kernel),
        noneWhy (apply_attrs as), Option.none_or, ← this]
      cases consumed "Apply" (applyBody ch ([] : List (Expr F))) <;> rfl
    rw [if_neg h2]
    have hl := leafExpr_err (F := F) n as ch
    cases hp : leafExpr (F := F) n as ch with
    | none =>
      rw [hp, Option.map_none] at hl
      have hn : n ∉ leaves := by
        intro hn; rw [if_pos hn] at hl; cases hl
      rw [if_neg (by simp [names, sApply, leaves] at hn ⊢; simp [*]), if_pos (by decide +kernel), ← applyBody_err ch ps]
      dsimp only
      rcases applyBody ch ps with e | ⟨_, _ | _⟩ <;> rfl
    | some r =>
      rw [hp, Option.map_some] at hl
      have hn : n ∈ leaves := by
        refine Decidable.byContradiction fun hn => ?_; rw [if_neg hn] at hl; cases hl
      rw [if_pos hn] at hl
      rw [if_pos (by
        simp [names, sApply, leaves] at hn ⊢; rcases hn with h | h | h | h | h | h | h | h | h <;> simp [h]),
        ← Option.some_inj.1 hl]
      cases r <;> rfl
theorem applyBody_err : (xs : List Xml) → (ps : List (Expr F)) →
    err (consumed "Apply" (applyBody xs ps)) = childrenWhy F "Apply" sApply xs
  | [], ps => by rw [applyBody, childrenWhy_nil]; rfl
  | x :: xs, ps => by
    rw [applyBody, childrenWhy_cons, ← applyItem_err x ps]
    rcases applyItem x ps with e | ⟨ps', _ | _⟩
    · rfl
    · rfl
    · dsimp only
      rw [applyBody_err xs ps']
      rfl
end

theorem decodeExpr_err (n : String) (as : Attrs) (ch : List Xml) :
    (decodeExpr (F := F) n as ch).map err = if n ∈ "Apply" :: leaves then some (why F n as ch) else none := by
  unfold decodeExpr
  by_cases h : n = "Apply"
  · subst h
    rw [if_pos rfl, Option.map_some, err_map, applyBody_err, if_pos (by simp),
      why_eq (s := sApply) (by simp [find, goStructs]) (by decide +kernel), noneWhy (apply_attrs as), Option.none_or]
  · rw [if_neg h, leafExpr_err]
    simp [h]

theorem elim_err {α β : Type} {x : Option (Dec α)} {f : α → β} {c : Prop} [Decidable c] {w d : Option DecErr}
    (h : x.map err = if c then some w else none) :
    (x.map fun r => r.map f).elim d err = if c then w else d := by
  cases x with
  | none =>
    by_cases hc : c
    · rw [if_pos hc] at h; cases h
    · simp [hc]
  | some r =>
    by_cases hc : c
    · rw [if_pos hc] at h
      simp [hc, err_map, Option.some_inj.1 h]
    · rw [if_neg hc] at h; cases h

theorem derivedAttr_err (k v : String) (d : DerivedField F) : err (derivedAttr k v d) = attrWhy F sDerivedField (k, v) :=
  err_attr (derivedAttr_isOk k v d) (by attr_err derivedAttr)

theorem derivedHandle_err (n : String) (as : Attrs) (ch : List Xml) (d : DerivedField F) :
    (derivedHandle (F := F) n as ch d).elim ((childrenWhy F "DerivedField" sDerivedField ch).or (some (.leftover "DerivedField"))) err =
      childWhy F "DerivedField" sDerivedField (.elem n as ch) := by
  rw [childWhy_regular _ (by decide +kernel), derivedHandle]
  by_cases h : n = "Extension" ∨ n = "Value"
  · rw [if_pos h]
    rcases h with h | h <;> subst h <;> simp [names, sDerivedField, harmW, err_ok]
  · rw [if_neg h, elim_err (decodeExpr_err n as ch)]
    have : (n ∈ names sDerivedField) ↔ n ∈ "Apply" :: leaves := by
      simp only [not_or] at h
      simp only [names, sDerivedField, leaves, List.map_cons, List.map_nil, List.mem_cons, h, false_or]
      tauto
    simp only [this]
    rw [show GoStruct.strict sDerivedField = true from rfl, if_pos rfl]

theorem decodeDerived_err (as : Attrs) (ch : List Xml) :
    err (decodeDerived (F := F) as ch) = why F "DerivedField" as ch := by
  rw [why_eq (s := sDerivedField) (by simp [find, goStructs]) (by decide +kernel),
    ← attrLoop_err derivedAttr_err as ⟨"", .other "", .other "", .other ""⟩, decodeDerived]
  cases attrLoop derivedAttr as (⟨"", .other "", .other "", .other ""⟩ : DerivedField F) with
  | error e => rfl
  | ok y =>
    dsimp only
    rw [bodyLoop_err derivedHandle_err]
    rfl

theorem functionHandle_err (n : String) (as : Attrs) (ch : List Xml) (u : Unit) :
    (functionHandle (F := F) n as ch u).elim ((childrenWhy F "DefineFunction" sDefineFunction ch).or (some (.leftover "DefineFunction"))) err =
      childWhy F "DefineFunction" sDefineFunction (.elem n as ch) := by
  rw [childWhy_regular _ (by decide +kernel), functionHandle]
  by_cases h : n = "Extension" ∨ n = "ParameterField"
  · rw [if_pos h]
    rcases h with h | h <;> subst h <;> simp [names, sDefineFunction, harmW, err_ok]
  · rw [if_neg h, elim_err (decodeExpr_err n as ch)]
    have : (n ∈ names sDefineFunction) ↔ n ∈ "Apply" :: leaves := by
      simp only [not_or] at h
      simp only [names, sDefineFunction, leaves, List.map_cons, List.map_nil, List.mem_cons, h, false_or]
      tauto
    simp only [this]
    rw [show GoStruct.strict sDefineFunction = true from rfl, if_pos rfl]

end Gopmml.Why