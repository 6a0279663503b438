import Verif.Proofs.Said

/-!
# What an XML document says, and what is decoded: expressions, sections and models
-/

namespace Gopmml
namespace Said
open Spec Spec.Said

set_option linter.unusedSectionVars false
set_option linter.unusedSimpArgs false

variable {F : Type} [Arith F] [Lib F]

/-! ## Tables and expressions -/

theorem row_said {ch : List Xml} {r : GoMap (GoVal F)} (h : consumed "row" (bodyLoop rowHandle ch ∅) = .ok r) :
    r = record ch := by
  have := bodyLoop_said (fun (r : GoMap (GoVal F)) (ch : List Xml) =>
      (Xml.elems ch).foldl (fun (r : GoMap (GoVal F)) (e : String × Attrs × List Xml) =>
        r.insert e.1 (.str (Xml.chardata e.2.2))) r)
    (fun _ => rfl) (fun _ _ _ _ => rfl) (fun s s1 n as ch cs h => by
      simp only [rowHandle, Option.some.injEq, Except.ok.injEq] at h
      simp [Xml.elems, ← h]) ch ∅ r (consumed_said h)
  exact this

theorem table_said {ch : List Xml} {rows rows' : List (GoMap (GoVal F))} (h : decodeTable ch rows = .ok rows') :
    rows' = rows ++ table ch := by
  refine bodyLoop_said (fun rows ch => rows ++ table ch) (fun s => ?_) (fun _ _ _ _ => rfl) ?_ ch rows rows'
    (consumed_said h)
  · simp [table, named, Xml.elems]
  intro s s1 n as ch cs h
  unfold tableHandle at h
  by_cases hn : n = "row"
  · rw [if_pos hn, Option.some.injEq] at h
    subst hn
    cases hc : consumed "row" (bodyLoop rowHandle ch (∅ : GoMap (GoVal F))) with
    | error e => rw [hc] at h; simp at h
    | ok r =>
      rw [hc] at h
      simp only [Except.ok.injEq] at h
      rw [← h, row_said hc]
      simp [table, named_elem]
  · rw [if_neg hn] at h
    simp at h

theorem table_append (xs ys : List Xml) : table (F := F) (xs ++ ys) = table xs ++ table ys := by
  simp [table, named_append]

theorem pair_said {as : Attrs} {p : FieldColumnPair} (h : attrLoop pairAttr as ⟨"", ""⟩ = .ok p) : p = columnPair as := by
  refine attrLoop_said (fun p as => ⟨(lastAttr "column" as).getD p.column, (lastAttr "field" as).getD p.field⟩)
    (fun s => rfl) ?_ as _ p h
  intro s s1 k v as h
  unfold pairAttr at h
  simp only [lastAttr_cons]
  split_ifs at h <;> simp only [Except.ok.injEq] at h <;> subst h <;> simp_all

theorem map_said {as : Attrs} {ch : List Xml} {m : MapValues F} (h : decodeMap as ch = .ok m) : m = mapValues as ch := by
  unfold decodeMap at h
  cases ha : attrLoop mapAttr as (⟨none, .other "", [], []⟩ : MapValues F) with
  | error e => rw [ha] at h; simp at h
  | ok m0 =>
    rw [ha] at h
    have h1 := attrLoop_said (fun (m : MapValues F) as => (⟨(lastAttr "defaultValue" as).or m.defaultValue,
      ((lastAttr "dataType" as).map DataType.ofString).getD m.dataType, m.fieldColumnPairs, m.inlineTables⟩ : MapValues F))
      (fun s => rfl) (fun s s1 k v as h => by
        unfold mapAttr at h
        simp only [lastAttr_cons]
        split_ifs at h <;> simp only [Except.ok.injEq] at h <;> subst h <;> simp_all) as _ m0 ha
    have h2 := reflectLoop_said (fun (m : MapValues F) ch => (⟨m.defaultValue, m.dataType,
      m.fieldColumnPairs ++ (named "FieldColumnPair" ch).map fun e => columnPair e.2.1,
      m.inlineTables ++ (named "InlineTable" ch).map fun e => table e.2.2⟩ : MapValues F))
      (fun s => by simp [named, Xml.elems]) (fun _ _ _ _ => rfl) (fun s s1 n as ch cs h => by
        unfold mapChild at h
        simp only [named_elem]
        by_cases h1 : n = "FieldColumnPair"
        · rw [if_pos h1] at h
          obtain ⟨p, hp, rfl⟩ := map_ok h
          simp [h1, pair_said hp]
        rw [if_neg h1] at h
        by_cases h2 : n = "InlineTable"
        · rw [if_pos h2] at h
          obtain ⟨p, hp, rfl⟩ := map_ok h
          simp [h2, table_said hp]
        rw [if_neg h2, Except.ok.injEq] at h
        simp [h1, h2, h]) ch m0 m h
    rw [h2, h1]
    simp only [mapValues, text, List.nil_append, Option.or_none]
    rw [word DataType.ofString (.other "") rfl]

theorem leafExpr_said {n : String} {as : Attrs} {ch : List Xml} {x : Expr F} (hn : n ≠ "Apply")
    (h : leafExpr n as ch = some (.ok x)) : exprOf (.elem n as ch) = [x] := by
  unfold leafExpr at h
  rw [exprOf, if_neg hn]
  by_cases h1 : n = "Constant"
  · rw [if_pos h1, Option.some.injEq] at h
    rw [if_pos h1]
    obtain ⟨t, ht, rfl⟩ := map_ok h
    rw [pick_said ht, word DataType.ofString (.other "") rfl]
    rfl
  rw [if_neg h1] at h
  rw [if_neg h1]
  by_cases h2 : n = "FieldRef"
  · rw [if_pos h2, Option.some.injEq] at h
    rw [if_pos h2]
    obtain ⟨t, ht, rfl⟩ := map_ok h
    rw [pick_said (g := id) ht]
    simp [text]
  rw [if_neg h2] at h
  rw [if_neg h2]
  by_cases h3 : n = "MapValues"
  · rw [if_pos h3, Option.some.injEq] at h
    rw [if_pos h3]
    obtain ⟨t, ht, rfl⟩ := map_ok h
    rw [map_said ht]
  rw [if_neg h3] at h
  rw [if_neg h3]
  by_cases h4 : otherExpr n = true
  · rw [if_pos h4] at h
    have h5 : n ∈ ["Aggregate", "Discretize", "Lag", "NormContinuous", "NormDiscrete", "TextIndex"] := by
      simpa [otherExpr, or_assoc] using h4
    rw [if_pos h5]
    simpa using h
  · rw [if_neg h4] at h
    simp at h

theorem function_said (as : Attrs) : functionAttr as = text "function" as := by
  unfold functionAttr text
  have := fold_said "function" id as ""
  simpa using this

mutual
theorem applyItem_said : (x : Xml) → ∀ xs xs' : List (Expr F), applyItem x xs = .ok (xs', true) →
    xs' = xs ++ exprOf x
  | .text _ _, ps, ps', h => by
    rw [applyItem] at h
    simp only [Except.ok.injEq, Prod.mk.injEq, and_true] at h
    rw [exprOf, List.append_nil, h]
  | .elem n as ch, ps, ps', h => by
    rw [applyItem] at h
    by_cases h1 : n = "Extension"
    · rw [if_pos h1] at h
      simp only [Except.ok.injEq, Prod.mk.injEq, and_true] at h
      subst h1
      simp [exprOf, h]
    rw [if_neg h1] at h
    by_cases h2 : n = "Apply"
    · rw [if_pos h2] at h
      cases hc : consumed n (applyBody ch ([] : List (Expr F))) with
      | error e => rw [hc] at h; simp at h
      | ok qs =>
        rw [hc] at h
        simp only [Except.ok.injEq, Prod.mk.injEq, and_true] at h
        have := applyBody_said ch [] qs (consumed_said hc)
        rw [exprOf, if_pos h2, ← h, this, function_said]
        rfl
    · rw [if_neg h2] at h
      cases hl : leafExpr (F := F) n as ch with
      | none =>
        rw [hl] at h
        simp only at h
        rcases hb : applyBody ch ps with _ | ⟨a, b⟩ <;> rw [hb] at h <;> simp at h
      | some r =>
        rw [hl] at h
        cases r with
        | error e => simp at h
        | ok p =>
          simp only [Except.ok.injEq, Prod.mk.injEq, and_true] at h
          rw [leafExpr_said h2 hl, h]
theorem applyBody_said : (cs : List Xml) → ∀ xs xs' : List (Expr F), applyBody cs xs = .ok (xs', true) →
    xs' = xs ++ exprs cs
  | [], ps, ps', h => by
    rw [applyBody] at h
    simp only [Except.ok.injEq, Prod.mk.injEq, and_true] at h
    rw [exprs, List.append_nil, h]
  | c :: cs, ps, ps', h => by
    rw [applyBody] at h
    rcases hc : applyItem c ps with _ | ⟨q, _ | _⟩
    · rw [hc] at h; simp at h
    · rw [hc] at h; simp at h
    · rw [hc] at h
      simp only at h
      rw [applyBody_said cs q ps' h, applyItem_said c ps q hc, exprs, List.append_assoc]
end

theorem decodeExpr_said {n : String} {as : Attrs} {ch : List Xml} {x : Expr F}
    (h : decodeExpr n as ch = some (.ok x)) : exprOf (.elem n as ch) = [x] := by
  unfold decodeExpr at h
  by_cases hn : n = "Apply"
  · rw [if_pos hn, Option.some.injEq] at h
    obtain ⟨qs, hq, rfl⟩ := map_ok h
    rw [exprOf, if_pos hn, applyBody_said ch [] qs (consumed_said hq), function_said]
    rfl
  · rw [if_neg hn] at h
    exact leafExpr_said hn h

theorem derived_said {as : Attrs} {ch : List Xml} {d : DerivedField F} (h : decodeDerived as ch = .ok d) :
    d = derived as ch := by
  unfold decodeDerived at h
  cases ha : attrLoop derivedAttr as (⟨"", .other "", .other "", .other ""⟩ : DerivedField F) with
  | error e => rw [ha] at h; simp at h
  | ok d0 =>
    rw [ha] at h
    have h1 := attrLoop_said (fun (d : DerivedField F) as => (⟨(lastAttr "name" as).getD d.name,
      ((lastAttr "dataType" as).map DataType.ofString).getD d.dataType,
      ((lastAttr "optype" as).map OpType.ofString).getD d.opType, d.expr⟩ : DerivedField F))
      (fun s => rfl) (fun s s1 k v as h => by
        unfold derivedAttr at h
        simp only [lastAttr_cons]
        split_ifs at h <;> simp only [Except.ok.injEq] at h <;> subst h <;> simp_all) as _ d0 ha
    have h2 := bodyLoop_said (fun (d : DerivedField F) ch => (⟨d.name, d.dataType, d.opType,
      (exprs ch).getLast?.getD d.expr⟩ : DerivedField F))
      (fun s => rfl) (fun _ _ _ _ => by simp [exprs, exprOf]) (fun s s1 n as ch cs h => by
        unfold derivedHandle at h
        by_cases h1 : n = "Extension" ∨ n = "Value"
        · rw [if_pos h1] at h
          simp only [Option.some.injEq, Except.ok.injEq] at h
          subst h
          rcases h1 with rfl | rfl <;> simp [exprs, exprOf]
        rw [if_neg h1] at h
        cases hd : decodeExpr (F := F) n as ch with
        | none => rw [hd] at h; simp at h
        | some r =>
          rw [hd] at h
          simp only [Option.map_some, Option.some.injEq] at h
          obtain ⟨x, hx, rfl⟩ := map_ok h
          subst hx
          simp only [exprs, decodeExpr_said hd, List.getLast?_append, List.getLast?_singleton]
          cases (exprs (F := F) cs).getLast? <;> simp) ch d0 d (consumed_said h)
    rw [h2, h1]
    simp only [derived, text]
    rw [word DataType.ofString (.other "") rfl, word OpType.ofString (.other "") rfl]

theorem locals_said {ch : List Xml} {ds ds' : List (DerivedField F)} (h : reflectLoop localChild ch ds = .ok ds') :
    ds' = ds ++ deriveds ch := by
  refine reflectLoop_said (fun ds ch => ds ++ deriveds ch) (fun s => ?_) (fun _ _ _ _ => rfl) ?_ ch ds ds' h
  · simp [deriveds, named, Xml.elems]
  intro s s1 n as ch cs h
  unfold localChild at h
  by_cases h1 : n = "DerivedField"
  · rw [if_pos h1] at h
    obtain ⟨d, hd, rfl⟩ := map_ok h
    simp [deriveds, named_elem, h1, derived_said hd]
  · rw [if_neg h1, Except.ok.injEq] at h
    simp [deriveds, named_elem, h1, h]

theorem trans_said {ch : List Xml} {ds ds' : List (DerivedField F)} (h : reflectLoop transChild ch ds = .ok ds') :
    ds' = ds ++ deriveds ch := by
  refine reflectLoop_said (fun ds ch => ds ++ deriveds ch) (fun s => ?_) (fun _ _ _ _ => rfl) ?_ ch ds ds' h
  · simp [deriveds, named, Xml.elems]
  intro s s1 n as ch cs h
  unfold transChild at h
  by_cases h0 : n = "DefineFunction"
  · rw [if_pos h0] at h
    obtain ⟨u, hu, rfl⟩ := map_ok h
    simp [deriveds, named_elem, h0]
  rw [if_neg h0] at h
  unfold localChild at h
  by_cases h1 : n = "DerivedField"
  · rw [if_pos h1] at h
    obtain ⟨d, hd, rfl⟩ := map_ok h
    simp [deriveds, named_elem, h1, derived_said hd]
  · rw [if_neg h1, Except.ok.injEq] at h
    simp [deriveds, named_elem, h1, h]

theorem deriveds_append (xs ys : List Xml) : deriveds (F := F) (xs ++ ys) = deriveds xs ++ deriveds ys := by
  simp [deriveds, named_append]

/-! ## Sections -/

/-- The mining fields of a `MiningSchema`. -/
def fieldsIn (ch : List Xml) : List MiningField := (named "MiningField" ch).map fun e => miningField e.2.1

theorem miningField_said {as : Attrs} {f : MiningField}
    (h : attrLoop (miningFieldAttr F) as ⟨"", .other "", "", "", none⟩ = .ok f) : f = miningField as := by
  have h1 := attrLoop_said (fun (f : MiningField) as => (⟨(lastAttr "name" as).getD f.name,
      ((lastAttr "usageType" as).map UsageType.ofString).getD f.usageType, (lastAttr "outliers" as).getD f.outliers,
      (lastAttr "invalidValueTreatment" as).getD f.invalidValueTreatment,
      (lastAttr "missingValueReplacement" as).or f.missingValueReplacement⟩ : MiningField))
      (fun s => rfl) (fun s s1 k v as h => by
        unfold miningFieldAttr at h
        simp only [lastAttr_cons]
        by_cases h0 : k = "highValue" ∨ k = "importance" ∨ k = "lowValue"
        · rw [if_pos h0] at h
          obtain ⟨x, hx, rfl⟩ := map_ok h
          rcases h0 with rfl | rfl | rfl <;> simp
        rw [if_neg h0] at h
        split_ifs at h <;> simp only [Except.ok.injEq] at h <;> subst h <;> simp_all) as _ f h
  rw [h1]
  simp only [miningField, text, Option.or_none]
  rw [word UsageType.ofString (.other "") rfl]

theorem schema_said {ch : List Xml} {fs fs' : List MiningField} (h : reflectLoop (schemaChild F) ch fs = .ok fs') :
    fs' = fs ++ fieldsIn ch := by
  refine reflectLoop_said (fun fs ch => fs ++ fieldsIn ch) (fun s => ?_) (fun _ _ _ _ => rfl) ?_ ch fs fs' h
  · simp [fieldsIn, named, Xml.elems]
  intro s s1 n as ch cs h
  unfold schemaChild at h
  by_cases h1 : n = "MiningField"
  · rw [if_pos h1] at h
    obtain ⟨d, hd, rfl⟩ := map_ok h
    simp [fieldsIn, named_elem, h1, miningField_said hd]
  · rw [if_neg h1, Except.ok.injEq] at h
    simp [fieldsIn, named_elem, h1, h]

theorem fieldsIn_append (xs ys : List Xml) : fieldsIn (xs ++ ys) = fieldsIn xs ++ fieldsIn ys := by
  simp [fieldsIn, named_append]

def outputsIn (ch : List Xml) : List OutputField := (named "OutputField" ch).map fun e => output e.2.1

theorem output_said {as : Attrs} {f : OutputField} (h : attrLoop outputAttr as ⟨"", .empty, ""⟩ = .ok f) : f = output as := by
  have h1 := attrLoop_said (fun (f : OutputField) as => (⟨(lastAttr "name" as).getD f.name,
      ((lastAttr "feature" as).map ResultFeature.ofString).getD f.feature, (lastAttr "value" as).getD f.value⟩ : OutputField))
      (fun s => rfl) (fun s s1 k v as h => by
        unfold outputAttr at h
        simp only [lastAttr_cons]
        by_cases h0 : k = "isMultiValued" ∨ k = "rank"
        · rw [if_pos h0] at h
          obtain ⟨x, hx, rfl⟩ := map_ok h
          rcases h0 with rfl | rfl <;> simp
        rw [if_neg h0] at h
        split_ifs at h <;> simp only [Except.ok.injEq] at h <;> subst h <;> simp_all) as _ f h
  rw [h1]
  simp only [output, text]
  rw [word ResultFeature.ofString .empty rfl]

theorem outputs_said {ch : List Xml} {fs fs' : List OutputField} (h : reflectLoop outputChild ch fs = .ok fs') :
    fs' = fs ++ outputsIn ch := by
  refine reflectLoop_said (fun fs ch => fs ++ outputsIn ch) (fun s => ?_) (fun _ _ _ _ => rfl) ?_ ch fs fs' h
  · simp [outputsIn, named, Xml.elems]
  intro s s1 n as ch cs h
  unfold outputChild at h
  by_cases h1 : n = "OutputField"
  · rw [if_pos h1] at h
    obtain ⟨d, hd, rfl⟩ := map_ok h
    simp [outputsIn, named_elem, h1, output_said hd]
  · rw [if_neg h1, Except.ok.injEq] at h
    simp [outputsIn, named_elem, h1, h]

theorem outputsIn_append (xs ys : List Xml) : outputsIn (xs ++ ys) = outputsIn xs ++ outputsIn ys := by
  simp [outputsIn, named_append]

def targetsIn (ch : List Xml) : List (Target F) := (named "Target" ch).map fun e => target e.2.1

theorem target_said {as : Attrs} {f : Target F} (h : attrLoop targetAttr as ⟨"", none, none⟩ = .ok f) : f = target as := by
  have h1 := attrLoop_said (fun (f : Target F) as => (⟨(lastAttr "field" as).getD f.field,
      (numberIf "rescaleConstant" as).or f.rescaleConstant, (numberIf "rescaleFactor" as).or f.rescaleFactor⟩ : Target F))
      (fun s => rfl) (fun s s1 k v as h => by
        unfold targetAttr at h
        simp only [lastAttr_cons, numberIf]
        by_cases h0 : k = "field"
        · rw [if_pos h0, Except.ok.injEq] at h
          subst h h0
          simp
        rw [if_neg h0] at h
        by_cases h1 : k = "max" ∨ k = "min"
        · rw [if_pos h1] at h
          obtain ⟨x, hx, rfl⟩ := map_ok h
          rcases h1 with rfl | rfl <;> simp
        rw [if_neg h1] at h
        by_cases h2 : k = "rescaleConstant"
        · rw [if_pos h2] at h
          obtain ⟨x, hx, rfl⟩ := map_ok h
          subst h2
          have := attrFloat_said hx
          subst this
          simp
        rw [if_neg h2] at h
        by_cases h3 : k = "rescaleFactor"
        · rw [if_pos h3] at h
          obtain ⟨x, hx, rfl⟩ := map_ok h
          subst h3
          have := attrFloat_said hx
          subst this
          simp
        rw [if_neg h3, Except.ok.injEq] at h
        subst h
        simp [h0, h2, h3]) as _ f h
  rw [h1]
  simp [target, text]

theorem targets_said {ch : List Xml} {fs fs' : List (Target F)} (h : reflectLoop targetsChild ch fs = .ok fs') :
    fs' = fs ++ targetsIn ch := by
  refine reflectLoop_said (fun fs ch => fs ++ targetsIn ch) (fun s => ?_) (fun _ _ _ _ => rfl) ?_ ch fs fs' h
  · simp [targetsIn, named, Xml.elems]
  intro s s1 n as ch cs h
  unfold targetsChild at h
  by_cases h1 : n = "Target"
  · rw [if_pos h1] at h
    obtain ⟨d, hd, rfl⟩ := map_ok h
    simp [targetsIn, named_elem, h1, target_said hd]
  · rw [if_neg h1, Except.ok.injEq] at h
    simp [targetsIn, named_elem, h1, h]

theorem targetsIn_append (xs ys : List Xml) : targetsIn (F := F) (xs ++ ys) = targetsIn xs ++ targetsIn ys := by
  simp [targetsIn, named_append]

def verFieldsIn (ch : List Xml) : List (VerificationField F) := (named "VerificationField" ch).map fun e => verificationField e.2.1

theorem verField_said {as : Attrs} {f : VerificationField F} (h : attrLoop verificationAttr as ⟨"", "", none⟩ = .ok f) :
    f = verificationField as := by
  have h1 := attrLoop_said (fun (f : VerificationField F) as => (⟨(lastAttr "field" as).getD f.field,
      (lastAttr "column" as).getD f.column, (numberIf "precision" as).or f.precision⟩ : VerificationField F))
      (fun s => rfl) (fun s s1 k v as h => by
        unfold verificationAttr at h
        simp only [lastAttr_cons, numberIf]
        by_cases h0 : k = "field"
        · rw [if_pos h0, Except.ok.injEq] at h
          subst h h0
          simp
        rw [if_neg h0] at h
        by_cases h1 : k = "column"
        · rw [if_pos h1, Except.ok.injEq] at h
          subst h h1
          simp
        rw [if_neg h1] at h
        by_cases h2 : k = "precision"
        · rw [if_pos h2] at h
          obtain ⟨x, hx, rfl⟩ := map_ok h
          subst h2
          have := attrFloat_said hx
          subst this
          simp
        rw [if_neg h2] at h
        by_cases h3 : k = "zeroThreshold"
        · rw [if_pos h3] at h
          obtain ⟨x, hx, rfl⟩ := map_ok h
          subst h3
          simp
        rw [if_neg h3, Except.ok.injEq] at h
        subst h
        simp [h0, h1, h2]) as _ f h
  rw [h1]
  simp [verificationField, text]

theorem verFields_said {ch : List Xml} {fs fs' : List (VerificationField F)}
    (h : reflectLoop verificationFieldsChild ch fs = .ok fs') : fs' = fs ++ verFieldsIn ch := by
  refine reflectLoop_said (fun fs ch => fs ++ verFieldsIn ch) (fun s => ?_) (fun _ _ _ _ => rfl) ?_ ch fs fs' h
  · simp [verFieldsIn, named, Xml.elems]
  intro s s1 n as ch cs h
  unfold verificationFieldsChild at h
  by_cases h1 : n = "VerificationField"
  · rw [if_pos h1] at h
    obtain ⟨d, hd, rfl⟩ := map_ok h
    simp [verFieldsIn, named_elem, h1, verField_said hd]
  · rw [if_neg h1, Except.ok.injEq] at h
    simp [verFieldsIn, named_elem, h1, h]

theorem verFieldsIn_append (xs ys : List Xml) : verFieldsIn (F := F) (xs ++ ys) = verFieldsIn xs ++ verFieldsIn ys := by
  simp [verFieldsIn, named_append]

/-- More records read into a verification. -/
def moreRecords (m : ModelVerification F) (ch : List Xml) : ModelVerification F :=
  ⟨m.fields ++ verFieldsIn (inside "VerificationFields" ch), m.rows ++ table (inside "InlineTable" ch)⟩

theorem decodeVerification_said {as : Attrs} {ch : List Xml} {m m' : Option (ModelVerification F)}
    (h : decodeVerification as ch m = .ok m') : m' = some (moreRecords (m.getD ⟨[], []⟩) ch) := by
  unfold decodeVerification at h
  cases ha : attrLoop countAttr as () with
  | error e => rw [ha] at h; simp at h
  | ok u =>
    rw [ha] at h
    obtain ⟨v, hv, rfl⟩ := map_ok h
    congr 1
    refine reflectLoop_said moreRecords (fun s => ?_) (fun _ _ _ _ => rfl) ?_ ch _ v hv
    · simp [moreRecords, inside, verFieldsIn, table, named, Xml.elems]
    intro s s1 n as ch cs h
    unfold verificationChild at h
    by_cases h1 : n = "InlineTable"
    · rw [if_pos h1] at h
      obtain ⟨d, hd, rfl⟩ := map_ok h
      simp [moreRecords, inside_elem, h1, table_said hd, table_append]
    rw [if_neg h1] at h
    by_cases h2 : n = "VerificationFields"
    · rw [if_pos h2] at h
      obtain ⟨d, hd, rfl⟩ := map_ok h
      simp [moreRecords, inside_elem, h2, verFields_said hd, verFieldsIn_append]
    rw [if_neg h2, Except.ok.injEq] at h
    simp [moreRecords, inside_elem, h1, h2, h]

/-- A verification with the sections of a model read into it. -/
def moreVerification (m : Option (ModelVerification F)) (ch : List Xml) : Option (ModelVerification F) :=
  if named "ModelVerification" ch = [] then m else some (moreRecords (m.getD ⟨[], []⟩) (inside "ModelVerification" ch))

theorem moreRecords_append (m : ModelVerification F) (xs ys : List Xml) :
    moreRecords (moreRecords m xs) ys = moreRecords m (xs ++ ys) := by
  simp [moreRecords, inside_append, verFieldsIn_append, table_append]

theorem moreVerification_elem (m : Option (ModelVerification F)) (n : String) (as : Attrs) (ch cs : List Xml) :
    moreVerification m (.elem n as ch :: cs) =
      if n = "ModelVerification" then moreVerification (some (moreRecords (m.getD ⟨[], []⟩) ch)) cs
      else moreVerification m cs := by
  unfold moreVerification
  simp only [named_elem, inside_elem]
  by_cases h : n = "ModelVerification"
  · simp only [h, if_true, reduceCtorEq, if_false, Option.getD_some, moreRecords_append]
    split_ifs with h1
    · simp [inside, h1]
    · rfl
  · simp [h]

theorem moreVerification_none (ch : List Xml) : moreVerification (F := F) none ch = verification ch := by
  simp [moreVerification, verification, moreRecords, verFieldsIn]

/-! ## Models -/

variable [Reflect]

theorem tree_said {as : Attrs} {ch : List Xml} {d : TreeDoc F} (h : decodeTree as ch = .ok d) : d = tree as ch := by
  unfold decodeTree at h
  cases ha : attrLoop treeAttr as (TreeDoc.zero (F := F)) with
  | error e => rw [ha] at h; simp at h
  | ok d0 =>
    rw [ha] at h
    have h1 := attrLoop_said (fun (d : TreeDoc F) as => { d with
      functionName := ((lastAttr "functionName" as).map MiningFunction.ofString).getD d.functionName
      missingValuePenalty := (numberIf "missingValuePenalty" as).getD d.missingValuePenalty
      missingValueStrategy := ((lastAttr "missingValueStrategy" as).map MissingValueStrategy.ofString).getD d.missingValueStrategy
      noTrueChildStrategy := ((lastAttr "noTrueChildStrategy" as).map NoTrueChildStrategy.ofString).getD d.noTrueChildStrategy })
      (fun s => rfl) (fun s s1 k v as h => by
        unfold treeAttr at h
        simp only [lastAttr_cons, numberIf]
        by_cases h0 : k = "functionName"
        · rw [if_pos h0, Except.ok.injEq] at h
          subst h h0
          simp
        rw [if_neg h0] at h
        by_cases h1 : k = "isScorable"
        · rw [if_pos h1] at h
          obtain ⟨x, hx, rfl⟩ := map_ok h
          subst h1
          simp
        rw [if_neg h1] at h
        by_cases h2 : k = "missingValuePenalty"
        · rw [if_pos h2] at h
          obtain ⟨x, hx, rfl⟩ := map_ok h
          subst h2
          have := attrFloat_said hx
          subst this
          simp
        rw [if_neg h2] at h
        split_ifs at h <;> simp only [Except.ok.injEq] at h <;> subst h <;> simp_all) as _ d0 ha
    have h2 := reflectLoop_said (fun (d : TreeDoc F) ch => { d with
      localTransformations := d.localTransformations ++ deriveds (inside "LocalTransformations" ch)
      miningFields := d.miningFields ++ fieldsIn (inside "MiningSchema" ch)
      verification := moreVerification d.verification ch
      node := more (attrsOf "Node" ch) (inside "Node" ch) d.node })
      (fun s => by
        rcases s with ⟨_, _, _, _, _, _, _, ⟨_, _, _, _, _, _, _⟩⟩
        simp [deriveds, fieldsIn, moreVerification, more, attrsOf, inside, named, Xml.elems, lastAttr, nodeCount, dists,
          nodes, preds])
      (fun _ _ _ _ => rfl) (fun s s1 n as ch cs h => by
        unfold treeChild at h
        simp only [inside_elem, attrsOf_elem, moreVerification_elem]
        by_cases h0 : n = "LocalTransformations"
        · rw [if_pos h0] at h
          obtain ⟨x, hx, rfl⟩ := map_ok h
          simp [h0, locals_said hx, deriveds_append]
        rw [if_neg h0] at h
        by_cases h1 : n = "MiningSchema"
        · rw [if_pos h1] at h
          obtain ⟨x, hx, rfl⟩ := map_ok h
          simp [h1, schema_said hx, fieldsIn_append]
        rw [if_neg h1] at h
        by_cases h2 : n = "ModelExplanation" ∨ n = "ModelStats"
        · rw [if_pos h2] at h
          obtain ⟨x, hx, rfl⟩ := map_ok h
          rcases h2 with rfl | rfl <;> simp
        rw [if_neg h2] at h
        by_cases h3 : n = "ModelVerification"
        · rw [if_pos h3] at h
          obtain ⟨x, hx, rfl⟩ := map_ok h
          simp [h3, decodeVerification_said hx]
        rw [if_neg h3] at h
        by_cases h4 : n = "Node"
        · rw [if_pos h4] at h
          obtain ⟨x, hx, rfl⟩ := map_ok h
          simp [h4, decodeNode_said hx, more_more]
        rw [if_neg h4] at h
        by_cases h5 : n = "Output"
        · rw [if_pos h5] at h
          obtain ⟨x, hx, rfl⟩ := map_ok h
          simp [h5]
        rw [if_neg h5] at h
        by_cases h6 : n = "Targets"
        · rw [if_pos h6] at h
          obtain ⟨x, hx, rfl⟩ := map_ok h
          simp [h6]
        rw [if_neg h6, Except.ok.injEq] at h
        simp [h0, h1, h3, h4, h]) ch d0 d h
    rw [h2, h1]
    simp only [tree, text, TreeDoc.zero, num, schema, root, more_zero, moreVerification_none, List.nil_append, fieldsIn]
    rw [word MiningFunction.ofString (.other "") rfl, word MissingValueStrategy.ofString (.other "") rfl,
      word NoTrueChildStrategy.ofString (.other "") rfl]

theorem predictor_said {as : Attrs} {p : NumericPredictor F} (h : attrLoop predictorAttr as ⟨"", Arith.zero, 0⟩ = .ok p) :
    p = predictor as := by
  have h1 := attrLoop_said (fun (p : NumericPredictor F) as => (⟨(lastAttr "name" as).getD p.name,
      (numberIf "coefficient" as).getD p.coefficient,
      ((lastAttr "exponent" as).map fun v => if v = "" then 0 else (parseInt (trimSpace v)).getD 0).getD p.exponent⟩ : NumericPredictor F))
      (fun s => rfl) (fun s s1 k v as h => by
        unfold predictorAttr at h
        simp only [lastAttr_cons, numberIf]
        by_cases h0 : k = "name"
        · rw [if_pos h0, Except.ok.injEq] at h
          subst h h0
          simp
        rw [if_neg h0] at h
        by_cases h2 : k = "coefficient"
        · rw [if_pos h2] at h
          obtain ⟨x, hx, rfl⟩ := map_ok h
          subst h2
          have := attrFloat_said hx
          subst this
          simp
        rw [if_neg h2] at h
        by_cases h3 : k = "exponent"
        · rw [if_pos h3] at h
          obtain ⟨x, hx, rfl⟩ := map_ok h
          subst h3
          have := attrInt_said hx
          subst this
          simp only [if_true, Option.map_some, Option.getD_some, String.reduceEq, if_false]
          cases lastAttr "exponent" as <;> rfl
        rw [if_neg h3, Except.ok.injEq] at h
        subst h
        simp [h0, h2, h3]) as _ p h
  rw [h1]
  simp [predictor, text, num, whole]

theorem regTable_said {as : Attrs} {ch : List Xml} {t : RegressionTable F} (h : decodeRegTable as ch = .ok t) :
    t = regressionTable as ch := by
  unfold decodeRegTable at h
  cases ha : attrLoop regTableAttr as (⟨Arith.zero, "", []⟩ : RegressionTable F) with
  | error e => rw [ha] at h; simp at h
  | ok t0 =>
    rw [ha] at h
    have h1 := attrLoop_said (fun (t : RegressionTable F) as => (⟨(numberIf "intercept" as).getD t.intercept,
      (lastAttr "targetCategory" as).getD t.targetCategory, t.predictors⟩ : RegressionTable F))
      (fun s => rfl) (fun s s1 k v as h => by
        unfold regTableAttr at h
        simp only [lastAttr_cons, numberIf]
        by_cases h2 : k = "intercept"
        · rw [if_pos h2] at h
          obtain ⟨x, hx, rfl⟩ := map_ok h
          subst h2
          have := attrFloat_said hx
          subst this
          simp
        rw [if_neg h2] at h
        split_ifs at h <;> simp only [Except.ok.injEq] at h <;> subst h <;> simp_all) as _ t0 ha
    have h2 := reflectLoop_said (fun (t : RegressionTable F) ch => { t with
      predictors := t.predictors ++ (named "NumericPredictor" ch).map fun e => predictor e.2.1 })
      (fun s => by simp [named, Xml.elems]) (fun _ _ _ _ => rfl) (fun s s1 n as ch cs h => by
        unfold regTableChild at h
        simp only [named_elem]
        by_cases h0 : n = "NumericPredictor"
        · rw [if_pos h0] at h
          obtain ⟨x, hx, rfl⟩ := map_ok h
          simp [h0, predictor_said hx]
        rw [if_neg h0, Except.ok.injEq] at h
        simp [h0, h]) ch t0 t h
    rw [h2, h1]
    simp [regressionTable, num, text]

theorem regression_said {as : Attrs} {ch : List Xml} {d : RegressionDoc F} (h : decodeRegression as ch = .ok d) :
    d = regression as ch := by
  unfold decodeRegression at h
  cases ha : attrLoop regressionAttr as (⟨.other "", .empty, [], [], none⟩ : RegressionDoc F) with
  | error e => rw [ha] at h; simp at h
  | ok d0 =>
    rw [ha] at h
    have h1 := attrLoop_said (fun (d : RegressionDoc F) as => { d with
      functionName := ((lastAttr "functionName" as).map MiningFunction.ofString).getD d.functionName
      normalization := ((lastAttr "normalizationMethod" as).map Normalization.ofString).getD d.normalization })
      (fun s => rfl) (fun s s1 k v as h => by
        unfold regressionAttr at h
        simp only [lastAttr_cons]
        by_cases h0 : k = "functionName"
        · rw [if_pos h0, Except.ok.injEq] at h
          subst h h0
          simp
        rw [if_neg h0] at h
        by_cases h1 : k = "isScorable"
        · rw [if_pos h1] at h
          obtain ⟨x, hx, rfl⟩ := map_ok h
          subst h1
          simp
        rw [if_neg h1] at h
        split_ifs at h <;> simp only [Except.ok.injEq] at h <;> subst h <;> simp_all) as _ d0 ha
    have h2 := reflectLoop_said (fun (d : RegressionDoc F) ch => { d with
      tables := d.tables ++ (named "RegressionTable" ch).map fun e => regressionTable e.2.1 e.2.2
      outputs := d.outputs ++ outputsIn (inside "Output" ch)
      verification := moreVerification d.verification ch })
      (fun s => by simp [outputsIn, moreVerification, inside, named, Xml.elems])
      (fun _ _ _ _ => rfl) (fun s s1 n as ch cs h => by
        unfold regressionChild at h
        simp only [inside_elem, named_elem, moreVerification_elem]
        by_cases h0 : n = "LocalTransformations"
        · rw [if_pos h0] at h
          obtain ⟨x, hx, rfl⟩ := map_ok h
          simp [h0]
        rw [if_neg h0] at h
        by_cases h1 : n = "MiningSchema"
        · rw [if_pos h1] at h
          obtain ⟨x, hx, rfl⟩ := map_ok h
          simp [h1]
        rw [if_neg h1] at h
        by_cases h4 : n = "RegressionTable"
        · rw [if_pos h4] at h
          obtain ⟨x, hx, rfl⟩ := map_ok h
          simp [h4, regTable_said hx]
        rw [if_neg h4] at h
        by_cases h2 : n = "ModelExplanation" ∨ n = "ModelStats"
        · rw [if_pos h2] at h
          obtain ⟨x, hx, rfl⟩ := map_ok h
          rcases h2 with rfl | rfl <;> simp
        rw [if_neg h2] at h
        by_cases h3 : n = "ModelVerification"
        · rw [if_pos h3] at h
          obtain ⟨x, hx, rfl⟩ := map_ok h
          simp [h3, decodeVerification_said hx]
        rw [if_neg h3] at h
        by_cases h5 : n = "Output"
        · rw [if_pos h5] at h
          obtain ⟨x, hx, rfl⟩ := map_ok h
          simp [h5, outputs_said hx, outputsIn_append]
        rw [if_neg h5] at h
        by_cases h6 : n = "Targets"
        · rw [if_pos h6] at h
          obtain ⟨x, hx, rfl⟩ := map_ok h
          simp [h6]
        rw [if_neg h6, Except.ok.injEq] at h
        simp [h3, h4, h5, h]) ch d0 d h
    rw [h2, h1]
    simp only [regression, text, outputs, outputsIn, moreVerification_none, List.nil_append]
    rw [word MiningFunction.ofString (.other "") rfl, word Normalization.ofString .empty rfl]

theorem leafModel_said {n : String} {as : Attrs} {ch : List Xml} {m : ModelElem F} (hn : n ≠ "MiningModel")
    (h : leafModel n as ch = some (.ok m)) : modelOf (.elem n as ch) = [m] := by
  unfold leafModel at h
  rw [modelOf]
  by_cases h1 : n = "TreeModel"
  · rw [if_pos h1, Option.some.injEq] at h
    rw [if_pos h1]
    obtain ⟨d, hd, rfl⟩ := map_ok h
    rw [tree_said hd]
  rw [if_neg h1] at h
  rw [if_neg h1]
  by_cases h2 : n = "RegressionModel"
  · rw [if_pos h2, Option.some.injEq] at h
    rw [if_pos h2]
    obtain ⟨d, hd, rfl⟩ := map_ok h
    rw [regression_said hd]
  rw [if_neg h2] at h
  rw [if_neg h2, if_neg hn]
  by_cases h3 : n ∈ otherModels
  · rw [if_pos h3, Option.some.injEq] at h
    obtain ⟨d, hd, rfl⟩ := map_ok h
    exact if_pos h3
  · rw [if_neg h3] at h
    simp at h

theorem miningAttr_said {as : Attrs} {hd hd' : MiningHead F} (h : attrLoop miningAttr as hd = .ok hd') :
    hd' = { hd with functionName := ((lastAttr "functionName" as).map MiningFunction.ofString).getD hd.functionName } := by
  refine attrLoop_said (fun (d : MiningHead F) as => { d with
      functionName := ((lastAttr "functionName" as).map MiningFunction.ofString).getD d.functionName })
      (fun s => rfl) ?_ as hd hd' h
  intro s s1 k v as h
  unfold miningAttr at h
  simp only [lastAttr_cons]
  by_cases h0 : k = "functionName"
  · rw [if_pos h0, Except.ok.injEq] at h
    subst h h0
    simp
  rw [if_neg h0] at h
  by_cases h1 : k = "isScorable"
  · rw [if_pos h1] at h
    obtain ⟨x, hx, rfl⟩ := map_ok h
    subst h1
    simp
  rw [if_neg h1, Except.ok.injEq] at h
  simp [h0, h]

/-- What the head of an ensemble becomes when more is read into it. -/
def moreHead (h : MiningHead F) (ch : List Xml) : MiningHead F where
  functionName := h.functionName
  method := ((lastAttr "multipleModelMethod" (attrsOf "Segmentation" ch)).map MultipleModelMethod.ofString).getD h.method
  verification := moreVerification h.verification ch
  miningFields := h.miningFields ++ fieldsIn (inside "MiningSchema" ch)
  localTransformations := h.localTransformations ++ deriveds (inside "LocalTransformations" ch)
  outputs := h.outputs ++ outputsIn (inside "Output" ch)
  targets := h.targets ++ targetsIn (inside "Targets" ch)

theorem moreHead_nil (h : MiningHead F) : moreHead h [] = h := by
  simp [moreHead, deriveds, fieldsIn, outputsIn, targetsIn, moreVerification, attrsOf, inside, named, Xml.elems, lastAttr]

theorem moreHead_text (h : MiningHead F) (r v : String) (cs : List Xml) : moreHead h (.text r v :: cs) = moreHead h cs := rfl

theorem miningChild_said {n : String} {as : Attrs} {ch : List Xml} {h h' : MiningHead F} (hn : n ≠ "Segmentation")
    (hc : miningChild n as ch h = .ok h') (cs : List Xml) : moreHead h (.elem n as ch :: cs) = moreHead h' cs := by
  unfold miningChild at hc
  simp only [moreHead, inside_elem, attrsOf_elem, moreVerification_elem, hn, if_false]
  by_cases h3 : n = "ModelVerification"
  · rw [if_pos h3] at hc
    obtain ⟨x, hx, rfl⟩ := map_ok hc
    simp [h3, decodeVerification_said hx]
  rw [if_neg h3] at hc
  by_cases h1 : n = "MiningSchema"
  · rw [if_pos h1] at hc
    obtain ⟨x, hx, rfl⟩ := map_ok hc
    simp [h1, schema_said hx, fieldsIn_append]
  rw [if_neg h1] at hc
  by_cases h0 : n = "LocalTransformations"
  · rw [if_pos h0] at hc
    obtain ⟨x, hx, rfl⟩ := map_ok hc
    simp [h0, locals_said hx, deriveds_append]
  rw [if_neg h0] at hc
  by_cases h5 : n = "Output"
  · rw [if_pos h5] at hc
    obtain ⟨x, hx, rfl⟩ := map_ok hc
    simp [h5, outputs_said hx, outputsIn_append]
  rw [if_neg h5] at hc
  by_cases h6 : n = "Targets"
  · rw [if_pos h6] at hc
    obtain ⟨x, hx, rfl⟩ := map_ok hc
    simp [h6, targets_said hx, targetsIn_append]
  rw [if_neg h6, Except.ok.injEq] at hc
  simp [h0, h1, h3, h5, h6, hc]

theorem segmentation_head (h : MiningHead F) (as : Attrs) (ch cs : List Xml) :
    moreHead h (.elem "Segmentation" as ch :: cs) = moreHead { h with method := methodAttr as h.method } cs := by
  have hm : methodAttr as h.method = ((lastAttr "multipleModelMethod" as).map MultipleModelMethod.ofString).getD h.method :=
    fold_said "multipleModelMethod" MultipleModelMethod.ofString as h.method
  simp only [moreHead, inside_elem, attrsOf_elem, moreVerification_elem, if_true, String.reduceEq, if_false,
    lastAttr_append, hm]
  congr 1
  cases lastAttr "multipleModelMethod" (attrsOf "Segmentation" cs) <;> simp

theorem segmentId_said (as : Attrs) : segmentId as = text "id" as := by
  unfold segmentId text
  have := fold_said "id" id as ""
  simpa using this

theorem head_said {as : Attrs} {ch : List Xml} {h : MiningHead F} (ha : attrLoop miningAttr as (MiningHead.zero (F := F)) = .ok h) :
    moreHead h ch = miningHead as ch := by
  rw [miningAttr_said ha]
  simp only [moreHead, miningHead, MiningHead.zero, text, schema, fieldsIn, outputs, outputsIn, targets, targetsIn,
    moreVerification_none, List.nil_append]
  rw [word MiningFunction.ofString (.other "") rfl, word MultipleModelMethod.ofString .empty rfl]

theorem modelOf_none_of_pred {n : String} {as : Attrs} {ch : List Xml} {r : Dec (Pred F)} (h : decodePred n as ch = some r) :
    modelOf (F := F) (.elem n as ch) = [] := by
  have : n ∈ ["CompoundPredicate", "False", "SimplePredicate", "SimpleSetPredicate", "True"] := by
    unfold decodePred leafPred at h
    by_contra hn
    simp only [List.mem_cons, List.not_mem_nil, or_false, not_or] at hn
    obtain ⟨h1, h2, h3, h4, h5⟩ := hn
    simp [h1, h2, h3, h4, h5] at h
  simp only [List.mem_cons, List.not_mem_nil, or_false] at this
  rcases this with rfl | rfl | rfl | rfl | rfl <;> simp [modelOf]

theorem predOf_none_of_decode {n : String} {as : Attrs} {ch : List Xml} (h : decodePred (F := F) n as ch = none) :
    predOf (F := F) (.elem n as ch) = [] := by
  refine predOf_none fun hn => ?_
  simp only [List.mem_cons, List.not_mem_nil, or_false] at hn
  rcases hn with rfl | rfl | rfl | rfl | rfl <;> simp [decodePred, leafPred] at h

mutual
theorem miningItem_said : (x : Xml) → ∀ (h h' : MiningHead F) (segs segs' : List (SegDoc F)) (cs : List Xml),
    miningItem x (h, segs) = .ok (h', segs') → moreHead h (x :: cs) = moreHead h' cs ∧ segs' = segs ++ segmentation x
  | .text r v, h, h', segs, segs', cs, hx => by
    rw [miningItem] at hx
    simp only [Except.ok.injEq, Prod.mk.injEq] at hx
    rw [moreHead_text, hx.1, segmentation, List.append_nil]
    exact ⟨rfl, hx.2.symm⟩
  | .elem n as ch, h, h', segs, segs', cs, hx => by
    rw [miningItem] at hx
    by_cases hn : n = "Segmentation"
    · rw [if_pos hn] at hx
      cases hs : segmentationBody ch segs with
      | error e => rw [hs] at hx; simp at hx
      | ok s2 =>
        rw [hs] at hx
        simp only [Except.ok.injEq, Prod.mk.injEq] at hx
        rw [segmentation, if_pos hn, ← hx.2, ← hx.1, hn, segmentation_head]
        exact ⟨rfl, segmentationBody_said ch segs s2 hs⟩
    · rw [if_neg hn] at hx
      cases hc : miningChild n as ch h with
      | error e => rw [hc] at hx; simp at hx
      | ok h2 =>
        rw [hc] at hx
        simp only [Except.ok.injEq, Prod.mk.injEq] at hx
        rw [segmentation, if_neg hn, List.append_nil, ← hx.1]
        exact ⟨miningChild_said hn hc cs, hx.2.symm⟩
theorem miningBody_said : (cs : List Xml) → ∀ (h h' : MiningHead F) (segs segs' : List (SegDoc F)),
    miningBody cs (h, segs) = .ok (h', segs') → h' = moreHead h cs ∧ segs' = segs ++ segmentations cs
  | [], h, h', segs, segs', hx => by
    rw [miningBody] at hx
    simp only [Except.ok.injEq, Prod.mk.injEq] at hx
    rw [moreHead_nil, segmentations, List.append_nil]
    exact ⟨hx.1.symm, hx.2.symm⟩
  | c :: cs, h, h', segs, segs', hx => by
    rw [miningBody] at hx
    rcases hc : miningItem c (h, segs) with _ | ⟨h2, segs2⟩
    · rw [hc] at hx; simp at hx
    · rw [hc] at hx
      simp only at hx
      obtain ⟨a1, a2⟩ := miningItem_said c h h2 segs segs2 cs hc
      obtain ⟨b1, b2⟩ := miningBody_said cs h2 h' segs2 segs' hx
      rw [a1, b1, b2, a2, segmentations, List.append_assoc]
      exact ⟨rfl, rfl⟩
theorem segmentationItem_said : (x : Xml) → ∀ (segs segs' : List (SegDoc F)),
    segmentationItem x segs = .ok segs' → segs' = segs ++ segment x
  | .text r v, segs, segs', hx => by
    rw [segmentationItem, Except.ok.injEq] at hx
    rw [segment, List.append_nil, hx]
  | .elem n as ch, segs, segs', hx => by
    rw [segmentationItem] at hx
    by_cases hn : n = "Segment"
    · rw [if_pos hn] at hx
      rcases hc : consumed n (segmentBody (F := F) ch ([], [])) with _ | ⟨ps, ms⟩
      · rw [hc] at hx; simp at hx
      · rw [hc] at hx
        simp only [Except.ok.injEq] at hx
        obtain ⟨a1, a2⟩ := segmentBody_said ch [] ps [] ms (consumed_said hc)
        rw [segment, if_pos hn, ← hx, a1, a2, segmentId_said]
        rfl
    · rw [if_neg hn, Except.ok.injEq] at hx
      rw [segment, if_neg hn, List.append_nil, hx]
theorem segmentationBody_said : (cs : List Xml) → ∀ (segs segs' : List (SegDoc F)),
    segmentationBody cs segs = .ok segs' → segs' = segs ++ segments cs
  | [], segs, segs', hx => by
    rw [segmentationBody, Except.ok.injEq] at hx
    rw [segments, List.append_nil, hx]
  | c :: cs, segs, segs', hx => by
    rw [segmentationBody] at hx
    rcases hc : segmentationItem c segs with _ | s2
    · rw [hc] at hx; simp at hx
    · rw [hc] at hx
      simp only at hx
      rw [segmentationBody_said cs s2 segs' hx, segmentationItem_said c segs s2 hc, segments, List.append_assoc]
theorem segmentItem_said : (x : Xml) → ∀ (ps ps' : List (Pred F)) (ms ms' : List (ModelElem F)),
    segmentItem x (ps, ms) = .ok ((ps', ms'), true) → ps' = ps ++ predOf x ∧ ms' = ms ++ modelOf x
  | .text r v, ps, ps', ms, ms', hx => by
    rw [segmentItem] at hx
    simp only [Except.ok.injEq, Prod.mk.injEq, and_true] at hx
    rw [predOf, modelOf, List.append_nil, List.append_nil]
    exact ⟨hx.1.symm, hx.2.symm⟩
  | .elem n as ch, ps, ps', ms, ms', hx => by
    rw [segmentItem] at hx
    cases hp : decodePred (F := F) n as ch with
    | some r =>
      rw [hp] at hx
      cases r with
      | error e => simp at hx
      | ok p =>
        simp only [Except.ok.injEq, Prod.mk.injEq, and_true] at hx
        rw [decodePred_said hp, modelOf_none_of_pred hp, List.append_nil]
        exact ⟨hx.1.symm, hx.2.symm⟩
    | none =>
      rw [hp] at hx
      simp only at hx
      rw [predOf_none_of_decode hp, List.append_nil]
      by_cases hn : n = "MiningModel"
      · rw [if_pos hn] at hx
        cases ha : attrLoop miningAttr as (MiningHead.zero (F := F)) with
        | error e => rw [ha] at hx; simp at hx
        | ok h =>
          rw [ha] at hx
          simp only at hx
          rcases hb : miningBody ch (h, []) with _ | ⟨h', segs⟩
          · rw [hb] at hx; simp at hx
          · rw [hb] at hx
            simp only [Except.ok.injEq, Prod.mk.injEq, and_true] at hx
            obtain ⟨a1, a2⟩ := miningBody_said ch h h' [] segs hb
            subst hn
            rw [← hx.2, a1, a2, head_said ha, modelOf]
            exact ⟨hx.1.symm, rfl⟩
      · rw [if_neg hn] at hx
        cases hl : leafModel (F := F) n as ch with
        | some r =>
          rw [hl] at hx
          cases r with
          | error e => simp at hx
          | ok m =>
            simp only [Except.ok.injEq, Prod.mk.injEq, and_true] at hx
            rw [leafModel_said hn hl]
            exact ⟨hx.1.symm, hx.2.symm⟩
        | none =>
          rw [hl] at hx
          simp only at hx
          rcases hb : segmentBody ch (ps, ms) with _ | ⟨a, b⟩ <;> rw [hb] at hx <;> simp at hx
theorem segmentBody_said : (cs : List Xml) → ∀ (ps ps' : List (Pred F)) (ms ms' : List (ModelElem F)),
    segmentBody cs (ps, ms) = .ok ((ps', ms'), true) → ps' = ps ++ preds cs ∧ ms' = ms ++ models cs
  | [], ps, ps', ms, ms', hx => by
    rw [segmentBody] at hx
    simp only [Except.ok.injEq, Prod.mk.injEq, and_true] at hx
    rw [preds, models, List.append_nil, List.append_nil]
    exact ⟨hx.1.symm, hx.2.symm⟩
  | c :: cs, ps, ps', ms, ms', hx => by
    rw [segmentBody] at hx
    rcases hc : segmentItem c (ps, ms) with _ | ⟨⟨p2, m2⟩, _ | _⟩
    · rw [hc] at hx; simp at hx
    · rw [hc] at hx; simp at hx
    · rw [hc] at hx
      simp only at hx
      obtain ⟨a1, a2⟩ := segmentItem_said c ps p2 ms m2 hc
      obtain ⟨b1, b2⟩ := segmentBody_said cs p2 ps' m2 ms' hx
      rw [b1, b2, a1, a2, preds, models, List.append_assoc, List.append_assoc]
      exact ⟨rfl, rfl⟩
end

theorem decodeModel_said {n : String} {as : Attrs} {ch : List Xml} {m : ModelElem F}
    (h : decodeModel n as ch = some (.ok m)) : modelOf (.elem n as ch) = [m] := by
  unfold decodeModel at h
  by_cases hn : n = "MiningModel"
  · rw [if_pos hn, Option.some.injEq] at h
    unfold decodeMining at h
    cases ha : attrLoop miningAttr as (MiningHead.zero (F := F)) with
    | error e => rw [ha] at h; simp at h
    | ok hd =>
      rw [ha] at h
      simp only at h
      obtain ⟨⟨h', segs⟩, hb, rfl⟩ := map_ok h
      obtain ⟨a1, a2⟩ := miningBody_said ch hd h' [] segs hb
      subst hn
      rw [a1, a2, head_said ha, modelOf]
      rfl
  · rw [if_neg hn] at h
    exact leafModel_said hn h

/-! ## The document -/

theorem dataField_said {as : Attrs} {ch : List Xml} {d : DataField} (h : decodeDataField F as ch = .ok d) :
    d = dataField as ch := by
  unfold decodeDataField at h
  cases ha : attrLoop dataFieldAttr as ⟨"", .other "", []⟩ with
  | error e => rw [ha] at h; simp at h
  | ok d0 =>
    rw [ha] at h
    have h1 := attrLoop_said (fun (d : DataField) as => (⟨(lastAttr "name" as).getD d.name,
      ((lastAttr "dataType" as).map DataType.ofString).getD d.dataType, d.values⟩ : DataField))
      (fun s => rfl) (fun s s1 k v as h => by
        unfold dataFieldAttr at h
        simp only [lastAttr_cons]
        by_cases h0 : k = "dataType"
        · rw [if_pos h0, Except.ok.injEq] at h
          subst h h0
          simp
        rw [if_neg h0] at h
        by_cases h1 : k = "isCyclic"
        · rw [if_pos h1] at h
          obtain ⟨x, hx, rfl⟩ := map_ok h
          subst h1
          simp
        rw [if_neg h1] at h
        split_ifs at h <;> simp only [Except.ok.injEq] at h <;> subst h <;> simp_all) as _ d0 ha
    have h2 := reflectLoop_said (fun (d : DataField) ch => { d with
      values := d.values ++ (named "Value" ch).map fun e => text "value" e.2.1 })
      (fun s => by simp [named, Xml.elems]) (fun _ _ _ _ => rfl) (fun s s1 n as ch cs h => by
        unfold dataFieldChild at h
        simp only [named_elem]
        by_cases h0 : n = "Interval"
        · rw [if_pos h0] at h
          obtain ⟨x, hx, rfl⟩ := map_ok h
          simp [h0]
        rw [if_neg h0] at h
        by_cases h1 : n = "Value"
        · rw [if_pos h1, Except.ok.injEq] at h
          subst h h1
          have : valueAttr as = text "value" as := by
            have := fold_said "value" id as ""
            simpa [valueAttr, text] using this
          simp [this]
        rw [if_neg h1, Except.ok.injEq] at h
        simp [h1, h]) ch d0 d h
    rw [h2, h1]
    simp only [dataField, text, List.nil_append]
    rw [word DataType.ofString (.other "") rfl]

def dataIn (ch : List Xml) : List DataField := (named "DataField" ch).map fun e => dataField e.2.1 e.2.2

theorem dict_said {as : Attrs} {ch : List Xml} {dd dd' : List DataField} (h : decodeDict F as ch dd = .ok dd') :
    dd' = dd ++ dataIn ch := by
  unfold decodeDict at h
  cases ha : attrLoop dictAttr as () with
  | error e => rw [ha] at h; simp at h
  | ok u =>
    rw [ha] at h
    refine reflectLoop_said (fun dd ch => dd ++ dataIn ch) (fun s => ?_) (fun _ _ _ _ => rfl) ?_ ch dd dd' h
    · simp [dataIn, named, Xml.elems]
    intro s s1 n as ch cs h
    unfold dictChild at h
    by_cases h1 : n = "DataField"
    · rw [if_pos h1] at h
      obtain ⟨d, hd, rfl⟩ := map_ok h
      simp [dataIn, named_elem, h1, dataField_said hd]
    rw [if_neg h1] at h
    by_cases h2 : n = "Taxonomy"
    · rw [if_pos h2] at h
      obtain ⟨d, hd, rfl⟩ := map_ok h
      simp [dataIn, named_elem, h2]
    · rw [if_neg h2, Except.ok.injEq] at h
      simp [dataIn, named_elem, h1, h]

theorem decodePmml_said {as : Attrs} {ch : List Xml} {p : Pmml F} (h : decodePmml as ch = .ok p) : p = pmml as ch := by
  unfold decodePmml at h
  have h2 := bodyLoop_said (fun (p : Pmml F) ch => { p with
    dataDictionary := p.dataDictionary ++ dataIn (inside "DataDictionary" ch)
    transformations := p.transformations ++ deriveds (inside "TransformationDictionary" ch)
    models := p.models ++ models ch })
    (fun s => by simp [dataIn, deriveds, inside, named, Xml.elems, models])
    (fun s r v cs => by simp [inside_text, models, modelOf]) (fun s s1 n as ch cs h => by
      unfold pmmlHandle at h
      simp only [inside_elem, models]
      by_cases h0 : n = "Header" ∨ n = "MiningBuildTask"
      · rw [if_pos h0] at h
        simp only [Option.some.injEq, Except.ok.injEq] at h
        subst h
        rcases h0 with rfl | rfl <;> simp [modelOf]
      rw [if_neg h0] at h
      by_cases h1 : n = "DataDictionary"
      · rw [if_pos h1, Option.some.injEq] at h
        obtain ⟨x, hx, rfl⟩ := map_ok h
        simp [h1, dict_said hx, dataIn, named_append, modelOf]
      rw [if_neg h1] at h
      by_cases h2 : n = "TransformationDictionary"
      · rw [if_pos h2, Option.some.injEq] at h
        obtain ⟨x, hx, rfl⟩ := map_ok h
        simp [h2, trans_said hx, deriveds_append, modelOf]
      rw [if_neg h2] at h
      cases hd : decodeModel (F := F) n as ch with
      | none => rw [hd] at h; simp at h
      | some r =>
        rw [hd] at h
        simp only [Option.map_some, Option.some.injEq] at h
        obtain ⟨m, hm, rfl⟩ := map_ok h
        subst hm
        simp [h1, h2, decodeModel_said hd]) ch _ p (consumed_said h)
  rw [h2]
  have hv : versionAttr as = text "version" as := by
    have := fold_said "version" id as ""
    simpa [versionAttr, text] using this
  simp [pmml, dataIn, hv]

end Said
end Gopmml
