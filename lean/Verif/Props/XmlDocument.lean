import Verif.Proofs.XmlTrip
import Verif.Proofs.Induct
import Verif.Props.XmlNode

/-!
# C56, C58: what is written is read back
-/

namespace Gopmml.Props
open Gopmml Gopmml.Spec

section
variable {F : Type} {fmt : F → String}

theorem predXmls_eq (ps : List (Pred F)) : predXmls ps = ps.map predXml := by
  induction ps with
  | nil => rfl
  | cons p ps ih => simp [predXmls, ih]

/-- The encoding of a predicate is read back. -/
def PredTrip (p : Pred F) : Prop :=
  ∃ n as ch, predXml p = .elem n as ch ∧ n ∈ predKinds ∧ decodePred n as ch = some (.ok p)

theorem PredTrip.step_compound {p : Pred F} (h : PredTrip p) (done : List (Pred F)) :
    Reads compoundHandle (predXml p) done (done ++ [p]) := by
  obtain ⟨n, as, ch, he, hn, hd⟩ := h
  refine ⟨n, as, ch, he, ?_⟩
  have : n ≠ "Extension" := by rintro rfl; simp [predKinds] at hn
  simp only [compoundHandle, if_neg this, hd, Option.map_some, Except.map]

mutual
theorem predTrip : (p : Pred F) → OkPred p → PredTrip p
  | .true_, _ => ⟨_, _, _, rfl, by simp [predKinds], (C56_constant _ _).1⟩
  | .false_, _ => ⟨_, _, _, rfl, by simp [predKinds], (C56_constant _ _).2⟩
  | .simple ⟨f, op, v, raw⟩, h => by
    obtain ⟨hop, rfl⟩ := h
    refine ⟨_, _, _, rfl, by simp [predKinds], ?_⟩
    rw [C56_simple]
    simp [Spec.attr, Spec.attr?, ofString_simpleOp hop]
  | .set f, _ => by
    refine ⟨_, _, _, rfl, by simp [predKinds], ?_⟩
    rw [C56_set]
    refine ⟨by simp [Spec.attr, Spec.attr?], ?_⟩
    intro as' ch' hm s hs
    simp only [List.mem_singleton, Xml.elem.injEq, true_and] at hm
    obtain ⟨rfl, rfl⟩ := hm
    simp [values] at hs
    subst hs
    right
    decide
  | .compound op ps, h => by
    have hops : OkBoolOp op ∧ OkPreds ps := h
    refine ⟨_, _, _, rfl, by simp [predKinds], ?_⟩
    have hb : consumed "CompoundPredicate" (compoundBody (predXmls ps) []) = .ok ps := by
      rw [compoundBody_eq, predXmls_eq, bodyLoop_map predXml ps
        (fun p hp done => (predTrips ps hops.2 p hp).step_compound done)]
      rfl
    have ho : boolOpAttr [("booleanOperator", Spec.boolOp op)] = op := by
      simp [boolOpAttr, ofString_boolOp hops.1]
    rw [show decodePred (F := F) "CompoundPredicate" [("booleanOperator", Spec.boolOp op)] (predXmls ps) =
      some ((consumed "CompoundPredicate" (compoundBody (predXmls ps) [])).map
        (.compound (boolOpAttr [("booleanOperator", Spec.boolOp op)]))) from rfl, hb, ho]
    rfl
theorem predTrips : (ps : List (Pred F)) → OkPreds ps → ∀ p ∈ ps, PredTrip p
  | [], _ => by simp
  | p :: ps, h => by
    have h' : OkPred p ∧ OkPreds ps := h
    exact List.forall_mem_cons.mpr ⟨predTrip p h'.1, predTrips ps h'.2⟩
end

variable [Arith F] [Lib F]

theorem distTrip (d : ScoreDistribution F) (h : OkDist fmt d) (done : Node F) :
    Reads nodeHandle (distXml fmt d) done (done.addDist d) := by
  obtain ⟨v, rc, c, p⟩ := d
  obtain ⟨h1, h2, h3⟩ := h
  refine ⟨_, _, _, rfl, ?_⟩
  simp only [nodeHandle, String.reduceEq, or_self, if_false, if_true]
  have : decodeDist (F := F) ([("value", v), ("recordCount", fmt rc)] ++
      opt "confidence" (c.map fmt) ++ opt "probability" (p.map fmt)) = .ok ⟨v, rc, c, p⟩ := by
    simp only [decodeDist, List.cons_append, List.nil_append, attrLoop, distAttr, String.reduceEq,
      if_false, if_true, attrFloat_fmt h1, Except.map]
    cases c with
    | none =>
      cases p with
      | none => simp [opt, attrLoop]
      | some y => simp [opt, attrLoop, distAttr, attrFloat_fmt (h3 y rfl), Except.map]
    | some x =>
      cases p with
      | none => simp [opt, attrLoop, distAttr, attrFloat_fmt (h2 x rfl), Except.map]
      | some y =>
        simp [opt, attrLoop, distAttr, attrFloat_fmt (h2 x rfl), attrFloat_fmt (h3 y rfl), Except.map]
  rw [this]
  rfl

omit [Arith F] [Lib F] in
theorem nodeXmls_eq (ns : List (Node F)) : nodeXmls fmt ns = ns.map (nodeXml fmt) := by
  induction ns with
  | nil => rfl
  | cons p ps ih => simp [nodeXmls, ih]

/-- The encoding of a node is read back. -/
def NodeTrip (fmt : F → String) (n : Node F) : Prop :=
  ∃ as ch, nodeXml fmt n = .elem "Node" as ch ∧ decodeNode as ch Node.zero = .ok n

mutual
theorem nodeTrip : (n : Node F) → OkNode fmt n → NodeTrip fmt n
  | .mk id dc sc rc ds ns p, h => by
    have h' : Printable fmt rc ∧ (∀ d ∈ ds, OkDist fmt d) ∧ (∀ q ∈ p, OkPred q) ∧ OkNodes fmt ns := h
    obtain ⟨hrc, hds, hp, hns⟩ := h'
    refine ⟨_, _, rfl, ?_⟩
    have ha : attrLoop nodeAttr [("id", id), ("score", sc), ("recordCount", fmt rc),
        ("defaultChild", dc)] (Node.zero (F := F)) = .ok (.mk id dc sc rc [] [] none) := by
      simp [attrLoop, nodeAttr, Node.zero, hrc.1, hrc.2.2, parsed, Except.map]
    rw [show decodeNode [("id", id), ("score", sc), ("recordCount", fmt rc), ("defaultChild", dc)]
        ((p.map predXml).toList ++ ds.map (distXml fmt) ++ nodeXmls fmt ns) (Node.zero (F := F)) =
        (match attrLoop nodeAttr [("id", id), ("score", sc), ("recordCount", fmt rc),
          ("defaultChild", dc)] (Node.zero (F := F)) with
        | .error e => .error e
        | .ok y => consumed "Node" (nodeBody
          ((p.map predXml).toList ++ ds.map (distXml fmt) ++ nodeXmls fmt ns) y)) from rfl, ha]
    simp only [nodeBody_eq, nodeXmls_eq, List.append_assoc]
    have h1 : bodyLoop nodeHandle ((p.map predXml).toList ++ (ds.map (distXml fmt) ++
        ns.map (nodeXml fmt))) (.mk id dc sc rc [] [] none) =
        bodyLoop nodeHandle (ds.map (distXml fmt) ++ ns.map (nodeXml fmt))
          (.mk id dc sc rc [] [] p) := by
      cases p with
      | none => rfl
      | some q =>
        obtain ⟨n, as, ch, he, hn, hd⟩ := predTrip q (hp q rfl)
        refine bodyLoop_step ⟨n, as, ch, he, ?_⟩ _
        simp only [predKinds, List.mem_cons, List.not_mem_nil, or_false] at hn
        rcases hn with rfl | rfl | rfl | rfl | rfl <;>
          simp [nodeHandle, hd, Except.map, Node.setPred]
    rw [h1, bodyLoop_list (h := nodeHandle) (distXml fmt) (fun l => .mk id dc sc rc l [] p) ds
      (fun d hd done => distTrip d (hds d hd) _) (ns.map (nodeXml fmt)) []]
    have h2 := bodyLoop_list (h := nodeHandle) (nodeXml fmt) (fun l => .mk id dc sc rc ds l p) ns
      (fun c hc done => by
        obtain ⟨as, ch, he, hd⟩ := nodeTrips ns hns c hc
        refine ⟨_, as, ch, he, ?_⟩
        simp only [nodeHandle, String.reduceEq, or_self, if_false, if_true, hd, Except.map]
        rfl) [] []
    simp only [List.append_nil, List.nil_append] at h2 ⊢
    rw [h2]
    rfl
theorem nodeTrips : (ns : List (Node F)) → OkNodes fmt ns → ∀ n ∈ ns, NodeTrip fmt n
  | [], _ => by simp
  | n :: ns, h => by
    have h' : OkNode fmt n ∧ OkNodes fmt ns := h
    exact List.forall_mem_cons.mpr ⟨nodeTrip n h'.1, nodeTrips ns h'.2⟩
end

omit [Arith F] [Lib F] in
/-- C56 (predicates): the canonical XML of a predicate of any depth decodes to it. -/
theorem C56_predicate_roundtrip (p : Pred F) (h : OkPred p) :
    ∃ n as ch, predXml p = .elem n as ch ∧ decodePred n as ch = some (.ok p) := by
  obtain ⟨n, as, ch, he, -, hd⟩ := predTrip p h
  exact ⟨n, as, ch, he, hd⟩

/-- C56: the canonical XML of a node of any depth decodes to it. -/
theorem C56_roundtrip (n : Node F) (h : OkNode fmt n) :
    ∃ as ch, nodeXml fmt n = .elem "Node" as ch ∧ decodeNode as ch Node.zero = .ok n :=
  nodeTrip n h

end

section
variable {F : Type}

/-! ## Tables and expressions -/

theorem rebuild (r : GoMap (GoVal F)) :
    r.toList.foldl (fun m c => m.insert c.1 c.2) (∅ : GoMap (GoVal F)) = r := by
  apply Std.ExtTreeMap.ext_getElem?
  intro k
  rw [foldl_insert_getElem? (fun c : String × GoVal F => c.1) (fun c => c.2)]
  cases hl : (r.toList.filter fun c => decide (c.1 = k)).getLast? with
  | some c =>
    have hc := List.mem_of_getLast? hl
    simp only [List.mem_filter, decide_eq_true_eq] at hc
    obtain ⟨hm, rfl⟩ := hc
    exact ((Std.ExtTreeMap.mem_toList_iff_getElem?_eq_some (k := c.1) (v := c.2)).1 hm).symm
  | none =>
    rw [List.getLast?_eq_none_iff, List.filter_eq_nil_iff] at hl
    cases hk : r[k]? with
    | none => simp
    | some v =>
      have := (Std.ExtTreeMap.mem_toList_iff_getElem?_eq_some (k := k) (v := v)).2 hk
      exact absurd (hl _ this) (by simp)

theorem rowTrip (r : GoMap (GoVal F)) (h : OkRow r) :
    consumed "row" (bodyLoop rowHandle (r.toList.map cellXml) ∅) = .ok r := by
  have := bodyLoop_list (h := rowHandle) cellXml
    (fun l => l.foldl (fun m c => m.insert c.1 c.2) (∅ : GoMap (GoVal F))) r.toList
    (fun c hc done => by
      obtain ⟨s, hs⟩ := h c hc
      obtain ⟨k, v⟩ := c
      simp only at hs
      subst hs
      refine ⟨_, _, _, rfl, ?_⟩
      simp [rowHandle, Xml.chardata]) [] []
  simp only [List.append_nil, List.nil_append, List.foldl_nil, rebuild] at this
  rw [this]
  rfl

theorem tableTrip (t : List (GoMap (GoVal F))) (h : OkTable t) :
    decodeTable (t.map rowXml) [] = .ok t := by
  unfold decodeTable
  rw [bodyLoop_map rowXml t (fun r hr done => ⟨_, _, _, rfl, by
    simp only [tableHandle, if_true, rowTrip r (h r hr)]⟩)]
  rfl

theorem mapTrip (m : MapValues F) (h : OkMap m) :
    ∃ as ch, mapXml m = .elem "MapValues" as ch ∧ decodeMap as ch = .ok m := by
  obtain ⟨dv, dt, ps, ts⟩ := m
  obtain ⟨hd, ht⟩ := h
  refine ⟨_, _, rfl, ?_⟩
  have ha : attrLoop mapAttr (("dataType", Spec.dataType dt) :: opt "defaultValue" dv)
      (⟨none, .other "", [], []⟩ : MapValues F) = .ok ⟨dv, dt, [], []⟩ := by
    cases dv <;> simp [opt, attrLoop, mapAttr, ofString_dataType hd]
  simp only [decodeMap, ha]
  rw [reflectLoop_list (h := mapChild) pairXml (fun l => (⟨dv, dt, l, []⟩ : MapValues F)) ps
    (fun p _ done => ⟨_, _, _, rfl, by
      simp [mapChild, attrLoop, pairAttr, Except.map]⟩) _ []]
  have h2 := reflectLoop_list (h := mapChild) tableXml
    (fun l => (⟨dv, dt, ps, l⟩ : MapValues F)) ts
    (fun t hm done => ⟨_, _, _, rfl, by
      simp [mapChild, tableTrip t (ht t hm), Except.map]⟩) [] []
  simp only [List.append_nil, List.nil_append] at h2 ⊢
  rw [h2]
  rfl

theorem exprXmls_eq (xs : List (Expr F)) : exprXmls xs = xs.map exprXml := by
  induction xs with
  | nil => rfl
  | cons p ps ih => simp [exprXmls, ih]

/-- The encoding of an expression is read back. -/
def ExprTrip (x : Expr F) : Prop :=
  ∃ n as ch, exprXml x = .elem n as ch ∧ n ∈ exprKinds ∧ decodeExpr n as ch = some (.ok x)

mutual
theorem exprTrip : (x : Expr F) → OkExpr x → ExprTrip x
  | .fieldRef f, _ => ⟨_, _, _, rfl, by simp [exprKinds], by
      simp [decodeExpr, leafExpr, attrLoop, Except.map]⟩
  | .const t v, h => ⟨_, _, _, rfl, by simp [exprKinds], by
      have h' : OkDataType t := h
      simp [decodeExpr, leafExpr, attrLoop, Except.map, ofString_dataType h', Xml.sources, Xml.source]⟩
  | .apply f xs, h => by
    refine ⟨_, _, _, rfl, by simp [exprKinds], ?_⟩
    have hxs : OkExprs xs := h
    have hb : consumed "Apply" (applyBody (exprXmls xs) []) = .ok xs := by
      rw [applyBody_eq, exprXmls_eq, bodyLoop_map exprXml xs (fun x hx done => by
        obtain ⟨n, as, ch, he, hn, hd⟩ := exprTrips xs hxs x hx
        refine ⟨n, as, ch, he, ?_⟩
        have : n ≠ "Extension" := by rintro rfl; simp [exprKinds] at hn
        simp only [applyHandle, if_neg this, hd, Option.map_some, Except.map])]
      rfl
    rw [show decodeExpr (F := F) "Apply" [("function", f)] (exprXmls xs) =
      some ((consumed "Apply" (applyBody (exprXmls xs) [])).map
        (.apply (functionAttr [("function", f)]))) from rfl, hb]
    simp [functionAttr, Except.map]
  | .mapValues m, h => by
    obtain ⟨as, ch, he, hd⟩ := mapTrip m h
    refine ⟨_, as, ch, he, by simp [exprKinds], ?_⟩
    simp [decodeExpr, leafExpr, hd, Except.map]
  | .other k, h => by
    have h' : k ∈ ["Aggregate", "Discretize", "Lag", "NormContinuous", "NormDiscrete", "TextIndex"] := h
    refine ⟨_, _, _, rfl, ?_, ?_⟩
    · simp only [List.mem_cons, List.not_mem_nil, or_false] at h'
      simp only [exprKinds, List.mem_cons, List.not_mem_nil, or_false]
      tauto
    · simp only [List.mem_cons, List.not_mem_nil, or_false] at h'
      rcases h' with rfl | rfl | rfl | rfl | rfl | rfl <;> simp [decodeExpr, leafExpr, otherExpr]
theorem exprTrips : (xs : List (Expr F)) → OkExprs xs → ∀ x ∈ xs, ExprTrip x
  | [], _ => by simp
  | x :: xs, h => by
    have h' : OkExpr x ∧ OkExprs xs := h
    exact List.forall_mem_cons.mpr ⟨exprTrip x h'.1, exprTrips xs h'.2⟩
end

theorem derivedTrip (d : DerivedField F) (h : OkDerived d) :
    ∃ as ch, derivedXml d = .elem "DerivedField" as ch ∧ decodeDerived as ch = .ok d := by
  obtain ⟨name, dt, ot, x⟩ := d
  obtain ⟨h1, h2, h3⟩ := h
  have ha : attrLoop derivedAttr [("name", name), ("dataType", Spec.dataType dt),
      ("optype", Spec.opType ot)] (⟨"", .other "", .other "", .other ""⟩ : DerivedField F) =
      .ok ⟨name, dt, ot, .other ""⟩ := by
    simp [attrLoop, derivedAttr, ofString_dataType h1, ofString_opType h2]
  rcases h3 with rfl | h3
  · refine ⟨_, _, rfl, ?_⟩
    simp only [decodeDerived, ha]
    rfl
  obtain ⟨n, as, ch, he, hn, hd⟩ := exprTrip x h3
  have hne : ¬ (n = "Extension" ∨ n = "Value") := by
    rintro (rfl | rfl) <;> simp [exprKinds] at hn
  have hx : derivedXml ⟨name, dt, ot, x⟩ = .elem "DerivedField" [("name", name), ("dataType", Spec.dataType dt),
      ("optype", Spec.opType ot)] [exprXml x] := by
    unfold derivedXml
    dsimp only
    split
    · simp [OkExpr] at h3
    · rfl
  refine ⟨_, _, hx, ?_⟩
  simp only [decodeDerived, ha]
  rw [bodyLoop_step (s' := ⟨name, dt, ot, x⟩) ⟨n, as, ch, he, by
    simp only [derivedHandle, if_neg hne, hd, Option.map_some, Except.map]⟩]
  rfl

theorem localTrip (ds : List (DerivedField F)) (h : ∀ d ∈ ds, OkDerived d) :
    reflectLoop localChild (ds.map derivedXml) [] = .ok ds :=
  reflectLoop_map derivedXml ds (fun d hd done => by
    obtain ⟨as, ch, he, hdec⟩ := derivedTrip d (h d hd)
    exact ⟨_, as, ch, he, by simp [localChild, hdec, Except.map]⟩)

end

section
variable {F : Type} {fmt : F → String} [Arith F] [Lib F]

/-! ## Schema, outputs, targets, verification -/

theorem schemaTrip (fs : List MiningField) (h : ∀ f ∈ fs, OkMiningField f) :
    reflectLoop (schemaChild F) (fs.map miningFieldXml) [] = .ok fs :=
  reflectLoop_map miningFieldXml fs (fun f hf done => by
    obtain ⟨n, u, o, i, m⟩ := f
    have hu : OkUsage u := h _ hf
    refine ⟨_, _, _, rfl, ?_⟩
    cases m <;> simp [schemaChild, opt, attrLoop, miningFieldAttr, ofString_usage hu, Except.map])

omit [Arith F] [Lib F] in
theorem outputTrip (fs : List OutputField) (h : ∀ f ∈ fs, OkOutput f) :
    reflectLoop outputChild (fs.map outputXml) [] = .ok fs :=
  reflectLoop_map outputXml fs (fun f hf done => by
    obtain ⟨n, u, o⟩ := f
    have hu : OkFeature u := h _ hf
    refine ⟨_, _, _, rfl, ?_⟩
    simp [outputChild, attrLoop, outputAttr, ofString_feature hu, Except.map])

theorem targetsTrip (ts : List (Target F)) (h : ∀ t ∈ ts, OkTarget fmt t) :
    reflectLoop targetsChild (ts.map (targetXml fmt)) [] = .ok ts :=
  reflectLoop_map (targetXml fmt) ts (fun t ht done => by
    obtain ⟨n, c, f⟩ := t
    obtain ⟨h1, h2⟩ := h _ ht
    refine ⟨_, _, _, rfl, ?_⟩
    cases c with
    | none =>
      cases f with
      | none => simp [targetsChild, opt, attrLoop, targetAttr, Except.map]
      | some y =>
        simp [targetsChild, opt, attrLoop, targetAttr, attrFloat_fmt (h2 y rfl), Except.map]
    | some x =>
      cases f with
      | none => simp [targetsChild, opt, attrLoop, targetAttr, attrFloat_fmt (h1 x rfl), Except.map]
      | some y =>
        simp [targetsChild, opt, attrLoop, targetAttr, attrFloat_fmt (h1 x rfl),
          attrFloat_fmt (h2 y rfl), Except.map])

theorem verificationTrip (v : ModelVerification F) (h : OkVerification fmt v) :
    ∃ as ch, verificationXml fmt v = .elem "ModelVerification" as ch ∧
      decodeVerification as ch none = .ok (some v) := by
  obtain ⟨fs, rows⟩ := v
  obtain ⟨h1, h2⟩ := h
  refine ⟨_, _, rfl, ?_⟩
  have hf : reflectLoop verificationFieldsChild (fs.map (verificationFieldXml fmt)) [] = .ok fs :=
    reflectLoop_map (verificationFieldXml fmt) fs (fun f hf done => by
      obtain ⟨n, c, p⟩ := f
      have hp := h1 _ hf
      refine ⟨_, _, _, rfl, ?_⟩
      cases p with
      | none => simp [verificationFieldsChild, opt, attrLoop, verificationAttr, Except.map]
      | some y =>
        simp [verificationFieldsChild, opt, attrLoop, verificationAttr, attrFloat_fmt (hp y rfl),
          Except.map])
  simp [decodeVerification, attrLoop, reflectLoop, verificationChild, hf, tableTrip rows h2,
    Except.map, tableXml]

/-! ## Models -/

variable [Reflect]

omit [Reflect] in
theorem optVerification {σ : Type} {h : String → Attrs → List Xml → σ → Dec σ}
    (v : Option (ModelVerification F)) (hv : ∀ x ∈ v, OkVerification fmt x) (s s' : σ)
    (hn : v = none → s = s')
    (hs : ∀ as ch, decodeVerification as ch none = .ok v → h "ModelVerification" as ch s = .ok s') :
    reflectLoop h (v.map (verificationXml fmt)).toList s = .ok s' := by
  cases v with
  | none => simp [reflectLoop, hn rfl]
  | some x =>
    obtain ⟨as, ch, he, hd⟩ := verificationTrip x (hv x rfl)
    simp [he, reflectLoop, hs as ch hd]

theorem treeTrip (d : TreeDoc F) (h : OkTree fmt d) :
    ∃ as ch, treeXml fmt d = .elem "TreeModel" as ch ∧ decodeTree as ch = .ok d := by
  obtain ⟨fn, mp, ms, nt, lt, mf, vf, nd⟩ := d
  obtain ⟨h1, h2, h3, h4, h5, h6, h7, h8⟩ := h
  refine ⟨_, _, rfl, ?_⟩
  obtain ⟨as, ch, he, hd⟩ := nodeTrip nd h8
  simp only [decodeTree, attrLoop, treeAttr, String.reduceEq, if_false, if_true,
    attrFloat_fmt h2, Except.map, ofString_miningFunction h1, ofString_missing h3, ofString_noTrue h4,
    TreeDoc.zero, List.cons_append, List.nil_append, schemaXml, localXml, he, reflectLoop, treeChild,
    schemaTrip mf h6, localTrip lt h5, hd, or_self]
  refine optVerification vf h7 _ _ ?_ ?_
  · rintro rfl; rfl
  · intro as' ch' hv
    simp [treeChild, hv, Except.map]

omit [Reflect] in
theorem regTableTrip (t : RegressionTable F) (h : OkRegTable fmt t) :
    ∃ as ch, regTableXml fmt t = .elem "RegressionTable" as ch ∧ decodeRegTable as ch = .ok t := by
  obtain ⟨i, c, ps⟩ := t
  obtain ⟨h1, h2⟩ := h
  refine ⟨_, _, rfl, ?_⟩
  have ha : attrLoop regTableAttr [("intercept", fmt i), ("targetCategory", c)]
      (⟨Arith.zero, "", []⟩ : RegressionTable F) = .ok ⟨i, c, []⟩ := by
    simp [attrLoop, regTableAttr, attrFloat_fmt h1, Except.map]
  simp only [decodeRegTable, ha]
  have h3 := reflectLoop_list (h := regTableChild) (predictorXml fmt)
    (fun l => (⟨i, c, l⟩ : RegressionTable F)) ps
    (fun p hp done => by
      obtain ⟨n, co, ex⟩ := p
      obtain ⟨hc, hl, hu⟩ := h2 _ hp
      refine ⟨_, _, _, rfl, ?_⟩
      simp only at hc hl hu
      simp only [regTableChild, attrLoop, predictorAttr, String.reduceEq, if_false, if_true,
        attrInt_toString ex hl hu, attrFloat_fmt hc, Except.map]) [] []
  simp only [List.append_nil, List.nil_append] at h3
  rw [h3]
  rfl

theorem regressionTrip (d : RegressionDoc F) (h : OkRegression fmt d) :
    ∃ as ch, regressionXml fmt d = .elem "RegressionModel" as ch ∧ decodeRegression as ch = .ok d := by
  obtain ⟨fn, nm, ts, os, vf⟩ := d
  obtain ⟨h1, h2, h3, h4, h5⟩ := h
  refine ⟨_, _, rfl, ?_⟩
  simp only [decodeRegression, attrLoop, regressionAttr, String.reduceEq, if_false, if_true,
    ofString_miningFunction h1, ofString_normalization h2, List.cons_append, List.nil_append]
  rw [reflectLoop_step (h := regressionChild) (s' := ⟨fn, nm, [], os, none⟩) ⟨_, _, _, rfl, by
    simp [regressionChild, outputTrip os h3, Except.map]⟩]
  have ht := reflectLoop_list (h := regressionChild) (regTableXml fmt)
    (fun l => (⟨fn, nm, l, os, none⟩ : RegressionDoc F)) ts
    (fun t hm done => by
      obtain ⟨as, ch, he, hd⟩ := regTableTrip t (h4 t hm)
      exact ⟨_, as, ch, he, by simp [regressionChild, hd, Except.map]⟩)
    (vf.map (verificationXml fmt)).toList []
  rw [ht]
  refine optVerification vf h5 _ _ ?_ ?_
  · rintro rfl; rfl
  · intro as' ch' hv
    simp [regressionChild, hv, Except.map]

omit [Arith F] [Lib F] [Reflect] in
theorem modelXmls_eq (ms : List (ModelElem F)) : modelXmls fmt ms = ms.map (modelXml fmt) := by
  induction ms with
  | nil => simp [modelXmls]
  | cons p ps ih => simp [modelXmls, ih]

omit [Arith F] [Lib F] [Reflect] in
theorem segXmls_eq (ss : List (SegDoc F)) : segXmls fmt ss = ss.map (segXml fmt) := by
  induction ss with
  | nil => simp [segXmls]
  | cons p ps ih => simp [segXmls, ih]

/-- The encoding of a model is read back. -/
def ModelTrip (fmt : F → String) (m : ModelElem F) : Prop :=
  ∃ n as ch, modelXml fmt m = .elem n as ch ∧ n ∈ modelKinds ∧ decodeModel n as ch = some (.ok m)

omit [Arith F] [Lib F] [Reflect] in
theorem decodePred_model {n : String} (h : n ∈ modelKinds) (as : Attrs) (ch : List Xml) :
    decodePred (F := F) n as ch = none := by
  simp only [modelKinds, List.mem_cons, List.not_mem_nil, or_false] at h
  have hk : n ∉ predKinds := by
    simp only [predKinds, List.mem_cons, List.not_mem_nil, or_false]
    rcases h with rfl | rfl | rfl | rfl | rfl | rfl | rfl | rfl | rfl | rfl | rfl | rfl | rfl | rfl |
      rfl | rfl | rfl | rfl <;> decide
  have := decodePred_isSome (F := F) n as ch
  simpa [hk] using this

/-- The kinds of models that are not evaluated decode when empty. -/
def OthersDecode : Prop :=
  ∀ k ∈ modelKinds, k ∉ ["TreeModel", "RegressionModel", "MiningModel"] → Reflect.ok k [] [] = true

mutual
theorem modelTrip (hr : OthersDecode) : (m : ModelElem F) → OkModel fmt m → ModelTrip fmt m
  | .tree d, h => by
    have h' : OkTree fmt d := by simpa only [OkModel] using h
    obtain ⟨as, ch, he, hd⟩ := treeTrip d h'
    refine ⟨_, as, ch, by rw [modelXml]; exact he, by simp [modelKinds], ?_⟩
    simp [decodeModel, leafModel, hd, Except.map]
  | .regression d, h => by
    have h' : OkRegression fmt d := by simpa only [OkModel] using h
    obtain ⟨as, ch, he, hd⟩ := regressionTrip d h'
    refine ⟨_, as, ch, by rw [modelXml]; exact he, by simp [modelKinds], ?_⟩
    simp [decodeModel, leafModel, hd, Except.map]
  | .other k, h => by
    have h' : k ∈ modelKinds ∧ k ∉ ["TreeModel", "RegressionModel", "MiningModel"] := by
      simpa only [OkModel] using h
    refine ⟨k, [], [], by rw [modelXml], h'.1, ?_⟩
    have hok := hr k h'.1 h'.2
    obtain ⟨hk, hn⟩ := h'
    simp only [modelKinds, List.mem_cons, List.not_mem_nil, or_false, not_or] at hk hn
    have hmem : k ∈ otherModels := by
      simp only [otherModels, List.mem_cons, List.not_mem_nil, or_false]
      tauto
    simp only [decodeModel, leafModel, hn, if_false, hmem, if_true, skip, hok, Except.map]
  | .mining hd segs, h => by
    have h' : OkHead fmt hd ∧ OkSegs fmt segs := by simpa only [OkModel] using h
    obtain ⟨hh, hs⟩ := h'
    obtain ⟨fn, me, vf, mf, lt, os, ts⟩ := hd
    obtain ⟨h1, h2, h3, h4, h5, h6, h7⟩ := hh
    simp only at h1 h2 h3 h4 h5 h6 h7
    refine ⟨_, _, _, by rw [modelXml], by simp [modelKinds], ?_⟩
    simp only [decodeModel, decodeMining, if_true, attrLoop, miningAttr, ofString_miningFunction h1,
      miningBody_eq, MiningHead.zero, List.cons_append, List.nil_append]
    have hseg : reflectLoop segmentationChild (segXmls fmt segs) [] = .ok segs := by
      rw [segXmls_eq]
      exact reflectLoop_map (segXml fmt) segs (fun s hm done => by
        obtain ⟨as, ch, he, hd⟩ := segTrips hr segs hs s hm
        exact ⟨_, as, ch, he, by simp [segmentationChild, hd, Except.map]⟩)
    have hb : reflectLoop miningHandle (schemaXml mf :: .elem "Output" [] (os.map outputXml) ::
        localXml lt :: .elem "Targets" [] (ts.map (targetXml fmt)) ::
        .elem "Segmentation" [("multipleModelMethod", multipleModelMethod me)] (segXmls fmt segs) ::
        (vf.map (verificationXml fmt)).toList)
        ((⟨fn, .empty, none, [], [], [], []⟩ : MiningHead F), ([] : List (SegDoc F))) =
        .ok ((⟨fn, me, vf, mf, lt, os, ts⟩ : MiningHead F), segs) := by
      simp only [reflectLoop, schemaXml, localXml, miningHandle, miningChild, String.reduceEq,
        if_false, if_true, schemaTrip mf h4, outputTrip os h6, localTrip lt h5, targetsTrip ts h7,
        hseg, Except.map, methodAttr, List.foldl_cons, List.foldl_nil, ofString_method h2]
      refine optVerification vf h3 _ _ ?_ ?_
      · rintro rfl; rfl
      · intro as' ch' hv
        simp [miningHandle, miningChild, hv, Except.map]
    rw [hb]
    rfl
theorem modelTrips (hr : OthersDecode) : (ms : List (ModelElem F)) → OkModels fmt ms →
    ∀ m ∈ ms, ModelTrip fmt m
  | [], _ => by simp
  | m :: ms, h => by
    have h' : OkModel fmt m ∧ OkModels fmt ms := by simpa only [OkModels] using h
    exact List.forall_mem_cons.mpr ⟨modelTrip hr m h'.1, modelTrips hr ms h'.2⟩
theorem segTrip (hr : OthersDecode) : (s : SegDoc F) → OkSeg fmt s →
    ∃ as ch, segXml fmt s = .elem "Segment" as ch ∧ decodeSegment as ch = .ok s
  | .mk id ps ms, h => by
    have h' : OkPreds ps ∧ OkModels fmt ms := by simpa only [OkSeg] using h
    obtain ⟨hps, hms⟩ := h'
    refine ⟨_, _, by rw [segXml], ?_⟩
    simp only [decodeSegment, segmentBody_eq, predXmls_eq, modelXmls_eq]
    rw [bodyLoop_list (h := segmentHandle) predXml (fun l => (l, ([] : List (ModelElem F)))) ps
      (fun p hp done => by
        obtain ⟨n, as, ch, he, -, hd⟩ := predTrips ps hps p hp
        exact ⟨n, as, ch, he, by simp only [segmentHandle, hd, Except.map]⟩) _ []]
    have hm := bodyLoop_list (h := segmentHandle) (modelXml fmt) (fun l => (ps, l)) ms
      (fun m hm done => by
        obtain ⟨n, as, ch, he, hn, hd⟩ := modelTrips hr ms hms m hm
        exact ⟨n, as, ch, he, by
          simp only [segmentHandle, decodePred_model hn, hd, Option.map_some, Except.map]⟩) [] []
    simp only [List.append_nil, List.nil_append] at hm ⊢
    rw [hm]
    simp [bodyLoop, consumed, Except.map, segmentId]
theorem segTrips (hr : OthersDecode) : (ss : List (SegDoc F)) → OkSegs fmt ss → ∀ s ∈ ss,
    ∃ as ch, segXml fmt s = .elem "Segment" as ch ∧ decodeSegment as ch = .ok s
  | [], _ => by simp
  | s :: ss, h => by
    have h' : OkSeg fmt s ∧ OkSegs fmt ss := by simpa only [OkSegs] using h
    exact List.forall_mem_cons.mpr ⟨segTrip hr s h'.1, segTrips hr ss h'.2⟩
end

/-! ## The document -/

omit [Reflect] in
theorem dataFieldTrip (d : DataField) (h : OkDataType d.dataType) :
    ∃ as ch, dataFieldXml d = .elem "DataField" as ch ∧ decodeDataField F as ch = .ok d := by
  obtain ⟨n, t, vs⟩ := d
  refine ⟨_, _, rfl, ?_⟩
  simp only at h
  simp only [decodeDataField, attrLoop, dataFieldAttr, String.reduceEq, if_false, if_true,
    ofString_dataType h]
  have hv := reflectLoop_list (h := dataFieldChild F) valueXml (fun l => (⟨n, t, l⟩ : DataField)) vs
    (fun v _ done => ⟨_, _, _, rfl, by simp [dataFieldChild, valueAttr]⟩) [] []
  simp only [List.append_nil, List.nil_append] at hv
  rw [hv]
  rfl

/-- C58: reading what was written gives the document back: every field, predicate, node, table,
expression and model, at every depth. -/
theorem C58_roundtrip (hr : OthersDecode) (p : Pmml F) (h : OkPmml fmt p) :
    decodePmml (pmmlXml fmt p).1 (pmmlXml fmt p).2 = .ok p := by
  obtain ⟨v, dd, td, ms⟩ := p
  obtain ⟨h1, h2, h3⟩ := h
  simp only at h1 h2 h3
  simp only [decodePmml, pmmlXml, modelXmls_eq, List.cons_append, List.nil_append]
  have hdd : decodeDict F [] (dd.map dataFieldXml) [] = .ok dd := by
    simp only [decodeDict, attrLoop]
    exact reflectLoop_map dataFieldXml dd (fun d hd done => by
      obtain ⟨as, ch, he, hdec⟩ := dataFieldTrip (F := F) d (h1 d hd)
      exact ⟨_, as, ch, he, by simp [dictChild, hdec, Except.map]⟩)
  have htd : reflectLoop transChild (td.map derivedXml) [] = .ok td :=
    reflectLoop_map derivedXml td (fun d hd done => by
      obtain ⟨as, ch, he, hdec⟩ := derivedTrip d (h2 d hd)
      exact ⟨_, as, ch, he, by simp [transChild, localChild, hdec, Except.map]⟩)
  rw [bodyLoop_step (s' := ⟨v, [], [], []⟩) ⟨_, _, _, rfl, by simp [pmmlHandle, versionAttr]⟩,
    bodyLoop_step (s' := ⟨v, dd, [], []⟩) ⟨_, _, _, rfl, by simp [pmmlHandle, hdd, Except.map]⟩,
    bodyLoop_step (s' := ⟨v, dd, td, []⟩) ⟨_, _, _, rfl, by simp [pmmlHandle, htd, Except.map]⟩]
  have hm := bodyLoop_list (h := pmmlHandle) (modelXml fmt) (fun l => (⟨v, dd, td, l⟩ : Pmml F)) ms
    (fun m hm done => by
      obtain ⟨n, as, ch, he, hn, hd⟩ := modelTrips hr ms h3 m hm
      refine ⟨n, as, ch, he, ?_⟩
      have h1 : ¬ (n = "Header" ∨ n = "MiningBuildTask") := by
        rintro (rfl | rfl) <;> simp [modelKinds] at hn
      have h2 : n ≠ "DataDictionary" := by rintro rfl; simp [modelKinds] at hn
      have h3 : n ≠ "TransformationDictionary" := by rintro rfl; simp [modelKinds] at hn
      simp only [pmmlHandle, if_neg h1, if_neg h2, if_neg h3, hd, Option.map_some, Except.map]) [] []
  simp only [List.append_nil, List.nil_append] at hm
  rw [hm]
  rfl

end

section Examples
open Samples Replay

/-- Writes the numbers that occur in the samples. -/
private def write (x : F64) : String :=
  if x = num "0" then "0" else if x = num "1" then "1" else if x = num "2" then "2"
  else if x = num "0.5" then "0.5" else "?"

private theorem printable : Printable write (num "0") ∧ Printable write (num "1") ∧
    Printable write (num "2") ∧ Printable write (num "0.5") := by
  unfold Printable
  decide +kernel

/-- A node with a compound predicate, a distribution and two levels of children. -/
private def sampleNode : Node F64 :=
  .mk "1" "3" "yes" (num "2") [⟨"yes", num "1", some (num "0.5"), none⟩, ⟨"no", num "1", none, none⟩]
    [.mk "2" "" "no" (num "1") [] [.mk "4" "" "yes" (num "0") [] [] (some .false_)]
      (some (.compound .surrogate [sp "x" .lessThan "5", .compound .and [.true_, .set "c"]])),
     .mk "3" "" "yes" (num "1") [] [] (some (sp "x" .isMissing ""))] (some .true_)

private theorem sampleNode_ok : OkNode write sampleNode := by
  simp [sampleNode, OkNode, OkNodes, OkDist, OkPred, OkPreds, OkSimpleOp, OkBoolOp, printable, sp]

example : ∃ as ch, nodeXml write sampleNode = .elem "Node" as ch ∧
    decodeNode as ch Node.zero = .ok sampleNode :=
  C56_roundtrip sampleNode sampleNode_ok

/-- Children out of order, two predicates, foreign white space: what C56 says is what happens. -/
example {F : Type} [Arith F] [Lib F] : decodeNode (F := F) [("id", "1"), ("id", "7"), ("recordCount", "")]
    [.elem "Node" [("id", "b")] [], .text " " " ", .elem "False" [] [], .elem "Node" [("id", "a")] [],
     .elem "Extension" [] [.elem "Node" [] []], .elem "True" [] []] Node.zero =
    .ok (.mk "7" "" "" Arith.zero [] [.mk "b" "" "" Arith.zero [] [] none,
      .mk "a" "" "" Arith.zero [] [] none] (some .true_)) := by
  simp [decodeNode, attrLoop, nodeAttr, nodeBody, nodeItem, consumed, Node.zero, Node.addNode,
    Node.setPred, decodePred, leafPred]

/-- An expression of every kind. -/
private def sampleExpr : Expr F64 :=
  .apply "if" [.apply "isMissing" [.fieldRef "x"], .const .double "0.5",
    .mapValues ⟨some "z", .string, [⟨"c", "in"⟩], [[mk [("in", .str "a"), ("out", .str "1 < 2")]]]⟩,
    .other "Discretize"]

/-- A document with a nested ensemble, a tree, a regression, verification records and an unsupported
model. -/
private def sampleDoc : Pmml F64 where
  version := "4.3"
  dataDictionary := [⟨"x", .double, []⟩, ⟨"c", .string, ["a", "b"]⟩, ⟨"d", .other "date", []⟩]
  transformations := [⟨"t", .double, .continuous, sampleExpr⟩]
  models := [
    .mining { head .modelChain with
        localTransformations := [⟨"l", .string, .other "categorical", sampleExpr⟩]
        outputs := [⟨"p", .probability, "yes"⟩] }
      [.mk "s1" [.true_, sp "x" .equal "1"]
        [.mining (head (.other "max")) [seg (.tree (regTree "1" "10"))],
         .tree { regTree "1" "2" with node := sampleNode }],
       .mk "" [] [.regression ⟨.classification, .softmax,
          [⟨num "0.5", "yes", [⟨"x", num "2", -3⟩]⟩, ⟨num "0", "no", []⟩], [⟨"o", .empty, "no"⟩],
          some ⟨[⟨"x", "x", none⟩, ⟨"p", "data:p", some (num "0.5")⟩],
            [mk [("x", .str "1"), ("data:p", .str "2")], mk []]⟩⟩]],
    .other "Scorecard"]

private theorem mkRow_ok {l : List (String × GoVal F64)}
    (h : (mk l).toList.all fun c => match c.2 with | .str _ => true | _ => false) : OkRow (mk l) := by
  rw [List.all_eq_true] at h
  intro c hc
  have := h c hc
  split at this
  · exact ⟨_, by assumption⟩
  · cases this

private theorem sampleExpr_ok : OkExpr sampleExpr := by
  have h1 : OkRow (mk [("in", .str "a"), ("out", .str "1 < 2")]) := mkRow_ok (by decide +kernel)
  simp [sampleExpr, OkExpr, OkExprs, OkMap, OkTable, OkDataType, h1]

private theorem sampleDoc_ok : OkPmml write sampleDoc := by
  have h2 : OkRow (mk [("x", .str "1"), ("data:p", .str "2")]) := mkRow_ok (by decide +kernel)
  have h3 : OkRow (mk []) := mkRow_ok (by decide +kernel)
  simp [sampleDoc, OkPmml, OkModels, OkModel, OkHead, OkSegs, OkSeg, OkPreds, OkPred, OkTree,
    OkRegression, OkRegTable, OkVerification, OkTable, OkDerived, OkMiningField, OkOutput, OkTarget,
    OkDataType, OkOpType, OkMiningFunction, OkMethod, OkUsage, OkFeature, OkNormalization, OkMissing,
    OkNoTrue, OkSimpleOp, OkNode, OkNodes, OkDist, sampleExpr_ok, sampleNode_ok, printable, h2, h3, head,
    seg, regTree, active, sp, modelKinds]

example : letI : Reflect := ⟨fun _ _ _ => true⟩
    decodePmml (pmmlXml write sampleDoc).1 (pmmlXml write sampleDoc).2 = .ok sampleDoc :=
  letI : Reflect := ⟨fun _ _ _ => true⟩
  C58_roundtrip (fun _ _ _ => rfl) sampleDoc sampleDoc_ok

end Examples

end Gopmml.Props
