import Verif.Proofs.XmlWrite
import Verif.Spec.Canon
import Verif.Props.Format

/-!
# The normal form of a file: it can be written
-/

namespace Gopmml.XmlText

open Gopmml Spec Spec.Markup Props

section
variable {F : Type} [NameTables]

/-- A name of ASCII letters. -/
def letterName (n : String) : Bool :=
  n.toList ≠ [] && n.toList.all fun c => ('a' ≤ c && c ≤ 'z') || ('A' ≤ c && c ≤ 'Z')

theorem letterName_plain {n : String} (h : letterName n = true) : PlainName n.toList := by
  unfold letterName at h
  simp only [ne_eq, decide_not, Bool.and_eq_true, Bool.not_eq_true', decide_eq_false_iff_not, List.all_eq_true,
    Bool.or_eq_true, decide_eq_true_eq] at h
  obtain ⟨h1, h2⟩ := h
  have hl : ∀ c ∈ n.toList, NameStart c := by
    intro c hc
    have hc := h2 c hc
    refine .inl ⟨?_, .inl hc⟩
    rcases hc with ⟨-, h⟩ | ⟨-, h⟩
    · have : c.toNat ≤ 'z'.toNat := h
      exact lt_of_le_of_lt this (by decide)
    · have : c.toNat ≤ 'Z'.toNat := h
      exact lt_of_le_of_lt this (by decide)
  refine ⟨?_, fun hc => ?_⟩
  · cases hn : n.toList with
    | nil => exact absurd hn h1
    | cons c cs =>
      rw [hn] at hl
      exact ⟨c, cs, rfl, hl c (by simp), fun d hd => .inl (hl d (by simp [hd]))⟩
  · have := h2 _ hc
    revert this
    decide

/-- An element that can be written. -/
def Wr (row : Bool) (x : Xml) : Prop := Xml.isText x = false ∧ Writable row x

theorem wr_all {row : Bool} : ∀ {xs : List Xml}, (∀ x ∈ xs, Wr row x) → WritableAll row xs
  | [], _ => by rw [WritableAll]; trivial
  | x :: xs, h => by
    rw [WritableAll]
    refine ⟨(h x (by simp)).2, fun ht => ?_, wr_all fun y hy => h y (by simp [hy])⟩
    rw [(h x (by simp)).1] at ht
    cases ht

theorem wr_elem {row : Bool} {n : String} {as : Attrs} {ch : List Xml} (hn : letterName n = true)
    (hv : verbatim n = false) (hnd : (as.map (·.1)).Nodup) (has : ∀ a ∈ as, letterName a.1 = true ∧ LegalText a.2)
    (hch : ∀ x ∈ ch, Wr (n == "row") x) : Wr row (.elem n as ch) := by
  refine ⟨rfl, ?_⟩
  rw [Writable]
  refine ⟨letterName_plain hn, hnd, fun a ha => ⟨letterName_plain (has a ha).1, (has a ha).2⟩, ?_⟩
  rw [if_neg (by rintro rfl; revert hv; decide), hv]
  exact wr_all hch

/-- An element without content. -/
theorem wr_leaf {row : Bool} {n : String} {as : Attrs} (hn : letterName n = true) (hnd : (as.map (·.1)).Nodup)
    (has : ∀ a ∈ as, letterName a.1 = true ∧ LegalText a.2) : Wr row (.elem n as []) := by
  refine ⟨rfl, ?_⟩
  rw [Writable]
  refine ⟨letterName_plain hn, hnd, fun a ha => ⟨letterName_plain (has a ha).1, (has a ha).2⟩, ?_⟩
  split_ifs
  · exact .inl rfl
  · rfl
  · rw [WritableAll]; trivial

omit [NameTables] in
theorem legal_ascii {s : String} (h : (s.toList.all fun c => 32 ≤ c.toNat && c.toNat < 127) = true) : LegalText s := by
  intro c hc
  have := List.all_eq_true.1 h c hc
  simp only [Bool.and_eq_true, decide_eq_true_eq] at this
  exact .inr ⟨this.1, by omega, by omega⟩

omit [NameTables] in
theorem attr_cons {k v : String} {as : Attrs} (hk : letterName k = true) (hv : LegalText v)
    (h : ∀ a ∈ as, letterName a.1 = true ∧ LegalText a.2) :
    ∀ a ∈ (k, v) :: as, letterName a.1 = true ∧ LegalText a.2 :=
  List.forall_mem_cons.2 ⟨⟨hk, hv⟩, h⟩

omit [NameTables] in
theorem attr_nil : ∀ a ∈ ([] : Attrs), letterName a.1 = true ∧ LegalText a.2 := by simp

omit [NameTables] in
theorem attr_opt {k : String} {v : Option String} {as : Attrs} (hk : letterName k = true) (hv : ∀ s ∈ v, LegalText s)
    (h : ∀ a ∈ as, letterName a.1 = true ∧ LegalText a.2) :
    ∀ a ∈ opt k v ++ as, letterName a.1 = true ∧ LegalText a.2 := by
  cases v with
  | none => exact h
  | some v => exact attr_cons hk (hv v rfl) h

/-! ## Predicates and nodes -/

mutual
theorem pred_wr : ∀ (p : Pred F), PredTexts LegalText p → Wr false (predXml p)
  | .true_, _ => wr_leaf (by decide) (by decide) attr_nil
  | .false_, _ => wr_leaf (by decide) (by decide) attr_nil
  | .simple p, h =>
    wr_leaf (by decide) (by simp) (attr_cons (by decide) h.1 (attr_cons (by decide) h.2.1
      (attr_cons (by decide) h.2.2 attr_nil)))
  | .set f, h =>
    wr_elem (by decide) (by decide) (by simp)
      (attr_cons (by decide) h (attr_cons (by decide) (legal_ascii (by decide)) attr_nil))
      (List.forall_mem_cons.2 ⟨wr_leaf (by decide) (by decide)
        (attr_cons (by decide) (legal_ascii (by decide)) (attr_cons (by decide) (legal_ascii (by decide)) attr_nil)),
        by simp⟩)
  | .compound op ps, h =>
    wr_elem (by decide) (by decide) (by simp) (attr_cons (by decide) h.1 attr_nil) (preds_wr ps h.2)
theorem preds_wr : ∀ (ps : List (Pred F)), PredsTexts LegalText ps → ∀ x ∈ predXmls ps, Wr false x
  | [], _ => by simp [predXmls]
  | p :: ps, h => by
    rw [predXmls]
    exact List.forall_mem_cons.2 ⟨pred_wr p h.1, preds_wr ps h.2⟩
end

variable {fmt : F → String} (hf : ∀ x, LegalText (fmt x))
include hf
set_option linter.unusedSectionVars false

omit [NameTables] in
theorem opt_fmt (v : Option F) : ∀ s ∈ v.map fmt, LegalText s := by
  intro s hs
  rw [Option.mem_map] at hs
  obtain ⟨x, -, rfl⟩ := hs
  exact hf x

theorem dist_wr (d : ScoreDistribution F) (h : LegalText d.value) : Wr false (distXml fmt d) := by
  unfold distXml
  refine wr_leaf (by decide) ?_ ?_
  · cases d.confidence <;> cases d.probability <;> simp [opt]
  · refine attr_cons (by decide) h (attr_cons (by decide) (hf _) ?_)
    refine attr_opt (by decide) (opt_fmt hf _) ?_
    simpa using attr_opt (as := []) (by decide) (opt_fmt hf d.probability) attr_nil

mutual
theorem node_wr : ∀ (n : Node F), NodeTexts LegalText n → Wr false (nodeXml fmt n)
  | .mk id dc sc rc ds ns p, h => by
    rw [NodeTexts] at h
    obtain ⟨h1, h2, h3, h4, h5, h6⟩ := h
    rw [nodeXml]
    refine wr_elem (by decide) (by decide) (by simp) (attr_cons (by decide) h1 (attr_cons (by decide) h3
      (attr_cons (by decide) (hf _) (attr_cons (by decide) h2 attr_nil)))) ?_
    intro x hx
    simp only [List.mem_append, Option.mem_toList, Option.map_eq_some_iff, List.mem_map] at hx
    rcases hx with (⟨q, hq, rfl⟩ | ⟨d, hd, rfl⟩) | hx
    · exact pred_wr q (h5 q hq)
    · exact dist_wr hf d (h4 d hd)
    · exact nodes_wr ns h6 x hx
theorem nodes_wr : ∀ (ns : List (Node F)), NodesTexts LegalText ns → ∀ x ∈ nodeXmls fmt ns, Wr false x
  | [], _ => by simp [nodeXmls]
  | n :: ns, h => by
    rw [nodeXmls]
    exact List.forall_mem_cons.2 ⟨node_wr n h.1, nodes_wr ns h.2⟩
end

/-! ## Tables and expressions -/

omit hf in
theorem cell_wr (c : String × GoVal F) (hn : CellName c.1) (ht : ∀ s, c.2 = .str s → LegalText s) :
    Wr true (cellXml c) := by
  have hc : c.1 ≠ "Constant" := by
    intro h
    have := hn.2
    rw [h] at this
    revert this
    decide
  have key : ∀ ch : List Xml, WritableAll (c.1 == "row") ch → Wr true (.elem c.1 [] ch) := by
    intro ch hch
    refine ⟨rfl, ?_⟩
    rw [Writable]
    refine ⟨hn.1, by simp, by simp, ?_⟩
    rw [if_neg hc, hn.2]
    exact hch
  unfold cellXml
  split
  · rename_i s hs
    refine key _ ?_
    rw [WritableAll, Writable, WritableAll]
    exact ⟨ht s hs, by simp, trivial⟩
  · exact key _ (by rw [WritableAll]; trivial)

omit hf in
theorem table_wr (t : List (GoMap (GoVal F))) (hn : TableNames CellName t) (ht : ∀ r ∈ t, RowTexts LegalText r) :
    Wr false (tableXml t) := by
  refine wr_elem (by decide) (by decide) (by simp) attr_nil ?_
  intro x hx
  simp only [List.mem_map] at hx
  obtain ⟨r, hr, rfl⟩ := hx
  refine wr_elem (by decide) (by decide) (by simp) attr_nil ?_
  intro x hx
  simp only [List.mem_map] at hx
  obtain ⟨c, hc, rfl⟩ := hx
  exact cell_wr c (hn r hr c hc) (ht r hr c hc)

omit hf in
theorem map_wr (m : MapValues F) (hn : ∀ t ∈ m.inlineTables, TableNames CellName t) (ht : MapTexts LegalText m) :
    Wr false (mapXml m) := by
  obtain ⟨h1, h2, h3, h4⟩ := ht
  refine wr_elem (by decide) (by decide) ?_ ?_ ?_
  · cases m.defaultValue <;> simp [opt]
  · refine attr_cons (by decide) h1 ?_
    simpa using attr_opt (as := []) (by decide) h2 attr_nil
  · intro x hx
    simp only [List.mem_append, List.mem_map] at hx
    rcases hx with ⟨p, hp, rfl⟩ | ⟨t, htt, rfl⟩
    · exact wr_leaf (by decide) (by simp) (attr_cons (by decide) (h3 p hp).1 (attr_cons (by decide) (h3 p hp).2 attr_nil))
    · exact table_wr t (hn t htt) (h4 t htt)

omit hf in
theorem const_wr {t : DataType} {v : String} (h1 : LegalText (dataType t)) (h2 : ConstantText v) :
    Wr false (.elem "Constant" [("dataType", dataType t)] [.text v v]) := by
  refine ⟨rfl, ?_⟩
  rw [Writable]
  refine ⟨letterName_plain (by decide), by simp, fun a ha => ?_, ?_⟩
  · have := attr_cons (k := "dataType") (by decide) h1 attr_nil a ha
    exact ⟨letterName_plain this.1, this.2⟩
  · rw [if_pos rfl]
    refine .inr ⟨v, v, rfl, ?_⟩
    rcases h2 with rfl | ⟨val, h⟩
    · exact .inl ⟨rfl, by simp⟩
    · exact .inr ⟨val, h, by simp⟩

omit hf in
mutual
theorem expr_wr : ∀ (x : Expr F), OkExpr x → ExprNames CellName ConstantText x → ExprTexts LegalText x →
    Wr false (exprXml x)
  | .fieldRef f, _, _, h => by
    rw [ExprTexts] at h
    exact wr_leaf (by decide) (by simp) (attr_cons (by decide) h attr_nil)
  | .const t v, _, hn, h => by
    rw [ExprTexts] at h
    rw [ExprNames] at hn
    exact const_wr h hn
  | .apply f xs, ho, hn, h => by
    rw [ExprTexts] at h
    rw [ExprNames] at hn
    exact wr_elem (by decide) (by decide) (by simp) (attr_cons (by decide) h.1 attr_nil) (exprs_wr xs ho hn h.2)
  | .mapValues m, _, hn, h => by
    rw [ExprTexts] at h
    rw [ExprNames] at hn
    exact map_wr m hn h
  | .other k, ho, _, _ => by
    have ho : k ∈ ["Aggregate", "Discretize", "Lag", "NormContinuous", "NormDiscrete", "TextIndex"] := ho
    refine wr_leaf ?_ (by simp) attr_nil
    simp only [List.mem_cons, List.not_mem_nil, or_false] at ho
    rcases ho with rfl | rfl | rfl | rfl | rfl | rfl <;> decide
theorem exprs_wr : ∀ (xs : List (Expr F)), OkExprs xs → (∀ x ∈ xs, ExprNames CellName ConstantText x) →
    (∀ x ∈ xs, ExprTexts LegalText x) → ∀ x ∈ exprXmls xs, Wr false x
  | [], _, _, _ => by simp [exprXmls]
  | x :: xs, ho, hn, h => by
    rw [exprXmls]
    exact List.forall_mem_cons.2 ⟨expr_wr x ho.1 (hn x (by simp)) (h x (by simp)),
      exprs_wr xs ho.2 (fun y hy => hn y (by simp [hy])) (fun y hy => h y (by simp [hy]))⟩
end

omit hf in
theorem derived_wr (d : DerivedField F) (ho : OkDerived d) (hn : ExprNames CellName ConstantText d.expr)
    (h : DerivedTexts LegalText d) : Wr false (derivedXml d) := by
  obtain ⟨h1, h2, h3, h4⟩ := h
  refine wr_elem (by decide) (by decide) (by simp) (attr_cons (by decide) h1 (attr_cons (by decide) h2
    (attr_cons (by decide) h3 attr_nil))) ?_
  split
  · simp
  · rename_i hne
    rcases ho.2.2 with he | ho
    · exact absurd he (by simpa using hne)
    · exact List.forall_mem_cons.2 ⟨expr_wr _ ho hn h4, by simp⟩

omit hf in
theorem local_wr (ds : List (DerivedField F)) (ho : ∀ d ∈ ds, OkDerived d)
    (hn : ∀ d ∈ ds, ExprNames CellName ConstantText d.expr) (h : ∀ d ∈ ds, DerivedTexts LegalText d) {n : String}
    (h1 : letterName n = true) (h2 : verbatim n = false) (h3 : n ≠ "row") : Wr false (.elem n [] (ds.map derivedXml)) := by
  refine wr_elem h1 h2 (by simp) attr_nil ?_
  intro x hx
  simp only [List.mem_map] at hx
  obtain ⟨d, hd, rfl⟩ := hx
  rw [show (n == "row") = false by simp [h3]]
  exact derived_wr d (ho d hd) (hn d hd) (h d hd)

omit hf in
theorem schema_wr (fs : List MiningField) (h : ∀ f ∈ fs, MiningFieldTexts LegalText f) : Wr false (schemaXml fs) := by
  refine wr_elem (by decide) (by decide) (by simp) attr_nil ?_
  intro x hx
  simp only [List.mem_map] at hx
  obtain ⟨f, hm, rfl⟩ := hx
  obtain ⟨h1, h2, h3, h4, h5⟩ := h f hm
  refine wr_leaf (by decide) ?_ ?_
  · cases f.missingValueReplacement <;> simp [opt]
  · refine attr_cons (by decide) h1 (attr_cons (by decide) h2 (attr_cons (by decide) h3 (attr_cons (by decide) h4 ?_)))
    simpa using attr_opt (as := []) (by decide) h5 attr_nil

omit hf in
theorem output_wr (fs : List OutputField) (h : ∀ f ∈ fs, OutputTexts LegalText f) :
    Wr false (.elem "Output" [] (fs.map outputXml)) := by
  refine wr_elem (by decide) (by decide) (by simp) attr_nil ?_
  intro x hx
  simp only [List.mem_map] at hx
  obtain ⟨f, hm, rfl⟩ := hx
  obtain ⟨h1, h2, h3⟩ := h f hm
  exact wr_leaf (by decide) (by simp) (attr_cons (by decide) h1 (attr_cons (by decide) h2 (attr_cons (by decide) h3 attr_nil)))

theorem targets_wr (ts : List (Target F)) (h : ∀ t ∈ ts, LegalText t.field) :
    Wr false (.elem "Targets" [] (ts.map (targetXml fmt))) := by
  refine wr_elem (by decide) (by decide) (by simp) attr_nil ?_
  intro x hx
  simp only [List.mem_map] at hx
  obtain ⟨t, hm, rfl⟩ := hx
  refine wr_leaf (by decide) ?_ ?_
  · cases t.rescaleConstant <;> cases t.rescaleFactor <;> simp [opt]
  · refine attr_cons (by decide) (h t hm) (attr_opt (by decide) (opt_fmt hf _) ?_)
    simpa using attr_opt (as := []) (by decide) (opt_fmt hf t.rescaleFactor) attr_nil

theorem verification_wr (v : ModelVerification F) (hn : VerificationNames CellName v) (h : VerificationTexts LegalText v) :
    Wr false (verificationXml fmt v) := by
  refine wr_elem (by decide) (by decide) (by simp) attr_nil (List.forall_mem_cons.2 ⟨?_, List.forall_mem_cons.2
    ⟨table_wr v.rows hn h.2, by simp⟩⟩)
  refine wr_elem (by decide) (by decide) (by simp) attr_nil ?_
  intro x hx
  simp only [List.mem_map] at hx
  obtain ⟨f, hm, rfl⟩ := hx
  refine wr_leaf (by decide) ?_ ?_
  · cases f.precision <;> simp [opt]
  · refine attr_cons (by decide) (h.1 f hm).1 (attr_cons (by decide) (h.1 f hm).2 ?_)
    simpa using attr_opt (as := []) (by decide) (opt_fmt hf f.precision) attr_nil

theorem tree_wr (d : TreeDoc F) [Lib F] (ho : OkTree fmt d)
    (hn : (∀ x ∈ d.localTransformations, ExprNames CellName ConstantText x.expr) ∧
      ∀ v ∈ d.verification, VerificationNames CellName v)
    (h : TreeTexts LegalText d) : Wr false (treeXml fmt d) := by
  obtain ⟨h1, h2, h3, h4, h5, h6, h7⟩ := h
  refine wr_elem (by decide) (by decide) (by simp) (attr_cons (by decide) h1 (attr_cons (by decide) (hf _)
    (attr_cons (by decide) h2 (attr_cons (by decide) h3 attr_nil)))) ?_
  intro x hx
  simp only [List.mem_append, List.mem_cons, List.not_mem_nil, or_false, Option.mem_toList,
    Option.map_eq_some_iff] at hx
  rcases hx with (rfl | rfl | rfl) | ⟨v, hv, rfl⟩
  · exact schema_wr _ h5
  · exact local_wr _ ho.2.2.2.2.1 hn.1 h4 (by decide) (by decide) (by decide)
  · exact node_wr hf _ h7
  · exact verification_wr hf v (hn.2 v hv) (h6 v hv)

theorem regression_wr (d : RegressionDoc F) (hn : ∀ v ∈ d.verification, VerificationNames CellName v)
    (h : RegressionTexts LegalText d) : Wr false (regressionXml fmt d) := by
  obtain ⟨h1, h2, h3, h4, h5⟩ := h
  refine wr_elem (by decide) (by decide) (by simp) (attr_cons (by decide) h1 (attr_cons (by decide) h2 attr_nil)) ?_
  intro x hx
  simp only [List.mem_append, List.mem_cons, List.not_mem_nil, or_false, Option.mem_toList,
    Option.map_eq_some_iff, List.mem_map] at hx
  rcases hx with (rfl | ⟨t, ht, rfl⟩) | ⟨v, hv, rfl⟩
  · exact output_wr _ h3
  · refine wr_elem (by decide) (by decide) (by simp) (attr_cons (by decide) (hf _) (attr_cons (by decide) (h4 t ht).1
      attr_nil)) ?_
    intro x hx
    simp only [List.mem_map] at hx
    obtain ⟨p, hp, rfl⟩ := hx
    refine wr_leaf (by decide) (by simp) (attr_cons (by decide) ((h4 t ht).2 p hp) (attr_cons (by decide) ?_
      (attr_cons (by decide) (hf _) attr_nil)))
    intro c hc
    rcases int_chars p.exponent c hc with rfl | hd
    · exact .inr ⟨by decide, by decide, by decide⟩
    · simp only [isDigit, Bool.and_eq_true, decide_eq_true_eq] at hd
      have h1 : '0'.toNat ≤ c.toNat := hd.1
      have h2 : c.toNat ≤ '9'.toNat := hd.2
      have e1 : '0'.toNat = 48 := rfl
      have e2 : '9'.toNat = 57 := rfl
      exact .inr ⟨by omega, by omega, by omega⟩
  · exact verification_wr hf v (hn v hv) (h5 v hv)

mutual
theorem model_wr [Lib F] : ∀ (m : ModelElem F), OkModel fmt m → ModelNames CellName ConstantText m →
    ModelTexts LegalText m → Wr false (modelXml fmt m)
  | .tree d, ho, hn, h => tree_wr hf d ho hn h
  | .regression d, _, hn, h => regression_wr hf d hn h
  | .mining hd segs, ho, hn, h => by
    rw [modelXml]
    obtain ⟨⟨h1, h2, h3, h4, h5, h6, h7⟩, h8⟩ := h
    refine wr_elem (by decide) (by decide) (by simp) (attr_cons (by decide) h1 attr_nil) ?_
    intro x hx
    simp only [List.mem_append, List.mem_cons, List.not_mem_nil, or_false, Option.mem_toList,
      Option.map_eq_some_iff] at hx
    rcases hx with (rfl | rfl | rfl | rfl | rfl) | ⟨v, hv, rfl⟩
    · exact schema_wr _ h4
    · exact output_wr _ h6
    · exact local_wr _ ho.1.2.2.2.2.1 hn.1 h5 (by decide) (by decide) (by decide)
    · exact targets_wr hf _ h7
    · exact wr_elem (by decide) (by decide) (by simp) (attr_cons (by decide) h2 attr_nil) (segs_wr segs ho.2 hn.2.2 h8)
    · exact verification_wr hf v (hn.2.1 v hv) (h3 v hv)
  | .other k, ho, _, _ => by
    have ho : k ∈ modelKinds ∧ k ∉ ["TreeModel", "RegressionModel", "MiningModel"] := ho
    refine wr_leaf ?_ (by simp) attr_nil
    have key : ∀ k ∈ modelKinds, letterName k = true := by decide
    exact key k ho.1
theorem models_wr [Lib F] : ∀ (ms : List (ModelElem F)), OkModels fmt ms → ModelsNames CellName ConstantText ms →
    ModelsTexts LegalText ms → ∀ x ∈ modelXmls fmt ms, Wr false x
  | [], _, _, _ => by simp [modelXmls]
  | m :: ms, ho, hn, h => by
    rw [modelXmls]
    exact List.forall_mem_cons.2 ⟨model_wr m ho.1 hn.1 h.1, models_wr ms ho.2 hn.2 h.2⟩
theorem seg_wr [Lib F] : ∀ (s : SegDoc F), OkSeg fmt s → SegNames CellName ConstantText s → SegTexts LegalText s →
    Wr false (segXml fmt s)
  | .mk id ps ms, ho, hn, h => by
    rw [segXml]
    refine wr_elem (by decide) (by decide) (by simp) (attr_cons (by decide) h.1 attr_nil) ?_
    intro x hx
    rcases List.mem_append.1 hx with hx | hx
    · exact preds_wr ps h.2.1 x hx
    · exact models_wr ms ho.2 hn h.2.2 x hx
theorem segs_wr [Lib F] : ∀ (ss : List (SegDoc F)), OkSegs fmt ss → SegsNames CellName ConstantText ss →
    SegsTexts LegalText ss → ∀ x ∈ segXmls fmt ss, Wr false x
  | [], _, _, _ => by simp [segXmls]
  | s :: ss, ho, hn, h => by
    rw [segXmls]
    exact List.forall_mem_cons.2 ⟨seg_wr s ho.1 hn.1 h.1, segs_wr ss ho.2 hn.2 h.2⟩
end

/-- A document of legal characters with writable tables and constants can be written. -/
theorem pmml_writable [Lib F] (p : Pmml F) (ho : OkPmml fmt p) (hn : Tidy p) (h : PmmlTexts LegalText p) :
    Writable false (.elem "PMML" (pmmlXml fmt p).1 (pmmlXml fmt p).2) := by
  obtain ⟨h1, h2, h3, h4⟩ := h
  refine (wr_elem (row := false) (by decide) (by decide) (by simp) (attr_cons (by decide) h1 attr_nil) ?_).2
  intro x hx
  simp only [pmmlXml, List.mem_append, List.mem_cons, List.not_mem_nil, or_false] at hx
  rcases hx with (rfl | rfl | rfl) | hx
  · exact wr_leaf (by decide) (by simp) attr_nil
  · refine wr_elem (by decide) (by decide) (by simp) attr_nil ?_
    intro x hx
    simp only [List.mem_map] at hx
    obtain ⟨d, hd, rfl⟩ := hx
    obtain ⟨h5, h6, h7⟩ := h2 d hd
    refine wr_elem (by decide) (by decide) (by simp) (attr_cons (by decide) h5 (attr_cons (by decide) h6 attr_nil)) ?_
    intro x hx
    simp only [List.mem_map] at hx
    obtain ⟨v, hv, rfl⟩ := hx
    exact wr_leaf (by decide) (by simp) (attr_cons (by decide) (h7 v hv) attr_nil)
  · exact local_wr _ ho.2.1 hn.1 h3 (by decide) (by decide) (by decide)
  · exact models_wr hf _ ho.2.2 hn.2 h4 x hx

end

end Gopmml.XmlText
