import Verif.Proofs.Reworked
import Verif.Model.Samples

/-!
# Property C97: temporary derived fields can be inlined
-/

namespace Gopmml.Props
open Gopmml Spec

variable {F : Type} [Arith F] [Lib F]

/-- Lists as `inlineFields` returns them. -/
def Inlined (D : List String) (L L' : List (DerivedField F)) : Prop := inlineFields D [] L = some L'

omit [Arith F] in
mutual
theorem inlineDoc_reworked {D : List String} : (e : ModelElem F) → ∀ {e'}, inlineDoc D e = some e' →
    Reworked (· ∈ D) (Inlined D) e e'
  | .tree d, e', h => by
    rw [inlineDoc] at h
    split_ifs at h with h1
    obtain ⟨l, hl, rfl⟩ := Option.map_eq_some_iff.mp h
    exact .tree hl (clear_iff.mp h1)
  | .regression d, e', h => by
    rw [inlineDoc] at h
    split_ifs at h with h1
    obtain rfl := Option.some.inj h
    exact .regression (clear_iff.mp h1)
  | .mining hd segs, e', h => by
    rw [inlineDoc] at h
    split at h
    · rename_i l segs' hl hs
      obtain rfl := Option.some.inj h
      exact .mining hl (inlineSegs_reworked segs hs)
    · simp at h
  | .other k, e', h => by
    rw [inlineDoc] at h
    obtain rfl := Option.some.inj h
    exact .other
theorem inlineSegs_reworked {D : List String} : (segs : List (SegDoc F)) → ∀ {segs'}, inlineSegs D segs = some segs' →
    ReworkedSegs (· ∈ D) (Inlined D) segs segs'
  | [], segs', h => by
    rw [inlineSegs] at h
    obtain rfl := Option.some.inj h
    exact .nil
  | .mk id p es :: segs, segs', h => by
    rw [inlineSegs] at h
    split at h
    · rename_i es' segs' he hs
      obtain rfl := Option.some.inj h
      exact .cons (inlineDocs_reworked es he) (inlineSegs_reworked segs hs)
    · simp at h
theorem inlineDocs_reworked {D : List String} : (es : List (ModelElem F)) → ∀ {es'}, inlineDocs D es = some es' →
    ReworkedDocs (· ∈ D) (Inlined D) es es'
  | [], es', h => by
    rw [inlineDocs] at h
    obtain rfl := Option.some.inj h
    exact .nil
  | e :: es, es', h => by
    rw [inlineDocs] at h
    split at h
    · rename_i e' es' he hs
      obtain rfl := Option.some.inj h
      exact .cons (inlineDoc_reworked e he) (inlineDocs_reworked es hs)
    · simp at h
end

omit [Arith F] in
theorem inlineFields_clear {D : List String} (L : List (DerivedField F)) : ∀ σ {L'}, inlineFields D σ L = some L' →
    ∀ df ∈ L', df.name ∉ D ∧ ∀ f ∈ exprFields df.expr, f ∉ D := by
  induction L with
  | nil => intro σ L' h; simp [inlineFields] at h; subst h; simp
  | cons df dfs ih =>
    intro σ L' h
    rw [inlineFields] at h
    split_ifs at h with h1 h2 h3 h4
    · exact ih _ h
    · obtain ⟨l, hl, rfl⟩ := Option.map_eq_some_iff.mp h
      simp only [Bool.not_eq_true', Bool.not_eq_false] at h1
      exact List.forall_mem_cons.mpr ⟨⟨by simpa using h2, clear_iff.mp h1⟩, ih _ hl⟩

omit [Arith F] [Lib F] in
theorem reworkedSegs_mem {D : String → Prop} {T : List (DerivedField F) → List (DerivedField F) → Prop}
    {segs segs' : List (SegDoc F)} (h : ReworkedSegs D T segs segs') {id ps es'} (hm : SegDoc.mk id ps es' ∈ segs')
    {e'} (he : e' ∈ es') : ∃ e, Reworked D T e e' := by
  induction segs generalizing segs' with
  | nil => cases h; cases hm
  | cons s segs ih =>
    cases h with
    | cons h1 h2 =>
      rcases List.mem_cons.mp hm with heq | hm
      · cases heq
        clear * - h1 he
        rename_i es
        induction es generalizing es' with
        | nil => cases h1; cases he
        | cons e es ih =>
          cases h1 with
          | cons h1 h2 =>
            rcases List.mem_cons.mp he with rfl | he
            · exact ⟨_, h1⟩
            · exact ih he h2
      · exact ih h2 hm

omit [Arith F] in
/-- **C97** (the result): the document without the steps neither computes nor reads any of them. -/
theorem C97_gone {D : List String} {e e' : ModelElem F} (h : inlineDoc D e = some e') {f : String} (hf : f ∈ D) :
    ¬ Computed e' f ∧ ¬ Mentioned e' f := by
  have key := inlineDoc_reworked e h
  clear h
  constructor
  · intro hc
    induction hc generalizing e with
    | tree hd => cases key with
      | tree h1 _ => exact (inlineFields_clear _ _ h1 _ hd).1 hf
    | head hd => cases key with
      | mining h1 _ => exact (inlineFields_clear _ _ h1 _ hd).1 hf
    | segment hs he _ ih => cases key with
      | mining _ h2 =>
        obtain ⟨e, hr⟩ := reworkedSegs_mem h2 hs he
        exact ih hf hr
  · intro hc
    induction hc generalizing e with
    | predicate h1 h2 h3 => cases key with
      | tree _ h4 => exact h4 _ (nodeFields_sub h1 h2 h3) hf
    | treeDerived hd hx => cases key with
      | tree h1 _ => exact (inlineFields_clear _ _ h1 _ hd).2 _ hx hf
    | predictor h1 h2 => cases key with
      | regression h3 =>
        refine h3 _ ?_ hf
        simp only [tableFields, List.mem_flatMap, List.mem_map]
        exact ⟨_, h1, _, h2, rfl⟩
    | derived hd hx => cases key with
      | mining h1 _ => exact (inlineFields_clear _ _ h1 _ hd).2 _ hx hf
    | segment hs he _ ih => cases key with
      | mining _ h2 =>
        obtain ⟨e, hr⟩ := reworkedSegs_mem h2 hs he
        exact ih hf hr

variable [Trans F]

/-- **C97** (construction): the document without the steps is rejected with the same error, or both
documents are accepted. -/
theorem C97_construction {D : List String} {e e' : ModelElem F} (h : inlineDoc D e = some e')
    (dd : List DataField) (td : TD F) :
    (∀ x, (newModel dd e td).1 = .error x ↔ (newModel dd e' td).1 = .error x) ∧
    ((∃ m, (newModel dd e td).1 = .ok m) ↔ ∃ m', (newModel dd e' td).1 = .ok m') := by
  have := (reworked_newModel (dd := dd) (D := (· ∈ D)) (T := Inlined D) inlineFields_reworks e td td
    (inlineDoc_reworked e h) (fun _ _ => rfl)).1
  cases h1 : (newModel dd e td).1 <;> cases h2 : (newModel dd e' td).1 <;> rw [h1, h2] at this <;>
    simp [Both] at this ⊢
  subst this
  simp

/-- **C97**: taking temporary derived fields out of a document, putting their expressions where they are
referred to, changes no answer and no error; the rows afterwards differ in these fields only. -/
theorem C97_inline {D : List String} {e e' : ModelElem F} (h : inlineDoc D e = some e')
    {dd : List DataField} {td td1 td2 : TD F} {m m' : EModel F} (hm : newModel dd e td = (.ok m, td1))
    (hm' : newModel dd e' td = (.ok m', td2)) (o : MapOrd) (r : GoMap (GoVal F)) :
    (EModel.evaluate o m (some r)).res = (EModel.evaluate o m' (some r)).res ∧
    ∀ f, f ∉ D → (EModel.evaluate o m (some r)).row.get f = (EModel.evaluate o m' (some r)).row.get f := by
  have := (reworked_newModel (dd := dd) (D := (· ∈ D)) (T := Inlined D) inlineFields_reworks e td td
    (inlineDoc_reworked e h) (fun _ _ => rfl)).1
  rw [hm, hm'] at this
  obtain ⟨h1, q, q', h2, h3, h4⟩ := this o r r (fun _ _ => rfl)
  refine ⟨h1, fun f hf => ?_⟩
  rw [h2, h3]
  exact h4 f hf

section
open Replay Samples

/-- A tree on the field `x`: "1" below 5, else "10". -/
def onField (x : String) (dfs : List (DerivedField F64)) : TreeDoc F64 :=
  { regTree "1" "10" with
    localTransformations := dfs
    node := .mk "" "" "0" (num "0") [] [
      .mk "" "" "1" (num "0") [] [] (some (sp x .lessThan "5")),
      .mk "" "" "10" (num "0") [] [] (some (sp x .greaterOrEqual "5"))] (some .true_) }

def cont (x : String) (e : Expr F64) : DerivedField F64 := ⟨x, .double, .continuous, e⟩
def step (x : String) (e : Expr F64) : DerivedField F64 := ⟨x, .double, .other "categorical", e⟩

/-- `u = (x * 2) + x`, by way of `t`; below it `v = t2 - u`, by way of `t2 = u / 2`. -/
def stepped : ModelElem F64 :=
  .mining { head .sum with localTransformations := [cont "t" (.apply "*" [.fieldRef "x", .const .double "2"]),
      cont "u" (.apply "+" [.fieldRef "t", .fieldRef "x"])] }
    [seg (.tree (onField "u" [])),
      seg (.tree (onField "v" [cont "t2" (.apply "/" [.fieldRef "u", .const .double "2"]),
        cont "v" (.apply "-" [.fieldRef "t2", .fieldRef "u"])]))]

def unstepped : ModelElem F64 :=
  .mining { head .sum with localTransformations :=
      [cont "u" (.apply "+" [.apply "*" [.fieldRef "x", .const .double "2"], .fieldRef "x"])] }
    [seg (.tree (onField "u" [])),
      seg (.tree (onField "v"
        [cont "v" (.apply "-" [.apply "/" [.fieldRef "u", .const .double "2"], .fieldRef "u"])]))]

-- C97: the steps "t" and "t2" are taken out. The answers are the same; the rows are not.
example : inlineDoc ["t", "t2"] stepped = some unstepped := by
  have h1 : canDrop .continuous (.apply "*" [.fieldRef "x", .const .double "2"] : Expr F64) = true := by
    decide +kernel
  have h2 : canDrop .continuous (.apply "/" [.fieldRef "u", .const .double "2"] : Expr F64) = true := by
    decide +kernel
  simp [stepped, unstepped, seg, head, inlineDoc, inlineSegs, inlineDocs, inlineFields, subst, substs, onField,
    regTree, cont, clear, exprFields, exprFields.exprsFields, nodeFields, nodesFields, predFields, sp, List.lookup, h1, h2]
example : eval .sorted stepped [("x", .int .int 2)] = eval .sorted unstepped [("x", .int .int 2)] ∧
    eval .sorted stepped [("x", .int .int 2)] = some (.ok (some (mk [("y", .f64 (num "23"))]))) ∧
    (evalRow .sorted stepped [("x", .int .int 2)]).map (·.get "t") = some (some (.f64 (num "4"))) ∧
    (evalRow .sorted unstepped [("x", .int .int 2)]).map (·.get "t") = some none := by
  decide +kernel

/-- The same without any check. -/
def inlineBlindly (D : List String) : List (String × Expr F64) → List (DerivedField F64) → List (DerivedField F64)
  | _, [] => []
  | σ, df :: dfs =>
    if D.contains df.name then inlineBlindly D ((df.name, subst σ df.expr) :: σ) dfs
    else { df with expr := subst σ df.expr } :: inlineBlindly D σ dfs

-- C97: every check is needed. A field read by the step is computed anew before the step is used,
example : let l := [step "t" (.fieldRef "x"), cont "x" (.const .double "9"), cont "u" (.fieldRef "t")]
    inlineFields ["t"] [] l = none ∧
    eval .sorted (.tree (onField "u" l)) [("x", .int .int 2)] ≠
      eval .sorted (.tree (onField "u" (inlineBlindly ["t"] [] l))) [("x", .int .int 2)] := by
  decide +kernel
-- the step is stored as a number, though its value is none (here the missing field),
example : let l := [cont "t" (.fieldRef "x"),
      cont "u" (.apply "if" [.apply "isMissing" [.fieldRef "t"], .const .double "9", .const .double "1"])]
    inlineFields ["t"] [] l = none ∧
    eval .sorted (.tree (onField "u" l)) [] ≠
      eval .sorted (.tree (onField "u" (inlineBlindly ["t"] [] l))) [] := by
  decide +kernel
-- the step fails, and is not needed,
example : let l := [cont "t" (.const .double "two"), cont "u" (.const .double "1")]
    inlineFields ["t"] [] l = none ∧
    eval .sorted (.tree (onField "u" l)) [] ≠
      eval .sorted (.tree (onField "u" (inlineBlindly ["t"] [] l))) [] := by
  decide +kernel
-- and a table reads the step, or it is read before it is computed.
example : let l := [cont "t" (.fieldRef "x"), cont "u" (.apply "sum" [.fieldRef "t"])]
    inlineDoc ["t"] (.tree (onField "t" l)) = none ∧
    inlineFields ["t"] [] l.reverse = none := by
  decide +kernel

end

end Gopmml.Props
