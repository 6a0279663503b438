import Verif.Spec.Forms

/-!
# Inputs that are only tested (C79)
-/

namespace Gopmml.Spec

variable {F : Type}

/-- The field is used in a computation: an expression of a derived field, or a numeric predictor. -/
inductive Computes : ModelElem F → String → Prop
  | treeDerived {d : TreeDoc F} {df f} : df ∈ d.localTransformations → f ∈ exprFields df.expr →
      Computes (.tree d) f
  | predictor {d : RegressionDoc F} {t np} : t ∈ d.tables → np ∈ t.predictors → Computes (.regression d) np.name
  | derived {h : MiningHead F} {segs df f} : df ∈ h.localTransformations → f ∈ exprFields df.expr →
      Computes (.mining h segs) f
  | segment {h : MiningHead F} {segs : List (SegDoc F)} {id ps es e f} :
      SegDoc.mk id ps es ∈ segs → e ∈ es → Computes e f → Computes (.mining h segs) f

/-- The simple predicate occurs in the document. -/
def PredicateIn (s : SimplePred F) (e : ModelElem F) : Prop :=
  ∃ d, TreeIn d e ∧ ∃ n p, Sub n d.node ∧ n.pred = some p ∧ s ∈ simples p

/-- The operators that look at a value which is there. -/
def Looks : SimpleOp → Prop
  | .isMissing | .isNotMissing | .other _ => False
  | _ => True

/-- The field is used only in tests, and those that look at its value are among `ts` (declared type, operator, constant). -/
structure OnlyTested (declared : String → DataType → Prop) (e : ModelElem F) (f : String)
    (ts : List (DataType × SimpleOp × String)) : Prop where
  tests : ∀ s, PredicateIn s e → s.field = f → Looks s.op → ∀ dt, declared f dt → (dt, s.op, s.value) ∈ ts
  free : ¬ Computes e f

/-- The operators that compare by order, or ask whether there is a value. -/
def ByOrder : SimpleOp → Prop
  | .equal | .notEqual => False
  | _ => True

/-- The field is declared with the types `dts` and used only to compare it with the constants `cs`. -/
structure OnlyCompared (declared : String → DataType → Prop) (e : ModelElem F) (f : String) (dts : List DataType)
    (cs : List String) : Prop where
  type : ∀ dt, declared f dt → dt ∈ dts
  tests : ∀ s, PredicateIn s e → s.field = f → s.value ∈ cs
  free : ¬ Computes e f

end Gopmml.Spec
