import Verif.Spec.Tree
import Verif.Spec.Expr
import Verif.Model.Mining

/-!
# What a model document contains

Nested documents are described by how one gets to their parts.
-/

namespace Gopmml.Spec

variable {F : Type}

/-- The tree document `d` is the model document or one nested in it. -/
inductive TreeIn (d : TreeDoc F) : ModelElem F → Prop
  | here : TreeIn d (.tree d)
  | segment {h : MiningHead F} {segs : List (SegDoc F)} {id ps es e} :
      SegDoc.mk id ps es ∈ segs → e ∈ es → TreeIn d e → TreeIn d (.mining h segs)

/-- The derived field is declared in the local transformations of the model document, at any depth. -/
inductive DerivedIn (df : DerivedField F) : ModelElem F → Prop
  | tree {d : TreeDoc F} : df ∈ d.localTransformations → DerivedIn df (.tree d)
  | mining {h : MiningHead F} {segs} : df ∈ h.localTransformations → DerivedIn df (.mining h segs)
  | segment {h : MiningHead F} {segs : List (SegDoc F)} {id ps es e} :
      SegDoc.mk id ps es ∈ segs → e ∈ es → DerivedIn df e → DerivedIn df (.mining h segs)

/-- Every field declared with the type `ty` has for it: by the data dictionary, the transformation
dictionary, and the model document. -/
structure WellTyped (ty : String → DataType) (dd : List DataField) (td : TD F) (e : ModelElem F) : Prop where
  dd : ∀ f ∈ dd, f.dataType = ty f.name
  td : ∀ f ∈ td, f.dataType = ty f.name
  doc : ∀ f, DerivedIn f e → f.dataType = ty f.name

/-- A model document mentions a field: in the predicate of a tree node, in the expression of a
derived field, or as the name of a numeric predictor, at any depth. -/
inductive Mentioned : ModelElem F → String → Prop
  | predicate {d : TreeDoc F} {n p f} : Sub n d.node → n.pred = some p → f ∈ predFields p →
      Mentioned (.tree d) f
  | treeDerived {d : TreeDoc F} {df f} : df ∈ d.localTransformations → f ∈ exprFields df.expr →
      Mentioned (.tree d) f
  | predictor {d : RegressionDoc F} {t np} : t ∈ d.tables → np ∈ t.predictors →
      Mentioned (.regression d) np.name
  | derived {h : MiningHead F} {segs df f} : df ∈ h.localTransformations → f ∈ exprFields df.expr →
      Mentioned (.mining h segs) f
  | segment {h : MiningHead F} {segs : List (SegDoc F)} {id ps es e f} :
      SegDoc.mk id ps es ∈ segs → e ∈ es → Mentioned e f → Mentioned (.mining h segs) f

end Gopmml.Spec
