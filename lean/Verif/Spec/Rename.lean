import Verif.Spec.Document
import Mathlib.Logic.Equiv.Defs

/-!
# Renaming the fields of a document

`ρ` gives every field its new name.  Labels, node ids, columns, categories and function names are
not field names and stay as they are.
-/

namespace Gopmml.Spec

variable {F : Type}

/-- The names with a meaning of their own: no name, the score of a regression tree and the
probabilities of a classification tree. -/
def Reserved (k : String) : Prop := k = "" ∨ k = "score" ∨ ∃ v, k = "probability(" ++ v ++ ")"

section
variable (ρ : String → String)

mutual
def renPred : Pred F → Pred F
  | .true_ => .true_
  | .false_ => .false_
  | .simple p => .simple { p with field := ρ p.field }
  | .set f => .set (ρ f)
  | .compound op ps => .compound op (renPreds ps)
def renPreds : List (Pred F) → List (Pred F)
  | [] => []
  | p :: ps => renPred p :: renPreds ps
end

mutual
def renNode : Node F → Node F
  | .mk id dc score rc ds ns p => .mk id dc score rc ds (renNodes ns) (p.map (renPred ρ))
def renNodes : List (Node F) → List (Node F)
  | [] => []
  | n :: ns => renNode n :: renNodes ns
end

mutual
def renExpr : Expr F → Expr F
  | .fieldRef f => .fieldRef (ρ f)
  | .const dt v => .const dt v
  | .apply fn args => .apply fn (renExprs args)
  | .mapValues m =>
    .mapValues { m with fieldColumnPairs := m.fieldColumnPairs.map fun p => { p with field := ρ p.field } }
  | .other k => .other k
def renExprs : List (Expr F) → List (Expr F)
  | [] => []
  | e :: es => renExpr e :: renExprs es
end

def renDerived (d : DerivedField F) : DerivedField F := { d with name := ρ d.name, expr := renExpr ρ d.expr }

def renData (d : DataField) : DataField := { d with name := ρ d.name }

def renMining (f : MiningField) : MiningField := { f with name := ρ f.name }

def renOutput (f : OutputField) : OutputField := { f with name := ρ f.name }

def renTarget (t : Target F) : Target F := { t with field := ρ t.field }

/-- The columns of verification rows are not fields. -/
def renVerification (v : ModelVerification F) : ModelVerification F :=
  { v with fields := v.fields.map fun f => { f with field := ρ f.field } }

def renTree (d : TreeDoc F) : TreeDoc F :=
  { d with
    localTransformations := d.localTransformations.map (renDerived ρ)
    miningFields := d.miningFields.map (renMining ρ)
    verification := d.verification.map (renVerification ρ)
    node := renNode ρ d.node }

def renTable (t : RegressionTable F) : RegressionTable F :=
  { t with predictors := t.predictors.map fun np => { np with name := ρ np.name } }

def renRegression (d : RegressionDoc F) : RegressionDoc F :=
  { d with
    tables := d.tables.map (renTable ρ)
    outputs := d.outputs.map (renOutput ρ)
    verification := d.verification.map (renVerification ρ) }

def renHead (h : MiningHead F) : MiningHead F :=
  { h with
    verification := h.verification.map (renVerification ρ)
    miningFields := h.miningFields.map (renMining ρ)
    localTransformations := h.localTransformations.map (renDerived ρ)
    outputs := h.outputs.map (renOutput ρ)
    targets := h.targets.map (renTarget ρ) }

mutual
/-- The document with its fields renamed. -/
def renElem : ModelElem F → ModelElem F
  | .tree d => .tree (renTree ρ d)
  | .regression d => .regression (renRegression ρ d)
  | .mining h segs => .mining (renHead ρ h) (renSegs segs)
  | .other k => .other k
def renSegs : List (SegDoc F) → List (SegDoc F)
  | [] => []
  | .mk id ps es :: segs => .mk id (ps.map (renPred ρ)) (renElems es) :: renSegs segs
def renElems : List (ModelElem F) → List (ModelElem F)
  | [] => []
  | e :: es => renElem e :: renElems es
end

/-- The errors that name a field name the new one. -/
def renErr : Err → Err
  | .unknownFieldType f => .unknownFieldType (ρ f)
  | .missingTerm f => .missingTerm (ρ f)
  | .verifyNotProduced f => .verifyNotProduced (ρ f)
  | e => e

def renFault : Fault → Fault
  | .err e => .err (renErr ρ e)
  | .panic p => .panic p

/-- The same map under the new names. -/
def RenMap {V : Type} (m m' : GoMap V) : Prop := ∀ k : String, m'[ρ k]? = m[k]?

/-- The same row (or returned row) under the new names. -/
def RenRow (r r' : Row F) : Prop :=
  match r, r' with
  | none, none => True
  | some m, some m' => RenMap ρ m m'
  | _, _ => False

/-- The same outcome under the new names. -/
def RenRes {α β : Type} (R : α → β → Prop) (r : Res α) (r' : Res β) : Prop :=
  match r, r' with
  | .ok a, .ok b => R a b
  | .error e, .error e' => e' = renFault ρ e
  | _, _ => False

/-- Evaluators that do the same under the new names. -/
def Alpha [Arith F] [Lib F] [Trans F] (M M' : EModel F) : Prop :=
  ∀ (o : MapOrd) (row row' : Row F), RenRow ρ row row' →
    RenRes ρ (RenRow ρ) (EModel.evaluate o M row).res (EModel.evaluate o M' row').res ∧
    RenRow ρ (EModel.evaluate o M row).row (EModel.evaluate o M' row').row

end

end Gopmml.Spec
