import Verif.Spec.Document
import Mathlib.Data.Option.Basic

/-!
# What a model can see of a value

A caller may put the same number into the row as an `int`, a `float64` or a string. A *form* says how
much of a value counts: all of it, its value as a float, its value as an integer, what some tests say of
it, or only whether it is nil. A document looks at a field in a form if everything it does with the field
needs no more than that.
-/

namespace Gopmml.Spec

variable {F : Type}

/-- How much of a value counts; `tests` lists the tests (declared type, operator, constant) whose outcome
counts. -/
inductive Form where
  | exact | real | whole | present
  | tests (ts : List (DataType × SimpleOp × String))
  deriving DecidableEq

/-- The outcome of a test with the operator on a field of the type is determined by the value as a float,
or by the value as an integer. -/
def OfNumber (dt : DataType) (op : SimpleOp) : Form → Prop
  | .real => op ≠ .equal ∧ op ≠ .notEqual ∧ dt ≠ .integer
  | .whole => op ≠ .equal ∧ op ≠ .notEqual ∧ dt ≠ .double ∧ dt ≠ .float
  | _ => False

/-- The first form tells apart at least what the second does. -/
def Form.Covers : Form → Form → Prop
  | .exact, _ => True
  | .present, k => k = .present
  | .tests ts, k => k = .present ∨ ∃ ts', k = .tests ts' ∧ ts' ⊆ ts
  | k', k => k = k' ∨ k = .present ∨ ∃ ts, k = .tests ts ∧ ∀ t ∈ ts, OfNumber t.1 t.2.1 k'

/-- Values the form does not tell apart. -/
def Alike [Arith F] [Lib F] (k : Form) (v w : GoVal F) : Prop :=
  match k with
  | .exact => v = w
  | .real => (v = .nil ↔ w = .nil) ∧ v.float64 = w.float64
  | .whole => (v = .nil ↔ w = .nil) ∧ v.int64 = w.int64
  | .tests ts => (v = .nil ↔ w = .nil) ∧ ∀ t ∈ ts, satisfies t.1 t.2.1 t.2.2 v = satisfies t.1 t.2.1 t.2.2 w
  | .present => v = .nil ↔ w = .nil

/-- Rows the forms of the fields do not tell apart. -/
def AlikeRows [Arith F] [Lib F] (form : String → Form) (r r' : GoMap (GoVal F)) : Prop :=
  ∀ f, Option.Rel (Alike (form f)) r[f]? r'[f]?

/-- A test with the operator and constant on a field of the type needs no more than the form. -/
def TestSees (op : SimpleOp) (text : String) (dt : DataType) (k : Form) : Prop :=
  match op with
  | .isMissing | .isNotMissing | .other _ => True
  | _ => k.Covers (.tests [(dt, op, text)])

mutual
/-- Every test in a predicate needs no more than the form of its field, whatever type the field is
declared with. -/
def PredSees (declared : String → DataType → Prop) (form : String → Form) : Pred F → Prop
  | .simple p => ∀ dt, declared p.field dt → TestSees p.op p.value dt (form p.field)
  | .compound _ ps => PredsSee declared form ps
  | _ => True
def PredsSee (declared : String → DataType → Prop) (form : String → Form) : List (Pred F) → Prop
  | [] => True
  | p :: ps => PredSees declared form p ∧ PredsSee declared form ps
end

mutual
/-- The forms of the fields determine the value of an expression up to the form `k`. -/
def ExprSees (form : String → Form) (k : Form) : Expr F → Prop
  | .fieldRef f => (form f).Covers k
  | .const _ _ => True
  | .mapValues m => ∀ p ∈ m.fieldColumnPairs, form p.field = .exact
  | .other _ => True
  | .apply fn args =>
    if fn = "sum" ∨ fn = "*" ∨ fn = "+" ∨ fn = "-" ∨ fn = "/" then ExprsSee form .real args
    else if fn = "isMissing" ∨ fn = "isNotMissing" then ExprsSee form .present args
    else if fn = "if" then
      match args with
      | [c, a, b] => ExprSees form .exact c ∧ ExprSees form k a ∧ ExprSees form k b
      | _ => True
    else True
def ExprsSee (form : String → Form) (k : Form) : List (Expr F) → Prop
  | [] => True
  | e :: es => ExprSees form k e ∧ ExprsSee form k es
end

/-- A derived field keeps the forms: a continuous one is stored as a float. -/
def DerivedSees (form : String → Form) (df : DerivedField F) : Prop :=
  match df.opType with
  | .continuous => ExprSees form .real df.expr
  | .other _ => ExprSees form (form df.name) df.expr

/-- The document does nothing with a field that needs more than the form of the field. -/
inductive Sees (declared : String → DataType → Prop) (form : String → Form) : ModelElem F → Prop
  | tree {d : TreeDoc F} : (∀ n p, Sub n d.node → n.pred = some p → PredSees declared form p) →
      (∀ df ∈ d.localTransformations, DerivedSees form df) → Sees declared form (.tree d)
  | regression {d : RegressionDoc F} :
      (∀ t ∈ d.tables, ∀ np ∈ t.predictors, (form np.name).Covers .real) → Sees declared form (.regression d)
  | mining {h : MiningHead F} {segs : List (SegDoc F)} :
      (∀ df ∈ h.localTransformations, DerivedSees form df) →
      (∀ id ps es e, SegDoc.mk id ps es ∈ segs → e ∈ es → Sees declared form e) →
      Sees declared form (.mining h segs)

/-- The field is declared with the type somewhere: by the data dictionary, the transformation
dictionary or a derived field of the document. -/
def Declared (dd : List DataField) (td : TD F) (e : ModelElem F) (f : String) (dt : DataType) : Prop :=
  (∃ d ∈ dd, d.name = f ∧ d.dataType = dt) ∨ (∃ d ∈ td, d.name = f ∧ d.dataType = dt) ∨
  ∃ d, DerivedIn d e ∧ d.name = f ∧ d.dataType = dt

end Gopmml.Spec
