import Verif.Spec.Rewrite
import Verif.Spec.Build
import Verif.Model.F64

/-!
# Specialising documents to a region of inputs (C100)

What is known about the fields decides some of the tests; those tests, and the children that then make no
difference, are left out.
-/

namespace Gopmml.Spec
open Gopmml

/-- What is known about a field of the row: nothing, that it has no value, its value, or that it is a float64
between two bounds. -/
inductive Region where
  | any
  | absent
  | is (v : GoVal F64)
  | between (lo hi : F64)
  deriving DecidableEq

/-- The value a row has for a field is as known. -/
def Region.Holds : Region → Option (GoVal F64) → Prop
  | .any, _ => True
  | .absent, v => v = none
  | .is w, v => v = some w
  | .between lo hi, v => ∃ x, v = some (.f64 x) ∧ F64.le lo x = true ∧ F64.le x hi = true

/-- What is known about each field. -/
abbrev Box := String → Region

/-- A row that is as known. -/
def Box.Has (B : Box) (row : Row F64) : Prop := ∀ f, (B f).Holds (row.get f)

/-- Outcomes a test may have. -/
structure Outcomes where
  t : Bool
  f : Bool
  u : Bool
  deriving DecidableEq, Repr

namespace Outcomes

def has (a : Outcomes) : PredRes → Bool
  | .t => a.t
  | .f => a.f
  | .u => a.u

/-- Exactly this outcome. -/
def only : PredRes → Outcomes
  | .t => ⟨true, false, false⟩
  | .f => ⟨false, true, false⟩
  | .u => ⟨false, false, true⟩

def all (a : Outcomes) (P : PredRes → Bool) : Bool := (!a.t || P .t) && (!a.f || P .f) && (!a.u || P .u)

/-- The number of true ones may be even; it may be odd. -/
def parity : List Outcomes → Bool × Bool
  | [] => (true, false)
  | a :: l => (a.f && (parity l).1 || a.t && (parity l).2, a.f && (parity l).2 || a.t && (parity l).1)

/-- The first one that is not unknown. -/
def first : List Outcomes → Outcomes
  | [] => only .u
  | a :: l => ⟨a.t || a.u && (first l).t, a.f || a.u && (first l).f, a.u && (first l).u⟩

/-- The outcomes of a compound test. -/
def combine : BoolOp → List Outcomes → Outcomes
  | .and, l => ⟨l.all (·.t), l.any (·.f), l.all (fun a => a.t || a.u) && l.any (·.u)⟩
  | .or, l => ⟨l.any (·.t), l.all (·.f), l.all (fun a => a.f || a.u) && l.any (·.u)⟩
  | .xor, l => ⟨(parity l).2, (parity l).1, l.any (·.u)⟩
  | .surrogate, l => first l
  | .other _, _ => only .f

end Outcomes

/-- The outcomes of comparing a float64 between `lo` and `hi` with a constant. -/
def betweenOutcomes (dt : DataType) (op : SimpleOp) (text : String) (lo hi : F64) : Outcomes :=
  match op with
  | .isMissing | .other _ => .only .f
  | .isNotMissing => .only .t
  | _ =>
    if dt = .double ∨ dt = .float then
      match Lib.parseFloat (F := F64) text, op with
      | some c, .lessThan => ⟨F64.lt lo c, !F64.lt hi c, false⟩
      | some c, .lessOrEqual => ⟨F64.le lo c, !F64.le hi c, false⟩
      | some c, .greaterThan => ⟨F64.lt c hi, !F64.lt c lo, false⟩
      | some c, .greaterOrEqual => ⟨F64.le c hi, !F64.le c lo, false⟩
      | some c, .equal => ⟨F64.le lo c && F64.le c hi, !(F64.eq lo c && F64.eq c hi), false⟩
      | some c, .notEqual => ⟨!(F64.eq lo c && F64.eq c hi), F64.le lo c && F64.le c hi, false⟩
      | _, _ => ⟨true, true, false⟩
    else ⟨true, true, false⟩

/-- The outcomes of a comparison. -/
def leafOutcomes (types : FieldTypes) (B : Box) (s : SimplePred F64) : Outcomes :=
  match B s.field with
  | .any => ⟨true, true, true⟩
  | .absent => .only (if s.op = .isMissing then .t else .u)
  | .is v => match types[s.field]? with
    | none => .only .f
    | some dt => .only (ofBool (satisfies dt s.op s.value v))
  | .between lo hi => match types[s.field]? with
    | none => .only .f
    | some dt => betweenOutcomes dt s.op s.value lo hi

section
variable {F : Type}

/-- The outcomes of an operand. -/
def operandOutcomes (leaf : SimplePred F → Outcomes) : Pred F → Outcomes
  | .true_ => .only .u
  | .false_ => .only .u
  | .set _ => .only .f
  | .simple p => leaf p
  | .compound op ps => .combine op (operandsOutcomes leaf ps)
where
  operandsOutcomes (leaf : SimplePred F → Outcomes) : List (Pred F) → List Outcomes
    | [] => []
    | p :: ps => operandOutcomes leaf p :: operandsOutcomes leaf ps

/-- The outcomes of a test. -/
def testOutcomes (leaf : SimplePred F → Outcomes) : Pred F → Outcomes
  | .true_ => .only .t
  | .false_ => .only .f
  | p => operandOutcomes leaf p

/-- All outcomes the test of a node may have are of this kind. -/
def certain (out : Pred F → Outcomes) (P : PredRes → Bool) : Option (Pred F) → Bool
  | none => false
  | some p => (out p).all P

/-- The test, written as a constant if it is decided. -/
def specialTest (out : Pred F → Outcomes) (p : Option (Pred F)) : Option (Pred F) :=
  if certain out (· == .t) p then some .true_
  else if certain out (· == .f) p then some .false_
  else p

mutual
/-- The tree under a node, specialised. -/
def specialNode (out : Pred F → Outcomes) (s : MissingValueStrategy) (nt : NoTrueChildStrategy) : Node F → Node F
  | .mk id dc score rc ds ns p =>
    -- returnNullPrediction tells leaves from other nodes
    .mk id dc score rc ds (if nt = .returnNullPrediction ∧ specialNodes out s nt dc ns = [] then ns
      else specialNodes out s nt dc ns) (specialTest out p)
def specialNodes (out : Pred F → Outcomes) (s : MissingValueStrategy) (nt : NoTrueChildStrategy) (dc : String) :
    List (Node F) → List (Node F)
  | [] => []
  | n :: ns =>
    if certain out (skips s dc n.id) n.pred then specialNodes out s nt dc ns
    else if certain out (settles s) n.pred then [specialNode out s nt n]
    else specialNode out s nt n :: specialNodes out s nt dc ns
end
end

/-- The tree model, specialised to the rows in the box. -/
def specialTree (B : Box) (dd : List DataField) (td : TD F64) (d : TreeDoc F64) : TreeDoc F64 :=
  let out := testOutcomes (leafOutcomes (treeTypes dd td d) B)
  { d with node := specialNode out d.missingValueStrategy d.noTrueChildStrategy d.node }

mutual
/-- The document, specialised to the rows in the box. -/
def specialDoc (B : Box) (dd : List DataField) : ModelElem F64 → TD F64 → ModelElem F64
  | .tree d, td => .tree (specialTree B dd td d)
  | .mining h segs, td => .mining h (specialSegs B dd segs (td ++ h.localTransformations))
  | .regression d, _ => .regression d
  | .other k, _ => .other k
def specialSegs (B : Box) (dd : List DataField) : List (SegDoc F64) → TD F64 → List (SegDoc F64)
  | [], _ => []
  | .mk id ps es :: segs, td => .mk id ps (specialDocs B dd es td) ::
      specialSegs B dd segs (td ++ localFieldsAll es)
def specialDocs (B : Box) (dd : List DataField) : List (ModelElem F64) → TD F64 → List (ModelElem F64)
  | [], _ => []
  | e :: es, td => specialDoc B dd e td :: specialDocs B dd es (td ++ localFields e)
end

end Gopmml.Spec
