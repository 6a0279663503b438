import Mathlib.Data.List.Dedup
import Verif.Spec.Thresholds
import Verif.Spec.Reached
import Verif.Spec.Rounding

/-!
# A list of rows that tests documents completely (C99)

The rows are put together from the constants in the predicates alone; no document is evaluated to find
them.
-/

namespace Gopmml.Spec
open F64

/-- The largest float64, `(2^53 - 1) * 2^971`. -/
def largest : F64 := ofRat false (9007199254740991 * pow2 971)

/-- The float64 nearest to the middle between two finite float64. -/
def middle (a b : F64) : Option F64 :=
  match a.val, b.val with
  | some p, some q => if p < q then some (ofRat false ((p + q) / 2)) else none
  | _, _ => none

/-- The constants, the ends of the range, and a number between any two of these. -/
def points (ks : List F64) : List F64 :=
  let base := .inf true :: F64.neg largest :: largest :: .inf false :: ks
  .nan :: (base ++ base.flatMap fun a => base.filterMap fun b => middle a b)

/-- The constants and the numbers next to them. -/
def wholes (ns : List Int) : List Int := 0 :: ns.flatMap fun n => [n - 1, n, n + 1]

/-- Values of a field of the type that is compared with the constants: one for each way the comparisons can
turn out. The first stands for a field that is not in the row. -/
def sampleValues (dt : DataType) (cs : List String) : List (Option (GoVal F64)) :=
  none :: some .nil :: List.map some (match dt with
  | .double | .float =>
    (points (cs.filterMap fun c => Lib.parseFloat c)).flatMap fun x => [.f64 x, .str (Lib.fmtF64 x)]
  | .integer => (wholes (cs.filterMap parseInt)).flatMap fun n => [.int .int64 n, .int .int n]
  | .boolean => [.bool true, .bool false, .int .int 0]
  | .string => .int .int 0 :: cs.map .str
  | .other _ => [.int .int 0])

/-- The row with this value, or without this field. -/
def putValue (r : GoMap (GoVal F64)) (f : String) : Option (GoVal F64) → GoMap (GoVal F64)
  | none => r.erase f
  | some v => r.insert f v

/-- All combinations of the sample values of the fields. -/
def testRows (ty : String → DataType) (cs : String → List String) : List String → List (GoMap (GoVal F64))
  | [] => [∅]
  | f :: fs => (testRows ty cs fs).flatMap fun r => (sampleValues (ty f) (cs f)).map fun v => putValue r f v

/-- The document mentions only the fields `fs`, declares them with the types `ty`, and does nothing with them
but compare them with the constants `cs`. -/
structure TestsOnly (fs : List String) (ty : String → DataType) (cs : String → List String) (dd : List DataField)
    (td : TD F64) (e : ModelElem F64) : Prop where
  fields : ∀ f, Mentioned e f → f ∈ fs
  types : ∀ f dt, Declared dd td e f dt → dt = ty f
  constants : ∀ s, PredicateIn s e → s.value ∈ cs s.field
  free : ∀ f, ¬ Computes e f

/-! The fields, types and constants collected from the documents. -/

section
variable {F : Type}

mutual
/-- The comparisons in the document. -/
def docSimples : ModelElem F → List (SimplePred F)
  | .tree d => (allNodes d.node).flatMap fun n => (n.pred.map simples).getD []
  | .mining _ segs => segsSimples segs
  | _ => []
def segsSimples : List (SegDoc F) → List (SimplePred F)
  | [] => []
  | .mk _ _ es :: segs => docsSimples es ++ segsSimples segs
def docsSimples : List (ModelElem F) → List (SimplePred F)
  | [] => []
  | e :: es => docSimples e ++ docsSimples es
end

mutual
/-- The fields the document computes with. -/
def docComputed : ModelElem F → List String
  | .tree d => d.localTransformations.flatMap fun df => exprFields df.expr
  | .regression d => d.tables.flatMap fun t => t.predictors.map (·.name)
  | .mining h segs => (h.localTransformations.flatMap fun df => exprFields df.expr) ++ segsComputed segs
  | .other _ => []
def segsComputed : List (SegDoc F) → List String
  | [] => []
  | .mk _ _ es :: segs => docsComputed es ++ segsComputed segs
def docsComputed : List (ModelElem F) → List String
  | [] => []
  | e :: es => docComputed e ++ docsComputed es
end

mutual
/-- The derived fields of the document. -/
def docDerived : ModelElem F → List (DerivedField F)
  | .tree d => d.localTransformations
  | .mining h segs => h.localTransformations ++ segsDerived segs
  | _ => []
def segsDerived : List (SegDoc F) → List (DerivedField F)
  | [] => []
  | .mk _ _ es :: segs => docsDerived es ++ segsDerived segs
def docsDerived : List (ModelElem F) → List (DerivedField F)
  | [] => []
  | e :: es => docDerived e ++ docsDerived es
end

/-- The declarations of the document and its dictionaries. -/
def docTypes (dd : List DataField) (td : TD F) (e : ModelElem F) : List (String × DataType) :=
  (dd.map fun d => (d.name, d.dataType)) ++ (td.map fun d => (d.name, d.dataType)) ++
    (docDerived e).map fun d => (d.name, d.dataType)

/-- No field is declared with two types. -/
def oneType (ts : List (String × DataType)) : Bool := ts.all fun a => ts.all fun b => a.1 != b.1 || a.2 == b.2

/-- The type a field is declared with. -/
def typeOf (ts : List (String × DataType)) (f : String) : DataType := (ts.lookup f).getD .string

/-- The constants a field is compared with. -/
def constantsOf (ss : List (SimplePred F)) (f : String) : List String :=
  ((ss.filter fun s => s.field = f).map (·.value)).dedup

/-- The rows that test the documents with these comparisons and declarations. -/
def forestRows (ss : List (SimplePred F)) (ts : List (String × DataType)) : List (GoMap (GoVal F64)) :=
  testRows (typeOf ts) (constantsOf ss) (ss.map (·.field)).dedup

end

end Gopmml.Spec
