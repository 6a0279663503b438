import Verif.Model.Mining
import Verif.Model.F64

/-!
# Documents and rows with other numbers (C81)

`φ` takes every number to a number of another kind. Texts (field names, labels, constants of tests) stay
as they are: they become numbers only when they are parsed.
-/

namespace Gopmml.Spec

variable {F G : Type}

section
variable (φ : F → G)

/-- A map with its values changed. -/
def onValues {V W : Type} (f : V → W) (m : GoMap V) : GoMap W := m.map fun _ v => f v

def numVal : GoVal F → GoVal G
  | .nil => .nil
  | .bool b => .bool b
  | .str s => .str s
  | .int k n => .int k n
  | .f32 x => .f32 (φ x)
  | .f64 x => .f64 (φ x)
  | .other t s f => .other t s f

/-- A row or an answer. -/
def numRow (r : Row F) : Row G := r.map (onValues (numVal φ))

mutual
def numPred : Pred F → Pred G
  | .true_ => .true_
  | .false_ => .false_
  | .simple p => .simple ⟨p.field, p.op, p.value, numVal φ p.raw⟩
  | .set f => .set f
  | .compound op ps => .compound op (numPreds ps)
def numPreds : List (Pred F) → List (Pred G)
  | [] => []
  | p :: ps => numPred p :: numPreds ps
end

def numDist (s : ScoreDistribution F) : ScoreDistribution G :=
  ⟨s.value, φ s.recordCount, s.confidence.map φ, s.probability.map φ⟩

mutual
def numNode : Node F → Node G
  | .mk id dc score rc ds ns p => .mk id dc score (φ rc) (ds.map (numDist φ)) (numNodes ns) (p.map (numPred φ))
def numNodes : List (Node F) → List (Node G)
  | [] => []
  | n :: ns => numNode n :: numNodes ns
end

def numMapValues (m : MapValues F) : MapValues G :=
  ⟨m.defaultValue, m.dataType, m.fieldColumnPairs, m.inlineTables.map (·.map (onValues (numVal φ)))⟩

mutual
def numExpr : Expr F → Expr G
  | .fieldRef f => .fieldRef f
  | .const dt v => .const dt v
  | .apply fn args => .apply fn (numExprs args)
  | .mapValues m => .mapValues (numMapValues φ m)
  | .other k => .other k
def numExprs : List (Expr F) → List (Expr G)
  | [] => []
  | e :: es => numExpr e :: numExprs es
end

def numDerived (d : DerivedField F) : DerivedField G := ⟨d.name, d.dataType, d.opType, numExpr φ d.expr⟩

def numVerification (v : ModelVerification F) : ModelVerification G :=
  ⟨v.fields.map fun f => ⟨f.field, f.column, f.precision.map φ⟩, v.rows.map (onValues (numVal φ))⟩

def numTree (d : TreeDoc F) : TreeDoc G where
  functionName := d.functionName
  missingValuePenalty := φ d.missingValuePenalty
  missingValueStrategy := d.missingValueStrategy
  noTrueChildStrategy := d.noTrueChildStrategy
  localTransformations := d.localTransformations.map (numDerived φ)
  miningFields := d.miningFields
  verification := d.verification.map (numVerification φ)
  node := numNode φ d.node

def numTable (t : RegressionTable F) : RegressionTable G :=
  ⟨φ t.intercept, t.targetCategory, t.predictors.map fun np => ⟨np.name, φ np.coefficient, np.exponent⟩⟩

def numRegression (d : RegressionDoc F) : RegressionDoc G :=
  ⟨d.functionName, d.normalization, d.tables.map (numTable φ), d.outputs, d.verification.map (numVerification φ)⟩

def numTarget (t : Target F) : Target G := ⟨t.field, t.rescaleConstant.map φ, t.rescaleFactor.map φ⟩

def numHead (h : MiningHead F) : MiningHead G where
  functionName := h.functionName
  method := h.method
  verification := h.verification.map (numVerification φ)
  miningFields := h.miningFields
  localTransformations := h.localTransformations.map (numDerived φ)
  outputs := h.outputs
  targets := h.targets.map (numTarget φ)

mutual
/-- The document with other numbers. -/
def numElem : ModelElem F → ModelElem G
  | .tree d => .tree (numTree φ d)
  | .regression d => .regression (numRegression φ d)
  | .mining h segs => .mining (numHead φ h) (numSegs segs)
  | .other k => .other k
def numSegs : List (SegDoc F) → List (SegDoc G)
  | [] => []
  | .mk id ps es :: segs => .mk id (ps.map (numPred φ)) (numElems es) :: numSegs segs
def numElems : List (ModelElem F) → List (ModelElem G)
  | [] => []
  | e :: es => numElem e :: numElems es
end

def numScore (s : ScoreDist F) : ScoreDist G := ⟨s.value, φ s.confidence, φ s.probability, φ s.recordCount⟩

mutual
def numCNode : CNode F → CNode G
  | .mk i dc sd sc p cs =>
    .mk i dc (sd.map (numScore φ)) (numScore φ sc) (p.map (numPred φ)) (numCNodes cs)
def numCNodes : List (CNode F) → List (CNode G)
  | [] => []
  | n :: ns => numCNode n :: numCNodes ns
end

def numTreeModel (m : TreeModel F) : TreeModel G where
  validated := m.validated
  compiled := m.compiled
  dd := m.dd
  model := numTree φ m.model
  fieldTypes := m.fieldTypes
  root := numCNode φ m.root
  outKeys := m.outKeys
  targetField := m.targetField

def numState (s : MiningState F) : MiningState G where
  validated := s.validated
  compiled := s.compiled
  dd := s.dd
  head := numHead φ s.head
  segments := numSegs φ s.segments
  defaultValues := onValues (numVal φ) s.defaultValues
  targetField := s.targetField
  outputFields := s.outputFields
  targets := s.targets.map (numTarget φ)

mutual
/-- The evaluator with other numbers. -/
def numModel : EModel F → EModel G
  | .tree m => .tree (numTreeModel φ m)
  | .regression d => .regression (numRegression φ d)
  | .mining s ms => .mining (numState φ s) (numModels ms)
def numModels : List (EModel F) → List (EModel G)
  | [] => []
  | m :: ms => numModel m :: numModels ms
end

end

/-- `φ` goes along with everything the code does with numbers, products apart. -/
structure GoesAlong (φ : F → G) [Arith F] [Arith G] [Lib F] [Lib G] [Trans F] [Trans G] : Prop where
  lit : ∀ n d, φ (Arith.lit n d) = Arith.lit n d
  add : ∀ a b, φ (Arith.add a b) = Arith.add (φ a) (φ b)
  sub : ∀ a b, φ (Arith.sub a b) = Arith.sub (φ a) (φ b)
  div : ∀ a b, φ (Arith.div a b) = Arith.div (φ a) (φ b)
  neg : ∀ a, φ (Arith.neg a) = Arith.neg (φ a)
  abs : ∀ a, φ (Arith.abs a) = Arith.abs (φ a)
  lt : ∀ a b, Arith.lt (φ a) (φ b) = Arith.lt a b
  le : ∀ a b, Arith.le (φ a) (φ b) = Arith.le a b
  eq : ∀ a b, Arith.eq (φ a) (φ b) = Arith.eq a b
  ofInt : ∀ n, φ (Arith.ofInt n) = Arith.ofInt n
  parse : ∀ s, (Lib.parseFloat s : Option G) = (Lib.parseFloat s).map φ
  text64 : ∀ a, Lib.fmtF64 (φ a) = Lib.fmtF64 a
  text32 : ∀ a, Lib.fmtF32 (φ a) = Lib.fmtF32 a
  exp : ∀ a, φ (Trans.exp a) = Trans.exp (φ a)
  atan : ∀ a, φ (Trans.atan a) = Trans.atan (φ a)
  invPi : φ Trans.invPi = Trans.invPi

/-- `φ` goes along with products. -/
def Products (φ : F → G) [Arith F] [Arith G] : Prop := ∀ a b, φ (Arith.mul a b) = Arith.mul (φ a) (φ b)

mutual
/-- No product is computed. -/
def ExprPlain : Expr F → Prop
  | .apply fn args => fn ≠ "*" ∧ ExprsPlain args
  | _ => True
def ExprsPlain : List (Expr F) → Prop
  | [] => True
  | e :: es => ExprPlain e ∧ ExprsPlain es
end

mutual
/-- No product is computed by the models of a document. -/
def Plain : ModelElem F → Prop
  | .tree d => d.missingValueStrategy ≠ .defaultChild ∧ d.missingValueStrategy ≠ .weightedConfidence ∧
      ∀ t ∈ d.localTransformations, ExprPlain t.expr
  | .regression d => d.functionName = .classification ∧ d.outputs.length = 2 ∧ d.normalization ≠ .cauchit
  | .mining h segs => (∀ t ∈ h.targets, t.rescaleFactor = none) ∧
      (∀ t ∈ h.localTransformations, ExprPlain t.expr) ∧ PlainSegs segs
  | .other _ => True
def PlainSegs : List (SegDoc F) → Prop
  | [] => True
  | .mk _ _ es :: segs => PlainElems es ∧ PlainSegs segs
def PlainElems : List (ModelElem F) → Prop
  | [] => True
  | e :: es => Plain e ∧ PlainElems es
end

/-- The order in which a map is visited does not depend on its values. -/
def ByKeys (o : MapOrd) : Prop :=
  ∀ site {V W : Type} (f : V → W) (l : List (String × V)),
    o.order site (l.map fun p => (p.1, f p.2)) = (o.order site l).map fun p => (p.1, f p.2)

/-- Floating point numbers that carry something the operations pass on in some way `g` and nothing looks at,
like the payload of a NaN. -/
structure Payload (g : Nat → Nat → Nat) where
  val : F64
  bits : Nat
  deriving DecidableEq

namespace Payload
variable {g : Nat → Nat → Nat}

instance : Arith (Payload g) where
  lit n d := ⟨Arith.lit n d, 0⟩
  add a b := ⟨Arith.add a.val b.val, g a.bits b.bits⟩
  sub a b := ⟨Arith.sub a.val b.val, g a.bits b.bits⟩
  mul a b := ⟨Arith.mul a.val b.val, g a.bits b.bits⟩
  div a b := ⟨Arith.div a.val b.val, g a.bits b.bits⟩
  neg a := ⟨Arith.neg a.val, a.bits⟩
  abs a := ⟨Arith.abs a.val, a.bits⟩
  lt a b := Arith.lt a.val b.val
  le a b := Arith.le a.val b.val
  eq a b := Arith.eq a.val b.val
  ofInt n := ⟨Arith.ofInt n, 0⟩
  ofInt32 n := ⟨Arith.ofInt32 n, 0⟩
  toF32 a := ⟨Arith.toF32 a.val, a.bits⟩

instance : Lib (Payload g) where
  parseFloat s := (Lib.parseFloat s).map (⟨·, 0⟩)
  fmtF64 a := Lib.fmtF64 a.val
  fmtF32 a := Lib.fmtF32 a.val

instance [Trans F64] : Trans (Payload g) where
  exp a := ⟨Trans.exp a.val, a.bits⟩
  atan a := ⟨Trans.atan a.val, a.bits⟩
  invPi := ⟨Trans.invPi, 0⟩

end Payload

end Gopmml.Spec
