import Verif.Spec.Safe
import Verif.Spec.Verify

/-!
# What an error says about the document and the row

Read off the document as it is written: where the thing complained about stands.
-/

namespace Gopmml.Spec

variable {F : Type}

/-- `e'` is the model `e` or a model inside it; `lts` are the derived fields of the ensembles
around it. -/
inductive Inside : TD F → ModelElem F → ModelElem F → Prop
  | self {e} : Inside [] e e
  | segment {lts h segs id ps e e'} : SegDoc.mk id ps [e] ∈ segs → Inside lts e' e →
      Inside (h.localTransformations ++ lts) e' (.mining h segs)

def IsIn (e' e : ModelElem F) : Prop := ∃ lts, Inside lts e' e

/-- A part of an expression. -/
inductive Part : Expr F → Expr F → Prop
  | self {x} : Part x x
  | arg {x fn args a} : a ∈ args → Part x a → Part x (.apply fn args)

/-- The derived fields a model itself writes down. -/
def ownDerived : ModelElem F → TD F
  | .tree d => d.localTransformations
  | .mining h _ => h.localTransformations
  | _ => []

/-- The derived field is written in the model or in a model inside it. -/
def Derives (e : ModelElem F) (df : DerivedField F) : Prop := ∃ e', IsIn e' e ∧ df ∈ ownDerived e'

/-- The expression is written in a derived field of the model or of a model inside it. -/
def Occurs (x : Expr F) (e : ModelElem F) : Prop := ∃ df, Derives e df ∧ Part x df.expr

/-- How many arguments the functions of the library take. -/
def takes : String → Option Nat
  | "+" | "-" | "*" | "/" => some 2
  | "isMissing" | "isNotMissing" => some 1
  | "if" => some 3
  | _ => none

/-- The simple predicate stands at a node of the tree. -/
def Tests (d : TreeDoc F) (p : SimplePred F) : Prop := ∃ n q, Sub n d.node ∧ n.pred = some q ∧ p ∈ simples q

/-- A text a regression tree may be asked to report. -/
def MayReport (dd : List DataField) (d : TreeDoc F) (text : String) : Prop :=
  if goesDown d.missingValueStrategy = true ∨ d.missingValueStrategy = .lastPrediction then
    ∃ n, Sub n d.node ∧ numberText dd d n = some text
  else
    text ∈ targetValues dd (targetOf d.miningFields) ∨
    ∃ n, Sub n d.node ∧ (text = n.score ∨ ∃ s ∈ n.dists, text = s.value)

/-- A regression whose normalization the library does not have for its kind. -/
def strangeNormalization (d : RegressionDoc F) : Bool :=
  match d.functionName with
  | .regression => !linkKnown d.normalization
  | .classification => if d.outputs.length = 2 then !linkKnown d.normalization else !weightKnown d.normalization
  | .other _ => false

/-- No field of the row is lost, and a row there is stays one. -/
def KeepsRow (row row' : Row F) : Prop :=
  (∀ k, row'.get k = none → row.get k = none) ∧ (row' = none → row = none)

section
variable [Lib F]

/-- The reasons for which evaluating a constructed model on a row may stop. -/
inductive Blamed (dd : List DataField) (e : ModelElem F) (row : Row F) : Fault → Prop
  /-- the row lacks a field that a regression reads -/
  | missingTerm {d n} : IsIn (.regression d) e → n ∈ tableFields d → row.get n = none →
      Blamed dd e row (.err (.missingTerm n))
  /-- a regression of an unknown kind -/
  | regressionFunction {d s} : IsIn (.regression d) e → d.functionName = .other s →
      Blamed dd e row (.err .unrecognizedRegressionFunction)
  /-- a regression proper with several tables or none -/
  | tables {d} : IsIn (.regression d) e → d.functionName = .regression → d.tables.length ≠ 1 →
      Blamed dd e row (.err (.tableCount d.tables.length))
  /-- a regression proper with several outputs or none -/
  | outputs {d} : IsIn (.regression d) e → d.functionName = .regression → d.outputs.length ≠ 1 →
      Blamed dd e row (.err (.outputCount d.outputs.length))
  /-- a regression with a normalization that does not exist for it -/
  | normalization {d} : IsIn (.regression d) e → strangeNormalization d = true →
      Blamed dd e row (.err .unsupportedNormalization)
  /-- a constant that is not a number -/
  | constant {text} : Occurs (.const .double text) e → readable F .double text = false →
      Blamed dd e row (.err (.parse text))
  /-- a constant of another type -/
  | constantType {dt text} : Occurs (.const dt text) e → dt ≠ .double →
      Blamed dd e row (.err .unsupportedDataType)
  /-- a default that cannot be read at its type -/
  | default {m text} : Occurs (.mapValues m) e → m.defaultValue = some text →
      (∀ s, m.dataType ≠ .other s) → readable F m.dataType text = false →
      Blamed dd e row (.err (.parse text))
  /-- a default of an unknown type -/
  | defaultType {m text s} : Occurs (.mapValues m) e → m.defaultValue = some text →
      m.dataType = .other s → Blamed dd e row (.err .invalidDataType)
  /-- a table without default whose input the row does not hold -/
  | noInput {m} : Occurs (.mapValues m) e → m.defaultValue = none →
      (∀ p ∈ m.fieldColumnPairs, p.column = "data:input" → row.get p.field = none) →
      Blamed dd e row (.err .unexpectedExpression)
  /-- a known function with a wrong number of arguments -/
  | arity {fn args n} : Occurs (.apply fn args) e → takes fn = some n → args.length ≠ n →
      Blamed dd e row (.err (.arity fn args.length))
  /-- an unknown function -/
  | unknownFunction {fn args} : Occurs (.apply fn args) e → takes fn = none → fn ≠ "sum" →
      Blamed dd e row (.err (.unsupportedApply fn))
  /-- an expression of a kind the library does not know -/
  | unknownExpression {k} : Occurs (.other k) e → Blamed dd e row (.err .unsupportedTransformation)
  /-- an ensemble that takes the first of no segments -/
  | noSegments {h} : IsIn (.mining h []) e → h.method = .selectFirst → Blamed dd e row (.err .noSegments)
  /-- a regression tree with a label that is not a number -/
  | label {d text} : IsIn (.tree d) e → d.functionName = .regression → MayReport dd d text →
      readable F .double text = false → Blamed dd e row (.err (.parse text))
  /-- a regression tree with nothing to report -/
  | noLabel {d} : IsIn (.tree d) e → d.functionName = .regression →
      (d.noTrueChildStrategy = .returnNullPrediction ∨
        targetOf d.miningFields ≠ "" ∧ targetValues dd (targetOf d.miningFields) = [] ∨
        goesDown d.missingValueStrategy = false ∧ d.missingValueStrategy ≠ .lastPrediction) →
      Blamed dd e row (.panic .indexOutOfRange)
  /-- a node without a predicate -/
  | noPredicate {d n} : IsIn (.tree d) e → Sub n d.node → n.pred = none → Blamed dd e row (.panic .nilFuncCall)
  /-- there is no row to write to -/
  | noRow : row = none → Blamed dd e row (.panic .nilMapWrite)

/-- The field has this type somewhere in the dictionaries or in the document. -/
def HasType (dd : List DataField) (td : TD F) (e : ModelElem F) (f : String) (dt : DataType) : Prop :=
  (∃ x ∈ dd, x.name = f ∧ x.dataType = dt) ∨ (∃ x ∈ td, x.name = f ∧ x.dataType = dt) ∨
  ∃ x, Derives e x ∧ x.name = f ∧ x.dataType = dt

/-- The reasons for which a model may not be constructed. -/
inductive Refused (dd : List DataField) (td : TD F) (e : ModelElem F) : Err → Prop
  /-- an element that is not a model the library knows -/
  | kind {k} : IsIn (.other k) e → Refused dd td e .invalidModelType
  /-- a tree that neither classifies nor computes a number -/
  | function {d} : IsIn (.tree d) e → d.functionName ≠ .classification → d.functionName ≠ .regression →
      Refused dd td e .unsupportedMiningFunction
  /-- a test of a field that is declared nowhere around it -/
  | field {d p lts} : Inside lts (.tree d) e → Tests d p → (∀ x ∈ dd, x.name ≠ p.field) →
      (∀ x ∈ td ++ (lts ++ d.localTransformations), x.name ≠ p.field) →
      Refused dd td e (.unknownFieldType p.field)
  /-- a test against a text that is no value of the field -/
  | constant {d p dt} : IsIn (.tree d) e → Tests d p → HasType dd td e p.field dt → (∀ s, dt ≠ .other s) →
      readable F dt p.value = false → Refused dd td e (.parse p.value)
  /-- a test of a field of an unknown type -/
  | type {d p s} : IsIn (.tree d) e → Tests d p → HasType dd td e p.field (.other s) →
      Refused dd td e .invalidDataType
  /-- an ensemble with a method the library does not have -/
  | method {h segs} : IsIn (.mining h segs) e →
      h.method ∉ ([.empty, .sum, .average, .modelChain, .selectFirst] : List MultipleModelMethod) →
      Refused dd td e .unsupportedMultipleModelMethod
  /-- an ensemble with an output that is no probability -/
  | output {h segs o} : IsIn (.mining h segs) e → o ∈ h.outputs → o.feature ≠ .empty →
      o.feature ≠ .probability → Refused dd td e .unsupportedOutputFeature
  /-- a segment with several models or none -/
  | group {h segs id ps ms} : IsIn (.mining h segs) e → SegDoc.mk id ps ms ∈ segs → ms.length ≠ 1 →
      Refused dd td e (.segmentGroupSize ms.length)

end

/-- The reasons for which a model may not pass its verification table: the column, the row, the
name and the number complained about. -/
inductive Unverified [Arith F] [Lib F] [Trans F] (m : EModel F) (mv : ModelVerification F) : Fault → Prop
  /-- a column without prefix -/
  | column {v} : v ∈ mv.fields → (∀ col, v.column ≠ "data:" ++ col) → Unverified m mv (.err (.verifyPrefix v.column))
  /-- a row of the table the model does not answer -/
  | fails {r input o f} : r ∈ mv.rows → InputRow mv r input → (m.evaluate o (some input)).res = .error f →
      Unverified m mv f
  /-- an answer without the field -/
  | missing {r input o out k v n} : r ∈ mv.rows → InputRow mv r input →
      (m.evaluate o (some input)).res = .ok out → r[k]? = some v → outputField mv k = some n →
      Row.get out n = none → Unverified m mv (.err (.verifyNotProduced n))
  /-- an answer with another number in the field -/
  | differs {r input o out k v n p} : r ∈ mv.rows → InputRow mv r input →
      (m.evaluate o (some input)).res = .ok out → r[k]? = some v → outputField mv k = some n →
      Row.get out n = some p → ¬ Close v.float64 p.float64 → Unverified m mv (.err (.verifyMismatch k))

end Gopmml.Spec
