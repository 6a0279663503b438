import Verif.Model.F64
import Verif.Model.Structs
import Verif.Spec.Xml
import Verif.Spec.XmlText

/-!
# The normal form of a file (for C109)

The texts that occur in a document, and the one file that is written for it.
-/

namespace Gopmml.Spec
open Gopmml

section
variable {F : Type}

section
variable (T : String → Prop)

/-! ## Every text of a document has the property `T` -/

mutual
def PredTexts : Pred F → Prop
  | .simple p => T p.field ∧ T (simpleOp p.op) ∧ T p.value
  | .set f => T f
  | .compound op ps => T (boolOp op) ∧ PredsTexts ps
  | _ => True
def PredsTexts : List (Pred F) → Prop
  | [] => True
  | p :: ps => PredTexts p ∧ PredsTexts ps
end

mutual
def NodeTexts : Node F → Prop
  | .mk id dc sc _ ds ns p =>
    T id ∧ T dc ∧ T sc ∧ (∀ d ∈ ds, T d.value) ∧ (∀ q ∈ p, PredTexts T q) ∧ NodesTexts ns
def NodesTexts : List (Node F) → Prop
  | [] => True
  | n :: ns => NodeTexts n ∧ NodesTexts ns
end

def RowTexts (r : GoMap (GoVal F)) : Prop := ∀ c ∈ r.toList, ∀ s, c.2 = .str s → T s
def MapTexts (m : MapValues F) : Prop :=
  T (dataType m.dataType) ∧ (∀ s ∈ m.defaultValue, T s) ∧
    (∀ p ∈ m.fieldColumnPairs, T p.field ∧ T p.column) ∧ ∀ t ∈ m.inlineTables, ∀ r ∈ t, RowTexts T r

/-- The texts of constants are left out. -/
def ExprTexts : Expr F → Prop
  | .fieldRef f => T f
  | .const t _ => T (dataType t)
  | .apply f xs => T f ∧ ∀ x ∈ xs, ExprTexts x
  | .mapValues m => MapTexts T m
  | .other _ => True

def DerivedTexts (d : DerivedField F) : Prop :=
  T d.name ∧ T (dataType d.dataType) ∧ T (opType d.opType) ∧ ExprTexts T d.expr
def MiningFieldTexts (m : MiningField) : Prop :=
  T m.name ∧ T (usageType m.usageType) ∧ T m.outliers ∧ T m.invalidValueTreatment ∧
    ∀ s ∈ m.missingValueReplacement, T s
def OutputTexts (f : OutputField) : Prop := T f.name ∧ T (resultFeature f.feature) ∧ T f.value
def VerificationTexts (v : ModelVerification F) : Prop :=
  (∀ f ∈ v.fields, T f.field ∧ T f.column) ∧ ∀ r ∈ v.rows, RowTexts T r
def TreeTexts (d : TreeDoc F) : Prop :=
  T (miningFunction d.functionName) ∧ T (missingValueStrategy d.missingValueStrategy) ∧
  T (noTrueChildStrategy d.noTrueChildStrategy) ∧ (∀ x ∈ d.localTransformations, DerivedTexts T x) ∧
  (∀ x ∈ d.miningFields, MiningFieldTexts T x) ∧ (∀ v ∈ d.verification, VerificationTexts T v) ∧
  NodeTexts T d.node
def RegTableTexts (t : RegressionTable F) : Prop := T t.targetCategory ∧ ∀ p ∈ t.predictors, T p.name
def RegressionTexts (d : RegressionDoc F) : Prop :=
  T (miningFunction d.functionName) ∧ T (normalization d.normalization) ∧ (∀ f ∈ d.outputs, OutputTexts T f) ∧
  (∀ t ∈ d.tables, RegTableTexts T t) ∧ ∀ v ∈ d.verification, VerificationTexts T v
def HeadTexts (h : MiningHead F) : Prop :=
  T (miningFunction h.functionName) ∧ T (multipleModelMethod h.method) ∧
  (∀ v ∈ h.verification, VerificationTexts T v) ∧ (∀ x ∈ h.miningFields, MiningFieldTexts T x) ∧
  (∀ x ∈ h.localTransformations, DerivedTexts T x) ∧ (∀ f ∈ h.outputs, OutputTexts T f) ∧
  ∀ t ∈ h.targets, T t.field

mutual
def ModelTexts : ModelElem F → Prop
  | .tree d => TreeTexts T d
  | .regression d => RegressionTexts T d
  | .mining h segs => HeadTexts T h ∧ SegsTexts segs
  | .other _ => True
def ModelsTexts : List (ModelElem F) → Prop
  | [] => True
  | m :: ms => ModelTexts m ∧ ModelsTexts ms
def SegTexts : SegDoc F → Prop
  | .mk id ps ms => T id ∧ PredsTexts T ps ∧ ModelsTexts ms
def SegsTexts : List (SegDoc F) → Prop
  | [] => True
  | s :: ss => SegTexts s ∧ SegsTexts ss
end

def DataFieldTexts (d : DataField) : Prop := T d.name ∧ T (dataType d.dataType) ∧ ∀ v ∈ d.values, T v

def PmmlTexts (p : Pmml F) : Prop :=
  T p.version ∧ (∀ d ∈ p.dataDictionary, DataFieldTexts T d) ∧ (∀ d ∈ p.transformations, DerivedTexts T d) ∧
    ModelsTexts T p.models
end

section
variable (N C : String → Prop)

/-! ## Every column of an inline table has a name with the property `N`, every constant the property `C` -/

def TableNames (t : List (GoMap (GoVal F))) : Prop := ∀ r ∈ t, ∀ c ∈ r.toList, N c.1

def ExprNames : Expr F → Prop
  | .const _ v => C v
  | .apply _ xs => ∀ x ∈ xs, ExprNames x
  | .mapValues m => ∀ t ∈ m.inlineTables, TableNames N t
  | _ => True

def VerificationNames (v : ModelVerification F) : Prop := TableNames N v.rows

mutual
def ModelNames : ModelElem F → Prop
  | .tree d => (∀ x ∈ d.localTransformations, ExprNames N C x.expr) ∧ ∀ v ∈ d.verification, VerificationNames N v
  | .regression d => ∀ v ∈ d.verification, VerificationNames N v
  | .mining h segs =>
    (∀ x ∈ h.localTransformations, ExprNames N C x.expr) ∧ (∀ v ∈ h.verification, VerificationNames N v) ∧
      SegsNames segs
  | .other _ => True
def ModelsNames : List (ModelElem F) → Prop
  | [] => True
  | m :: ms => ModelNames m ∧ ModelsNames ms
def SegNames : SegDoc F → Prop
  | .mk _ _ ms => ModelsNames ms
def SegsNames : List (SegDoc F) → Prop
  | [] => True
  | s :: ss => SegNames s ∧ SegsNames ss
end

def PmmlNames (p : Pmml F) : Prop :=
  (∀ d ∈ p.transformations, ExprNames N C d.expr) ∧ ModelsNames N C p.models
end

/-- Every character may stand in an XML file. -/
def LegalText (s : String) : Prop := ∀ c ∈ s.toList, Markup.Legal c

section
variable [NameTables]

/-- The name of a column that can be written: without a prefix, and not the name of an element whose content
is taken over as it is. -/
def CellName (n : String) : Prop := Markup.PlainName n.toList ∧ verbatim n = false

/-- The source of a constant that has no tags inside. -/
def ConstantText (v : String) : Prop := v = "" ∨ ∃ val, Markup.TextRun v.toList val

/-- The inline tables and constants can be written. -/
def Tidy (p : Pmml F) : Prop := PmmlNames CellName ConstantText p

end

/-- The file written for a document: no line breaks, attributes in a fixed order, nothing the evaluator does
not read. -/
def canonical (fmt : F → String) (p : Pmml F) : String :=
  String.ofList (Markup.write (.elem "PMML" (pmmlXml fmt p).1 (pmmlXml fmt p).2))

/-- A number as `%v` writes it. -/
def goFmt (x : F64) : String := (GoVal.f64 x).string

/-- The file `s` is read as the document `p`. -/
def ReadAs [Arith F] [Lib F] [NameTables] (s : String) (p : Pmml F) : Prop :=
  ∃ n as ch, Markup.Document s.toList (.elem n as ch) ∧ Structs.decodeAll as ch = .ok p

/-! ## Every value of an attribute and every text between tags has the property `T` -/

mutual
def XmlTexts (T : String → Prop) : Xml → Prop
  | .text _ v => T v
  | .elem _ as ch => (∀ a ∈ as, T a.2) ∧ XmlsTexts T ch
def XmlsTexts (T : String → Prop) : List Xml → Prop
  | [] => True
  | x :: xs => XmlTexts T x ∧ XmlsTexts T xs
end

end

end Gopmml.Spec
