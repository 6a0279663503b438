import Verif.Spec.XmlMore
import Verif.Model.Structs

/-!
# What an XML document says

The content of a PMML document, collected by names: of an attribute given several times the last counts,
elements of one name are taken in the order of the document, and sections given several times are read as
one. Nothing here depends on how decoding proceeds, and nothing can fail: an attribute that is no number
counts as zero.
-/

namespace Gopmml.Spec.Said
open Gopmml

/-- An attribute that is a text. -/
def text (k : String) (as : Attrs) : String := (lastAttr k as).getD ""

/-- Everything inside the elements of one name. -/
def inside (n : String) (ch : List Xml) : List Xml := (named n ch).flatMap (·.2.2)

/-- All attributes of the elements of one name. -/
def attrsOf (n : String) (ch : List Xml) : Attrs := (named n ch).flatMap (·.2.1)

variable {F : Type}

section Numbers
variable [Arith F] [Lib F]

/-- A number; white space around it does not matter, and nothing is zero. -/
def number (v : String) : F := if v = "" then Arith.zero else (Lib.parseFloat (trimSpace v)).getD Arith.zero

/-- An attribute that may be given. -/
def numberIf (k : String) (as : Attrs) : Option F := (lastAttr k as).map number

def num (k : String) (as : Attrs) : F := (numberIf k as).getD Arith.zero

/-- A whole number. -/
def whole (k : String) (as : Attrs) : Int :=
  ((lastAttr k as).map fun v => if v = "" then 0 else (parseInt (trimSpace v)).getD 0).getD 0

/-- The record count of a node: an empty one is not given, and no white space is allowed. -/
def nodeCount (as : Attrs) : Option F :=
  (lastAttr "recordCount" (as.filter fun a => decide (a.2 ≠ ""))).map fun v => (Lib.parseFloat v).getD Arith.zero
end Numbers

/-! ## Predicates -/

mutual
/-- The predicate an element is, if it is one. -/
def predOf : Xml → List (Pred F)
  | .text _ _ => []
  | .elem n as ch =>
    if n = "CompoundPredicate" then [.compound (BoolOp.ofString (text "booleanOperator" as)) (preds ch)]
    else if n = "SimplePredicate" then
      [.simple { field := text "field" as, op := SimpleOp.ofString (text "operator" as), value := text "value" as }]
    else if n = "SimpleSetPredicate" then [.set (text "field" as)]
    else if n = "True" then [.true_]
    else if n = "False" then [.false_]
    else []
def preds : List Xml → List (Pred F)
  | [] => []
  | c :: cs => predOf c ++ preds cs
end

/-! ## Nodes -/

section Nodes
variable [Arith F] [Lib F]

def dist (as : Attrs) : ScoreDistribution F where
  value := text "value" as
  recordCount := num "recordCount" as
  confidence := numberIf "confidence" as
  probability := numberIf "probability" as

def dists (ch : List Xml) : List (ScoreDistribution F) := (named "ScoreDistribution" ch).map fun e => dist e.2.1

mutual
def nodeOf : Xml → List (Node F)
  | .text _ _ => []
  | .elem n as ch =>
    if n = "Node" then
      [.mk (text "id" as) (text "defaultChild" as) (text "score" as) ((nodeCount as).getD Arith.zero) (dists ch)
        (nodes ch) (preds ch).getLast?]
    else []
def nodes : List Xml → List (Node F)
  | [] => []
  | c :: cs => nodeOf c ++ nodes cs
end

/-- The root: all `Node` elements of the model read as one. -/
def root (ch : List Xml) : Node F :=
  .mk (text "id" (attrsOf "Node" ch)) (text "defaultChild" (attrsOf "Node" ch)) (text "score" (attrsOf "Node" ch))
    ((nodeCount (attrsOf "Node" ch)).getD Arith.zero) (dists (inside "Node" ch)) (nodes (inside "Node" ch))
    (preds (inside "Node" ch)).getLast?
end Nodes

/-! ## Tables and expressions -/

/-- A row of a table: the last cell of each name. -/
def record (ch : List Xml) : GoMap (GoVal F) :=
  (Xml.elems ch).foldl (fun r e => r.insert e.1 (.str (Xml.chardata e.2.2))) ∅

def table (ch : List Xml) : List (GoMap (GoVal F)) := (named "row" ch).map fun e => record e.2.2

def mapValues (as : Attrs) (ch : List Xml) : MapValues F where
  defaultValue := lastAttr "defaultValue" as
  dataType := DataType.ofString (text "dataType" as)
  fieldColumnPairs := (named "FieldColumnPair" ch).map fun e => columnPair e.2.1
  inlineTables := (named "InlineTable" ch).map fun e => table e.2.2

mutual
/-- The expression an element is, if it is one. -/
def exprOf : Xml → List (Expr F)
  | .text _ _ => []
  | .elem n as ch =>
    if n = "Apply" then [.apply (text "function" as) (exprs ch)]
    else if n = "Constant" then [.const (DataType.ofString (text "dataType" as)) (Xml.sources ch)]
    else if n = "FieldRef" then [.fieldRef (text "field" as)]
    else if n = "MapValues" then [.mapValues (mapValues as ch)]
    else if n ∈ ["Aggregate", "Discretize", "Lag", "NormContinuous", "NormDiscrete", "TextIndex"] then [.other n]
    else []
def exprs : List Xml → List (Expr F)
  | [] => []
  | c :: cs => exprOf c ++ exprs cs
end

/-- A derived field: its last expression. -/
def derived (as : Attrs) (ch : List Xml) : DerivedField F where
  name := text "name" as
  dataType := DataType.ofString (text "dataType" as)
  opType := OpType.ofString (text "optype" as)
  expr := (exprs ch).getLast?.getD (.other "")

def deriveds (ch : List Xml) : List (DerivedField F) := (named "DerivedField" ch).map fun e => derived e.2.1 e.2.2

/-! ## Sections -/

def miningField (as : Attrs) : MiningField where
  name := text "name" as
  usageType := UsageType.ofString (text "usageType" as)
  outliers := text "outliers" as
  invalidValueTreatment := text "invalidValueTreatment" as
  missingValueReplacement := lastAttr "missingValueReplacement" as

def schema (ch : List Xml) : List MiningField := (named "MiningField" (inside "MiningSchema" ch)).map fun e => miningField e.2.1

def output (as : Attrs) : OutputField where
  name := text "name" as
  feature := ResultFeature.ofString (text "feature" as)
  value := text "value" as

def outputs (ch : List Xml) : List OutputField := (named "OutputField" (inside "Output" ch)).map fun e => output e.2.1

section Sections
variable [Arith F] [Lib F]

def target (as : Attrs) : Target F where
  field := text "field" as
  rescaleConstant := numberIf "rescaleConstant" as
  rescaleFactor := numberIf "rescaleFactor" as

def targets (ch : List Xml) : List (Target F) := (named "Target" (inside "Targets" ch)).map fun e => target e.2.1

def verificationField (as : Attrs) : VerificationField F where
  field := text "field" as
  column := text "column" as
  precision := numberIf "precision" as

/-- The records to verify a model with, if there is such a section. -/
def verification (ch : List Xml) : Option (ModelVerification F) :=
  if named "ModelVerification" ch = [] then none
  else some {
    fields := (named "VerificationField" (inside "VerificationFields" (inside "ModelVerification" ch))).map
      fun e => verificationField e.2.1
    rows := table (inside "InlineTable" (inside "ModelVerification" ch)) }

/-! ## Models -/

def tree (as : Attrs) (ch : List Xml) : TreeDoc F where
  functionName := MiningFunction.ofString (text "functionName" as)
  missingValuePenalty := num "missingValuePenalty" as
  missingValueStrategy := MissingValueStrategy.ofString (text "missingValueStrategy" as)
  noTrueChildStrategy := NoTrueChildStrategy.ofString (text "noTrueChildStrategy" as)
  localTransformations := deriveds (inside "LocalTransformations" ch)
  miningFields := schema ch
  verification := verification ch
  node := root ch

def predictor (as : Attrs) : NumericPredictor F where
  name := text "name" as
  coefficient := num "coefficient" as
  exponent := whole "exponent" as

def regressionTable (as : Attrs) (ch : List Xml) : RegressionTable F where
  intercept := num "intercept" as
  targetCategory := text "targetCategory" as
  predictors := (named "NumericPredictor" ch).map fun e => predictor e.2.1

def regression (as : Attrs) (ch : List Xml) : RegressionDoc F where
  functionName := MiningFunction.ofString (text "functionName" as)
  normalization := Normalization.ofString (text "normalizationMethod" as)
  tables := (named "RegressionTable" ch).map fun e => regressionTable e.2.1 e.2.2
  outputs := outputs ch
  verification := verification ch

def miningHead (as : Attrs) (ch : List Xml) : MiningHead F where
  functionName := MiningFunction.ofString (text "functionName" as)
  method := MultipleModelMethod.ofString (text "multipleModelMethod" (attrsOf "Segmentation" ch))
  verification := verification ch
  miningFields := schema ch
  localTransformations := deriveds (inside "LocalTransformations" ch)
  outputs := outputs ch
  targets := targets ch

mutual
/-- The model an element is, if it is one. -/
def modelOf : Xml → List (ModelElem F)
  | .text _ _ => []
  | .elem n as ch =>
    if n = "TreeModel" then [.tree (tree as ch)]
    else if n = "RegressionModel" then [.regression (regression as ch)]
    else if n = "MiningModel" then [.mining (miningHead as ch) (segmentations ch)]
    else if n ∈ ["AssociationModel", "BaselineModel", "BayesianNetworkModel", "ClusteringModel",
      "GaussianProcessModel", "GeneralRegressionModel", "NaiveBayesModel", "NearestNeighborModel",
      "NeuralNetwork", "RuleSetModel", "Scorecard", "SequenceModel", "SupportVectorMachineModel",
      "TextModel", "TimeSeriesModel"] then [.other n]
    else []
def models : List Xml → List (ModelElem F)
  | [] => []
  | c :: cs => modelOf c ++ models cs
/-- The segments in an element, if it is a `Segmentation`. -/
def segmentation : Xml → List (SegDoc F)
  | .text _ _ => []
  | .elem n _ ch => if n = "Segmentation" then segments ch else []
def segmentations : List Xml → List (SegDoc F)
  | [] => []
  | c :: cs => segmentation c ++ segmentations cs
/-- The segment an element is, if it is one. -/
def segment : Xml → List (SegDoc F)
  | .text _ _ => []
  | .elem n as ch => if n = "Segment" then [.mk (text "id" as) (preds ch) (models ch)] else []
def segments : List Xml → List (SegDoc F)
  | [] => []
  | c :: cs => segment c ++ segments cs
end
end Sections

def dataField (as : Attrs) (ch : List Xml) : DataField where
  name := text "name" as
  dataType := DataType.ofString (text "dataType" as)
  values := (named "Value" ch).map fun e => text "value" e.2.1

/-- The content of a `PMML` element. -/
def pmml [Arith F] [Lib F] (as : Attrs) (ch : List Xml) : Pmml F where
  version := text "version" as
  dataDictionary := (named "DataField" (inside "DataDictionary" ch)).map fun e => dataField e.2.1 e.2.2
  transformations := deriveds (inside "TransformationDictionary" ch)
  models := models ch

end Gopmml.Spec.Said
