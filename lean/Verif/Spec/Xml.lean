import Verif.Model.Xml

/-!
# What decoding should give

`kinds` lists, written down from the Go source, which child elements each hand-written
decoder knows.  The encoders write a document in one canonical way; `fmt` writes numbers.
Nothing here refers to the decoding functions.
-/

namespace Gopmml.Spec

/-! ## Known child elements -/

def predKinds : List String :=
  ["CompoundPredicate", "False", "SimplePredicate", "SimpleSetPredicate", "True"]

def exprKinds : List String :=
  ["Aggregate", "Apply", "Constant", "Discretize", "FieldRef", "Lag", "MapValues",
   "NormContinuous", "NormDiscrete", "TextIndex"]

def modelKinds : List String :=
  ["AssociationModel", "BaselineModel", "BayesianNetworkModel", "ClusteringModel",
   "GaussianProcessModel", "GeneralRegressionModel", "MiningModel", "NaiveBayesModel",
   "NearestNeighborModel", "NeuralNetwork", "RegressionModel", "RuleSetModel", "Scorecard",
   "SequenceModel", "SupportVectorMachineModel", "TextModel", "TimeSeriesModel", "TreeModel"]

def nodeKinds : List String :=
  ["Extension", "Node", "ScoreDistribution", "Partition", "DecisionTree", "Regression"] ++ predKinds
def compoundKinds : List String := "Extension" :: predKinds
def applyKinds : List String := "Extension" :: exprKinds
def derivedKinds : List String := "Extension" :: "Value" :: exprKinds
def functionKinds : List String := "Extension" :: "ParameterField" :: exprKinds
def segmentKinds : List String := predKinds ++ modelKinds
def tableKinds : List String := ["row"]
def pmmlKinds : List String :=
  ["Header", "DataDictionary", "TransformationDictionary", "MiningBuildTask"] ++ modelKinds

/-- The child elements the hand-written decoder of an element knows (`none`: the element is decoded
by reflection, or accepts any child). -/
def knownIn (k : String) : Option (List String) :=
  if k = "PMML" then some pmmlKinds
  else if k = "Node" then some nodeKinds
  else if k = "CompoundPredicate" then some compoundKinds
  else if k = "Apply" then some applyKinds
  else if k = "DerivedField" then some derivedKinds
  else if k = "DefineFunction" then some functionKinds
  else if k = "Segment" then some segmentKinds
  else if k = "InlineTable" then some tableKinds
  else none

/-- The parts of a document: an element of kind `k` has parts of these kinds. (Elements without
parts and the kinds decoded by `Reflect` are left out.) -/
def parts (k : String) : List String :=
  if k = "PMML" then ["TransformationDictionary", "TreeModel", "RegressionModel", "MiningModel"]
  else if k = "TransformationDictionary" then ["DefineFunction", "DerivedField"]
  else if k = "DefineFunction" then ["Apply", "MapValues"]
  else if k = "DerivedField" then ["Apply", "MapValues"]
  else if k = "Apply" then ["Apply", "MapValues"]
  else if k = "MapValues" then ["InlineTable"]
  else if k = "TreeModel" then ["LocalTransformations", "ModelVerification", "Node"]
  else if k = "RegressionModel" then ["LocalTransformations", "ModelVerification"]
  else if k = "MiningModel" then ["LocalTransformations", "ModelVerification", "Segmentation"]
  else if k = "LocalTransformations" then ["DerivedField"]
  else if k = "ModelVerification" then ["InlineTable"]
  else if k = "Segmentation" then ["Segment"]
  else if k = "Segment" then ["CompoundPredicate", "TreeModel", "RegressionModel", "MiningModel"]
  else if k = "Node" then ["Node", "CompoundPredicate"]
  else if k = "CompoundPredicate" then ["CompoundPredicate"]
  else []

/-- `Within k ch k' ch'`: the element of kind `k` with content `ch` has, at any depth, a part of kind
`k'` with content `ch'`. -/
inductive Within (k : String) (ch : List Xml) : String → List Xml → Prop
  | self : Within k ch k ch
  | part {k₁ k₂ : String} {ch₁ ch₂ : List Xml} {as : Attrs} : Within k ch k₁ ch₁ →
      Xml.elem k₂ as ch₂ ∈ ch₁ → k₂ ∈ parts k₁ → Within k ch k₂ ch₂

/-! ## Attributes -/

/-- The value of the last attribute called `k`. -/
def attr? (as : Attrs) (k : String) : Option String :=
  ((as.filter fun a => a.1 = k).map (·.2)).getLast?

def attr (as : Attrs) (k : String) : String := (attr? as k).getD ""

/-! ## How enumerations are written -/

def miningFunction : MiningFunction → String
  | .classification => "classification" | .regression => "regression" | .other s => s
def missingValueStrategy : MissingValueStrategy → String
  | .aggregateNodes => "aggregateNodes" | .defaultChild => "defaultChild"
  | .lastPrediction => "lastPrediction" | .none => "none" | .nullPrediction => "nullPrediction"
  | .weightedConfidence => "weightedConfidence" | .other s => s
def noTrueChildStrategy : NoTrueChildStrategy → String
  | .returnLastPrediction => "returnLastPrediction" | .returnNullPrediction => "returnNullPrediction"
  | .other s => s
def simpleOp : SimpleOp → String
  | .equal => "equal" | .greaterOrEqual => "greaterOrEqual" | .greaterThan => "greaterThan"
  | .isMissing => "isMissing" | .isNotMissing => "isNotMissing" | .lessOrEqual => "lessOrEqual"
  | .lessThan => "lessThan" | .notEqual => "notEqual" | .other s => s
def boolOp : BoolOp → String
  | .and => "and" | .or => "or" | .surrogate => "surrogate" | .xor => "xor" | .other s => s
def usageType : UsageType → String
  | .active => "active" | .target => "target" | .other s => s
def dataType : DataType → String
  | .boolean => "boolean" | .double => "double" | .float => "float" | .integer => "integer"
  | .string => "string" | .other s => s
def opType : OpType → String
  | .continuous => "continuous" | .other s => s
def resultFeature : ResultFeature → String
  | .empty => "" | .probability => "probability" | .other s => s
def normalization : Normalization → String
  | .cauchit => "cauchit" | .cloglog => "cloglog" | .exp => "exp" | .logit => "logit"
  | .none => "none" | .simplemax => "simplemax" | .softmax => "softmax" | .empty => ""
  | .other s => s
def multipleModelMethod : MultipleModelMethod → String
  | .average => "average" | .modelChain => "modelChain" | .selectFirst => "selectFirst"
  | .sum => "sum" | .empty => "" | .other s => s

/-! `other s` is only used for strings that are not one of the named values. -/
def OkMiningFunction : MiningFunction → Prop
  | .other s => s ∉ ["classification", "regression"] | _ => True
def OkMissing : MissingValueStrategy → Prop
  | .other s => s ∉ ["aggregateNodes", "defaultChild", "lastPrediction", "none", "nullPrediction",
      "weightedConfidence"]
  | _ => True
def OkNoTrue : NoTrueChildStrategy → Prop
  | .other s => s ∉ ["returnLastPrediction", "returnNullPrediction"] | _ => True
def OkSimpleOp : SimpleOp → Prop
  | .other s => s ∉ ["equal", "greaterOrEqual", "greaterThan", "isMissing", "isNotMissing",
      "lessOrEqual", "lessThan", "notEqual"]
  | _ => True
def OkBoolOp : BoolOp → Prop
  | .other s => s ∉ ["and", "or", "surrogate", "xor"] | _ => True
def OkUsage : UsageType → Prop
  | .other s => s ∉ ["active", "target"] | _ => True
def OkDataType : DataType → Prop
  | .other s => s ∉ ["boolean", "double", "float", "integer", "string"] | _ => True
def OkOpType : OpType → Prop
  | .other s => s ≠ "continuous" | _ => True
def OkFeature : ResultFeature → Prop
  | .other s => s ∉ ["", "probability"] | _ => True
def OkNormalization : Normalization → Prop
  | .other s => s ∉ ["cauchit", "cloglog", "exp", "logit", "none", "simplemax", "softmax", ""]
  | _ => True
def OkMethod : MultipleModelMethod → Prop
  | .other s => s ∉ ["average", "modelChain", "selectFirst", "sum", ""] | _ => True

section
variable {F : Type} (fmt : F → String)

def opt (k : String) : Option String → Attrs
  | some v => [(k, v)]
  | none => []

/-! ## Writing a document -/

mutual
def predXml : Pred F → Xml
  | .true_ => .elem "True" [] []
  | .false_ => .elem "False" [] []
  | .simple p =>
    .elem "SimplePredicate" [("field", p.field), ("operator", simpleOp p.op), ("value", p.value)] []
  | .set f =>
    .elem "SimpleSetPredicate" [("field", f), ("booleanOperator", "isIn")]
      [.elem "Array" [("type", "string"), ("n", "0")] []]
  | .compound op ps => .elem "CompoundPredicate" [("booleanOperator", boolOp op)] (predXmls ps)
def predXmls : List (Pred F) → List Xml
  | [] => []
  | p :: ps => predXml p :: predXmls ps
end

def distXml (d : ScoreDistribution F) : Xml :=
  .elem "ScoreDistribution" ([("value", d.value), ("recordCount", fmt d.recordCount)] ++
    opt "confidence" (d.confidence.map fmt) ++ opt "probability" (d.probability.map fmt)) []

mutual
def nodeXml : Node F → Xml
  | .mk id dc sc rc ds ns p =>
    .elem "Node" [("id", id), ("score", sc), ("recordCount", fmt rc), ("defaultChild", dc)]
      ((p.map predXml).toList ++ ds.map (distXml fmt) ++ nodeXmls ns)
def nodeXmls : List (Node F) → List Xml
  | [] => []
  | n :: ns => nodeXml n :: nodeXmls ns
end

/-- A cell of a table row. -/
def cellXml (c : String × GoVal F) : Xml :=
  match c.2 with
  | .str s => .elem c.1 [] [.text s s]
  | _ => .elem c.1 [] []

def rowXml (r : GoMap (GoVal F)) : Xml := .elem "row" [] (r.toList.map cellXml)
def tableXml (t : List (GoMap (GoVal F))) : Xml := .elem "InlineTable" [] (t.map rowXml)
def pairXml (p : FieldColumnPair) : Xml :=
  .elem "FieldColumnPair" [("field", p.field), ("column", p.column)] []
def mapXml (m : MapValues F) : Xml :=
  .elem "MapValues" (("dataType", dataType m.dataType) :: opt "defaultValue" m.defaultValue)
    (m.fieldColumnPairs.map pairXml ++ m.inlineTables.map tableXml)

mutual
def exprXml : Expr F → Xml
  | .fieldRef f => .elem "FieldRef" [("field", f)] []
  | .const t v => .elem "Constant" [("dataType", dataType t)] [.text v v]
  | .apply f xs => .elem "Apply" [("function", f)] (exprXmls xs)
  | .mapValues m => mapXml m
  | .other k => .elem k [] []
def exprXmls : List (Expr F) → List Xml
  | [] => []
  | x :: xs => exprXml x :: exprXmls xs
end

/-- A derived field; `.other ""` is the expression it does not have. -/
def derivedXml (d : DerivedField F) : Xml :=
  .elem "DerivedField" [("name", d.name), ("dataType", dataType d.dataType), ("optype", opType d.opType)]
    (match d.expr with
      | .other "" => []
      | x => [exprXml x])
def miningFieldXml (m : MiningField) : Xml :=
  .elem "MiningField" ([("name", m.name), ("usageType", usageType m.usageType),
    ("outliers", m.outliers), ("invalidValueTreatment", m.invalidValueTreatment)] ++
    opt "missingValueReplacement" m.missingValueReplacement) []
def outputXml (f : OutputField) : Xml :=
  .elem "OutputField" [("name", f.name), ("feature", resultFeature f.feature), ("value", f.value)] []
def targetXml (t : Target F) : Xml :=
  .elem "Target" ([("field", t.field)] ++ opt "rescaleConstant" (t.rescaleConstant.map fmt) ++
    opt "rescaleFactor" (t.rescaleFactor.map fmt)) []
def verificationFieldXml (f : VerificationField F) : Xml :=
  .elem "VerificationField" ([("field", f.field), ("column", f.column)] ++
    opt "precision" (f.precision.map fmt)) []
def verificationXml (v : ModelVerification F) : Xml :=
  .elem "ModelVerification" [] [.elem "VerificationFields" [] (v.fields.map (verificationFieldXml fmt)),
    tableXml v.rows]
def localXml (ds : List (DerivedField F)) : Xml :=
  .elem "LocalTransformations" [] (ds.map derivedXml)
def schemaXml (fs : List MiningField) : Xml := .elem "MiningSchema" [] (fs.map miningFieldXml)

def treeXml (d : TreeDoc F) : Xml :=
  .elem "TreeModel" [("functionName", miningFunction d.functionName),
      ("missingValuePenalty", fmt d.missingValuePenalty),
      ("missingValueStrategy", missingValueStrategy d.missingValueStrategy),
      ("noTrueChildStrategy", noTrueChildStrategy d.noTrueChildStrategy)]
    ([schemaXml d.miningFields, localXml d.localTransformations, nodeXml fmt d.node] ++
      (d.verification.map (verificationXml fmt)).toList)

def predictorXml (p : NumericPredictor F) : Xml :=
  .elem "NumericPredictor" [("name", p.name), ("exponent", toString p.exponent),
    ("coefficient", fmt p.coefficient)] []
def regTableXml (t : RegressionTable F) : Xml :=
  .elem "RegressionTable" [("intercept", fmt t.intercept), ("targetCategory", t.targetCategory)]
    (t.predictors.map (predictorXml fmt))
def regressionXml (d : RegressionDoc F) : Xml :=
  .elem "RegressionModel" [("functionName", miningFunction d.functionName),
      ("normalizationMethod", normalization d.normalization)]
    ([.elem "Output" [] (d.outputs.map outputXml)] ++ d.tables.map (regTableXml fmt) ++
      (d.verification.map (verificationXml fmt)).toList)

mutual
def modelXml : ModelElem F → Xml
  | .tree d => treeXml fmt d
  | .regression d => regressionXml fmt d
  | .mining h segs =>
    .elem "MiningModel" [("functionName", miningFunction h.functionName)]
      ([schemaXml h.miningFields, .elem "Output" [] (h.outputs.map outputXml),
        localXml h.localTransformations, .elem "Targets" [] (h.targets.map (targetXml fmt)),
        .elem "Segmentation" [("multipleModelMethod", multipleModelMethod h.method)] (segXmls segs)] ++
        (h.verification.map (verificationXml fmt)).toList)
  | .other k => .elem k [] []
def modelXmls : List (ModelElem F) → List Xml
  | [] => []
  | m :: ms => modelXml m :: modelXmls ms
def segXml : SegDoc F → Xml
  | .mk id ps ms => .elem "Segment" [("id", id)] (predXmls ps ++ modelXmls ms)
def segXmls : List (SegDoc F) → List Xml
  | [] => []
  | s :: ss => segXml s :: segXmls ss
end

def valueXml (v : String) : Xml := .elem "Value" [("value", v)] []
def dataFieldXml (d : DataField) : Xml :=
  .elem "DataField" [("name", d.name), ("dataType", dataType d.dataType)] (d.values.map valueXml)

/-- Attributes and content of the document element. -/
def pmmlXml (p : Pmml F) : Attrs × List Xml :=
  ([("version", p.version)],
   [.elem "Header" [] [], .elem "DataDictionary" [] (p.dataDictionary.map dataFieldXml),
    .elem "TransformationDictionary" [] (p.transformations.map derivedXml)] ++ modelXmls fmt p.models)

/-! ## What can be written: enumerations are canonical, compiled constants absent, every number
is read back from what `fmt` writes -/

variable [Lib F]

/-- `fmt x` is non-empty, has no white space around it, and parses as `x`. -/
def Printable (x : F) : Prop :=
  fmt x ≠ "" ∧ trimSpace (fmt x) = fmt x ∧ Lib.parseFloat (fmt x) = some x

mutual
def OkPred : Pred F → Prop
  | .simple p => OkSimpleOp p.op ∧ p.raw = .nil
  | .compound op ps => OkBoolOp op ∧ OkPreds ps
  | _ => True
def OkPreds : List (Pred F) → Prop
  | [] => True
  | p :: ps => OkPred p ∧ OkPreds ps
end

def OkDist (d : ScoreDistribution F) : Prop :=
  Printable fmt d.recordCount ∧ (∀ x ∈ d.confidence, Printable fmt x) ∧
    ∀ x ∈ d.probability, Printable fmt x

mutual
def OkNode : Node F → Prop
  | .mk _ _ _ rc ds ns p =>
    Printable fmt rc ∧ (∀ d ∈ ds, OkDist fmt d) ∧ (∀ q ∈ p, OkPred q) ∧ OkNodes ns
def OkNodes : List (Node F) → Prop
  | [] => True
  | n :: ns => OkNode n ∧ OkNodes ns
end

/-- Table cells are strings, and every cell has its own name. -/
def OkRow (r : GoMap (GoVal F)) : Prop := ∀ c ∈ r.toList, ∃ s, c.2 = .str s
def OkTable (t : List (GoMap (GoVal F))) : Prop := ∀ r ∈ t, OkRow r
def OkMap (m : MapValues F) : Prop := OkDataType m.dataType ∧ ∀ t ∈ m.inlineTables, OkTable t

mutual
def OkExpr : Expr F → Prop
  | .fieldRef _ => True
  | .const t _ => OkDataType t
  | .apply _ xs => OkExprs xs
  | .mapValues m => OkMap m
  | .other k => k ∈ ["Aggregate", "Discretize", "Lag", "NormContinuous", "NormDiscrete", "TextIndex"]
def OkExprs : List (Expr F) → Prop
  | [] => True
  | x :: xs => OkExpr x ∧ OkExprs xs
end

def OkDerived (d : DerivedField F) : Prop :=
  OkDataType d.dataType ∧ OkOpType d.opType ∧ (d.expr = .other "" ∨ OkExpr d.expr)
def OkMiningField (m : MiningField) : Prop := OkUsage m.usageType
def OkOutput (f : OutputField) : Prop := OkFeature f.feature
def OkTarget (t : Target F) : Prop :=
  (∀ x ∈ t.rescaleConstant, Printable fmt x) ∧ ∀ x ∈ t.rescaleFactor, Printable fmt x
def OkVerification (v : ModelVerification F) : Prop :=
  (∀ f ∈ v.fields, ∀ x ∈ f.precision, Printable fmt x) ∧ OkTable v.rows
def OkTree (d : TreeDoc F) : Prop :=
  OkMiningFunction d.functionName ∧ Printable fmt d.missingValuePenalty ∧
  OkMissing d.missingValueStrategy ∧ OkNoTrue d.noTrueChildStrategy ∧
  (∀ x ∈ d.localTransformations, OkDerived x) ∧ (∀ x ∈ d.miningFields, OkMiningField x) ∧
  (∀ v ∈ d.verification, OkVerification fmt v) ∧ OkNode fmt d.node
def OkRegTable (t : RegressionTable F) : Prop :=
  Printable fmt t.intercept ∧
    ∀ p ∈ t.predictors, Printable fmt p.coefficient ∧ -2 ^ 63 ≤ p.exponent ∧ p.exponent < 2 ^ 63
def OkRegression (d : RegressionDoc F) : Prop :=
  OkMiningFunction d.functionName ∧ OkNormalization d.normalization ∧
  (∀ f ∈ d.outputs, OkOutput f) ∧ (∀ t ∈ d.tables, OkRegTable fmt t) ∧
  ∀ v ∈ d.verification, OkVerification fmt v
def OkHead (h : MiningHead F) : Prop :=
  OkMiningFunction h.functionName ∧ OkMethod h.method ∧
  (∀ v ∈ h.verification, OkVerification fmt v) ∧ (∀ x ∈ h.miningFields, OkMiningField x) ∧
  (∀ x ∈ h.localTransformations, OkDerived x) ∧ (∀ f ∈ h.outputs, OkOutput f) ∧
  ∀ t ∈ h.targets, OkTarget fmt t

mutual
def OkModel : ModelElem F → Prop
  | .tree d => OkTree fmt d
  | .regression d => OkRegression fmt d
  | .mining h segs => OkHead fmt h ∧ OkSegs segs
  | .other k => k ∈ modelKinds ∧ k ∉ ["TreeModel", "RegressionModel", "MiningModel"]
def OkModels : List (ModelElem F) → Prop
  | [] => True
  | m :: ms => OkModel m ∧ OkModels ms
def OkSeg : SegDoc F → Prop
  | .mk _ ps ms => OkPreds ps ∧ OkModels ms
def OkSegs : List (SegDoc F) → Prop
  | [] => True
  | s :: ss => OkSeg s ∧ OkSegs ss
end

def OkPmml (p : Pmml F) : Prop :=
  (∀ d ∈ p.dataDictionary, OkDataType d.dataType) ∧ (∀ d ∈ p.transformations, OkDerived d) ∧
    OkModels fmt p.models

end

end Gopmml.Spec
