import Verif.Model.XmlMore
import Verif.Model.Main

/-!
# The struct tags of the elements below `PMML`

What `encoding/xml` finds by reflection: for each type its attributes with their kinds, and the names of its child elements
with their types.  The types with a method `UnmarshalXML` have the names their loop knows; a name it does not know makes
decoding fail (`strict`).  From this table alone it is decided which documents can be decoded.
-/

namespace Gopmml

namespace Structs

/-- What the value of an attribute is read into. -/
inductive Kind where
  /-- a string or a type based on it: always -/
  | string
  /-- `copyValue` into a number or bool -/
  | float64
  | int
  | uint
  | bool
  /-- models/elements.go:3358-3366 `recordCount` of `Node`: `ParseFloat` without trimming -/
  | count
  /-- models/elements.go:919-926 `isRecursive` -/
  | yesNo
  deriving DecidableEq

/-- One type. -/
structure GoStruct where
  attrs : List (String × Kind)
  fields : List (String × String)
  strict : Bool
  deriving DecidableEq


/-- models/elements.go:3745-3800 -/
def sPMML : GoStruct where
  attrs := [("version", .string)]
  fields := [("Header", "Header"), ("DataDictionary", "DataDictionary"),
      ("TransformationDictionary", "TransformationDictionary"),
      ("MiningBuildTask", "MiningBuildTask"), ("AssociationModel", "AssociationModel"),
      ("BaselineModel", "BaselineModel"), ("BayesianNetworkModel", "BayesianNetworkModel"),
      ("ClusteringModel", "ClusteringModel"), ("GaussianProcessModel", "GaussianProcessModel"),
      ("GeneralRegressionModel", "GeneralRegressionModel"), ("MiningModel", "MiningModel"),
      ("NaiveBayesModel", "NaiveBayesModel"), ("NearestNeighborModel", "NearestNeighborModel"),
      ("NeuralNetwork", "NeuralNetwork"), ("RegressionModel", "RegressionModel"),
      ("RuleSetModel", "RuleSetModel"), ("Scorecard", "Scorecard"),
      ("SequenceModel", "SequenceModel"),
      ("SupportVectorMachineModel", "SupportVectorMachineModel"), ("TextModel", "TextModel"),
      ("TimeSeriesModel", "TimeSeriesModel"), ("TreeModel", "TreeModel")]
  strict := true

/-- models/elements.go:2345-2354 -/
def sHeader : GoStruct where
  attrs := [("copyright", .string), ("description", .string), ("modelVersion", .string)]
  fields := [("Annotation", "Annotation"), ("Application", "Application"), ("Extension", "Extension"),
      ("Timestamp", "Timestamp")]
  strict := false

/-- models/elements.go:1574-1580 -/
def sDataDictionary : GoStruct where
  attrs := [("numberOfFields", .uint)]
  fields := [("DataField", "DataField"), ("Extension", "Extension"), ("Taxonomy", "Taxonomy")]
  strict := false

/-- models/elements.go:5480-5484 -/
def sTransformationDictionary : GoStruct where
  attrs := []
  fields := [("DefineFunction", "DefineFunction"), ("DerivedField", "DerivedField"), ("Extension", "Extension")]
  strict := false

/-- models/elements.go:2881-2883 -/
def sMiningBuildTask : GoStruct where
  attrs := []
  fields := [("Extension", "Extension")]
  strict := false

/-- models/elements.go:461-484 -/
def sAssociationModel : GoStruct where
  attrs := [("algorithmName", .string), ("avgNumberOfItemsPerTA", .float64), ("functionName", .string),
      ("isScorable", .bool), ("lengthLimit", .int), ("maxNumberOfItemsTA", .int),
      ("minimumConfidence", .float64), ("minimumSupport", .float64), ("modelName", .string),
      ("numberOfItems", .int), ("numberOfItemsets", .int), ("numberOfRules", .int),
      ("numberOfTransactions", .int)]
  fields := [("AssociationRule", "AssociationRule"), ("Item", "Item"), ("Itemset", "Itemset"),
      ("LocalTransformations", "LocalTransformations"), ("MiningSchema", "MiningSchema"),
      ("ModelStats", "ModelStats"), ("ModelVerification", "ModelVerification"),
      ("Output", "Output"), ("Extension", "Extension")]
  strict := false

/-- models/elements.go:598-611 -/
def sBaselineModel : GoStruct where
  attrs := [("algorithmName", .string), ("functionName", .string), ("isScorable", .bool), ("modelName", .string)]
  fields := [("LocalTransformations", "LocalTransformations"), ("MiningSchema", "MiningSchema"),
      ("ModelExplanation", "ModelExplanation"), ("ModelVerification", "ModelVerification"),
      ("Targets", "Targets"), ("Output", "Output"), ("ModelStats", "ModelStats"),
      ("Extension", "Extension")]
  strict := false

/-- models/elements.go:721-735 -/
def sBayesianNetworkModel : GoStruct where
  attrs := [("algorithmName", .string), ("functionName", .string), ("isScorable", .bool), ("modelName", .string)]
  fields := [("BayesianNetworkNodes", "BayesianNetworkNodes"), ("LocalTransformations", "LocalTransformations"),
      ("MiningSchema", "MiningSchema"), ("ModelExplanation", "ModelExplanation"),
      ("ModelStats", "ModelStats"), ("ModelVerification", "ModelVerification"),
      ("Output", "Output"), ("Targets", "Targets"), ("Extension", "Extension")]
  strict := false

/-- models/elements.go:1071-1073 -/
def sClusteringModel : GoStruct where
  attrs := []
  fields := [("Extension", "Extension")]
  strict := false

/-- models/elements.go:2230-2232 -/
def sGaussianProcessModel : GoStruct where
  attrs := []
  fields := [("Extension", "Extension")]
  strict := false

/-- models/elements.go:2306-2308 -/
def sGeneralRegressionModel : GoStruct where
  attrs := []
  fields := [("Extension", "Extension")]
  strict := false

/-- models/elements.go:2945-2959 -/
def sMiningModel : GoStruct where
  attrs := [("algorithmName", .string), ("functionName", .string), ("isScorable", .bool), ("modelName", .string)]
  fields := [("ModelVerification", "ModelVerification"), ("MiningSchema", "MiningSchema"),
      ("LocalTransformations", "LocalTransformations"), ("Output", "Output"),
      ("Segmentation", "Segmentation"), ("Targets", "Targets"), ("Extension", "Extension")]
  strict := false

/-- models/elements.go:3136-3138 -/
def sNaiveBayesModel : GoStruct where
  attrs := []
  fields := [("Extension", "Extension")]
  strict := false

/-- models/elements.go:3171-3173 -/
def sNearestNeighborModel : GoStruct where
  attrs := []
  fields := [("Extension", "Extension")]
  strict := false

/-- models/elements.go:3257-3259 -/
def sNeuralNetwork : GoStruct where
  attrs := []
  fields := [("Extension", "Extension")]
  strict := false

/-- models/elements.go:4250-4267 -/
def sRegressionModel : GoStruct where
  attrs := [("algorithmName", .string), ("functionName", .string), ("isScorable", .bool),
      ("modelName", .string), ("normalizationMethod", .string)]
  fields := [("LocalTransformations", "LocalTransformations"), ("MiningSchema", "MiningSchema"),
      ("RegressionTable", "RegressionTable"), ("ModelExplanation", "ModelExplanation"),
      ("ModelStats", "ModelStats"), ("ModelVerification", "ModelVerification"),
      ("Output", "Output"), ("Targets", "Targets"), ("Extension", "Extension")]
  strict := false

/-- models/elements.go:4375-4377 -/
def sRuleSetModel : GoStruct where
  attrs := []
  fields := [("Extension", "Extension")]
  strict := false

/-- models/elements.go:4446-4448 -/
def sScorecard : GoStruct where
  attrs := []
  fields := [("Extension", "Extension")]
  strict := false

/-- models/elements.go:4616-4618 -/
def sSequenceModel : GoStruct where
  attrs := []
  fields := [("Extension", "Extension")]
  strict := false

/-- models/elements.go:4886-4888 -/
def sSupportVectorMachineModel : GoStruct where
  attrs := []
  fields := [("Extension", "Extension")]
  strict := false

/-- models/elements.go:5238-5240 -/
def sTextModel : GoStruct where
  attrs := []
  fields := [("Extension", "Extension")]
  strict := false

/-- models/elements.go:5413-5415 -/
def sTimeSeriesModel : GoStruct where
  attrs := []
  fields := [("Extension", "Extension")]
  strict := false

/-- models/elements.go:5526-5545 -/
def sTreeModel : GoStruct where
  attrs := [("algorithmName", .string), ("functionName", .string), ("isScorable", .bool),
      ("missingValuePenalty", .float64), ("missingValueStrategy", .string), ("modelName", .string),
      ("noTrueChildStrategy", .string), ("splitCharacteristic", .string)]
  fields := [("Extension", "Extension"), ("LocalTransformations", "LocalTransformations"),
      ("MiningSchema", "MiningSchema"), ("ModelExplanation", "ModelExplanation"),
      ("ModelStats", "ModelStats"), ("ModelVerification", "ModelVerification"), ("Node", "Node"),
      ("Output", "Output"), ("Targets", "Targets")]
  strict := false

/-- models/elements.go:197-200 -/
def sAnnotation : GoStruct where
  attrs := []
  fields := [("Extension", "Extension")]
  strict := false

/-- models/elements.go:316-321 -/
def sApplication : GoStruct where
  attrs := [("name", .string), ("version", .string)]
  fields := [("Extension", "Extension")]
  strict := false

/-- models/elements.go:2070-2075 -/
def sExtension : GoStruct where
  attrs := [("extender", .string), ("name", .string), ("value", .string)]
  fields := []
  strict := false

/-- models/elements.go:5444-5446 -/
def sTimestamp : GoStruct where
  attrs := []
  fields := [("Extension", "Extension")]
  strict := false

/-- models/elements.go:1608-1619 -/
def sDataField : GoStruct where
  attrs := [("dataType", .string), ("displayName", .string), ("isCyclic", .bool), ("name", .string),
      ("optype", .string), ("taxonomy", .string)]
  fields := [("Extension", "Extension"), ("Interval", "Interval"), ("Value", "Value")]
  strict := false

/-- models/elements.go:5071-5076 -/
def sTaxonomy : GoStruct where
  attrs := [("name", .string)]
  fields := [("ChildParent", "ChildParent"), ("Extension", "Extension")]
  strict := false

/-- models/elements.go:1713-1788 -/
def sDefineFunction : GoStruct where
  attrs := [("dataType", .string), ("name", .string), ("optype", .string)]
  fields := [("Extension", "Extension"), ("ParameterField", "ParameterField"), ("Aggregate", "Aggregate"),
      ("Apply", "Apply"), ("Constant", "Constant"), ("Discretize", "Discretize"),
      ("FieldRef", "FieldRef"), ("Lag", "Lag"), ("MapValues", "MapValues"),
      ("NormContinuous", "NormContinuous"), ("NormDiscrete", "NormDiscrete"),
      ("TextIndex", "TextIndex")]
  strict := true

/-- models/elements.go:1832-1909 -/
def sDerivedField : GoStruct where
  attrs := [("dataType", .string), ("displayName", .string), ("name", .string), ("optype", .string)]
  fields := [("Extension", "Extension"), ("Value", "Value"), ("Aggregate", "Aggregate"), ("Apply", "Apply"),
      ("Constant", "Constant"), ("Discretize", "Discretize"), ("FieldRef", "FieldRef"),
      ("Lag", "Lag"), ("MapValues", "MapValues"), ("NormContinuous", "NormContinuous"),
      ("NormDiscrete", "NormDiscrete"), ("TextIndex", "TextIndex")]
  strict := true

/-- models/elements.go:505-515 -/
def sAssociationRule : GoStruct where
  attrs := [("affinity", .float64), ("antecedent", .string), ("confidence", .float64), ("consequent", .string),
      ("id", .string), ("leverage", .float64), ("lift", .float64), ("support", .float64)]
  fields := [("Extension", "Extension")]
  strict := false

/-- models/elements.go:2519-2521 -/
def sItem : GoStruct where
  attrs := []
  fields := [("Extension", "Extension")]
  strict := false

/-- models/elements.go:2550-2552 -/
def sItemset : GoStruct where
  attrs := []
  fields := [("Extension", "Extension")]
  strict := false

/-- models/elements.go:2720-2723 -/
def sLocalTransformations : GoStruct where
  attrs := []
  fields := [("DerivedField", "DerivedField"), ("Extension", "Extension")]
  strict := false

/-- models/elements.go:2973-2976 -/
def sMiningSchema : GoStruct where
  attrs := []
  fields := [("Extension", "Extension"), ("MiningField", "MiningField")]
  strict := false

/-- models/elements.go:3037-3041 -/
def sModelStats : GoStruct where
  attrs := []
  fields := [("Extension", "Extension"), ("MultivariateStats", "MultivariateStats"),
      ("UnivariateStats", "UnivariateStats")]
  strict := false

/-- models/elements.go:3056-3063 -/
def sModelVerification : GoStruct where
  attrs := [("fieldCount", .int), ("recordCount", .int)]
  fields := [("Extension", "Extension"), ("InlineTable", "InlineTable"),
      ("VerificationFields", "VerificationFields")]
  strict := false

/-- models/elements.go:3559-3562 -/
def sOutput : GoStruct where
  attrs := []
  fields := [("Extension", "Extension"), ("OutputField", "OutputField")]
  strict := false

/-- models/elements.go:3006-3010 -/
def sModelExplanation : GoStruct where
  attrs := []
  fields := [("Correlations", "Correlations"), ("Extension", "Extension")]
  strict := false

/-- models/elements.go:5055-5058 -/
def sTargets : GoStruct where
  attrs := []
  fields := [("Extension", "Extension"), ("Target", "Target")]
  strict := false

/-- models/elements.go:752-754 -/
def sBayesianNetworkNodes : GoStruct where
  attrs := []
  fields := [("Extension", "Extension")]
  strict := false

/-- models/elements.go:4559-4563 -/
def sSegmentation : GoStruct where
  attrs := [("multipleModelMethod", .string)]
  fields := [("Segment", "Segment"), ("Extension", "Extension")]
  strict := false

/-- models/elements.go:4285-4290 -/
def sRegressionTable : GoStruct where
  attrs := [("intercept", .float64), ("targetCategory", .string)]
  fields := [("NumericPredictor", "NumericPredictor"), ("Extension", "Extension")]
  strict := false

/-- models/elements.go:3348-3428 -/
def sNode : GoStruct where
  attrs := [("defaultChild", .string), ("id", .string), ("recordCount", .count), ("score", .string)]
  fields := [("Extension", "Extension"), ("Node", "Node"), ("ScoreDistribution", "ScoreDistribution"),
      ("Partition", "Partition"), ("CompoundPredicate", "CompoundPredicate"), ("False", "False"),
      ("SimplePredicate", "SimplePredicate"), ("SimpleSetPredicate", "SimpleSetPredicate"),
      ("True", "True"), ("DecisionTree", "DecisionTree"), ("Regression", "Regression")]
  strict := true

/-- models/elements.go:2496-2502 -/
def sInterval : GoStruct where
  attrs := [("closure", .string), ("leftMargin", .float64), ("rightMargin", .float64)]
  fields := [("Extension", "Extension")]
  strict := false

/-- models/elements.go:5715-5721 -/
def sValue : GoStruct where
  attrs := [("displayValue", .string), ("valid", .string), ("value", .string)]
  fields := [("Extension", "Extension")]
  strict := false

/-- models/elements.go:912-976 -/
def sChildParent : GoStruct where
  attrs := [("childField", .string), ("isRecursive", .yesNo), ("parentField", .string),
      ("parentLevelField", .string)]
  fields := [("Extension", "Extension"), ("FieldColumnPair", "FieldColumnPair"), ("InlineTable", "InlineTable"),
      ("TableLocator", "TableLocator")]
  strict := true

/-- models/elements.go:3887-3888 -/
def sParameterField : GoStruct where
  attrs := []
  fields := []
  strict := false

/-- models/elements.go:124-131 -/
def sAggregate : GoStruct where
  attrs := [("field", .string), ("function", .string), ("groupField", .string), ("sqlWhere", .string)]
  fields := [("Extension", "Extension")]
  strict := false

/-- models/elements.go:349-423 -/
def sApply : GoStruct where
  attrs := [("defaultValue", .string), ("function", .string), ("returnInvalid", .string),
      ("mapMissingTo", .string)]
  fields := [("Extension", "Extension"), ("Aggregate", "Aggregate"), ("Apply", "Apply"),
      ("Constant", "Constant"), ("Discretize", "Discretize"), ("FieldRef", "FieldRef"),
      ("Lag", "Lag"), ("MapValues", "MapValues"), ("NormContinuous", "NormContinuous"),
      ("NormDiscrete", "NormDiscrete"), ("TextIndex", "TextIndex")]
  strict := true

/-- models/elements.go:1337-1340 -/
def sConstant : GoStruct where
  attrs := [("dataType", .string)]
  fields := []
  strict := false

/-- models/elements.go:1979-1981 -/
def sDiscretize : GoStruct where
  attrs := []
  fields := [("Extension", "Extension")]
  strict := false

/-- models/elements.go:2134-2138 -/
def sFieldRef : GoStruct where
  attrs := [("field", .string), ("mapMissingTo", .string)]
  fields := [("Extension", "Extension")]
  strict := false

/-- models/elements.go:2612-2614 -/
def sLag : GoStruct where
  attrs := []
  fields := [("Extension", "Extension")]
  strict := false

/-- models/elements.go:2772-2780 -/
def sMapValues : GoStruct where
  attrs := [("defaultValue", .string), ("mapMissingTo", .string), ("outputColumn", .string),
      ("dataType", .string)]
  fields := [("Extension", "Extension"), ("FieldColumnPair", "FieldColumnPair"), ("InlineTable", "InlineTable")]
  strict := false

/-- models/elements.go:3443-3445 -/
def sNormContinuous : GoStruct where
  attrs := []
  fields := [("Extension", "Extension")]
  strict := false

/-- models/elements.go:3461-3463 -/
def sNormDiscrete : GoStruct where
  attrs := []
  fields := [("Extension", "Extension")]
  strict := false

/-- models/elements.go:5179-5181 -/
def sTextIndex : GoStruct where
  attrs := []
  fields := [("Extension", "Extension")]
  strict := false

/-- models/elements.go:2904-2917 -/
def sMiningField : GoStruct where
  attrs := [("highValue", .float64), ("importance", .float64), ("invalidValueTreatment", .string),
      ("lowValue", .float64), ("missingValueReplacement", .string),
      ("missingValueTreatment", .string), ("name", .string), ("optype", .string),
      ("outliers", .string), ("usageType", .string)]
  fields := [("Extension", "Extension")]
  strict := false

/-- models/elements.go:3105-3110 -/
def sMultivariateStats : GoStruct where
  attrs := [("targetCategory", .string)]
  fields := [("MultivariateStat", "MultivariateStat"), ("Extension", "Extension")]
  strict := false

/-- models/elements.go:5661-5671 -/
def sUnivariateStats : GoStruct where
  attrs := [("field", .string), ("weighted", .bool)]
  fields := [("Anova", "Anova"), ("ContStats", "ContStats"), ("Counts", "Counts"), ("DiscrStats", "DiscrStats"),
      ("Extension", "Extension"), ("NumericInfo", "NumericInfo")]
  strict := false

/-- models/elements.go:2408-2435 -/
def sInlineTable : GoStruct where
  attrs := []
  fields := [("row", "Row")]
  strict := true

/-- models/elements.go:5835-5838 -/
def sVerificationFields : GoStruct where
  attrs := []
  fields := [("Extension", "Extension"), ("VerificationField", "VerificationField")]
  strict := false

/-- models/elements.go:3616-3632 -/
def sOutputField : GoStruct where
  attrs := [("algorithm", .string), ("dataType", .string), ("displayName", .string), ("feature", .string),
      ("isMultiValued", .int), ("name", .string), ("opType", .string), ("rank", .int),
      ("rankBasis", .string), ("rankOrder", .string), ("ruleFeature", .string),
      ("segmentId", .string), ("targetField", .string), ("value", .string)]
  fields := [("Extension", "Extension")]
  strict := false

/-- models/elements.go:1503-1505 -/
def sCorrelations : GoStruct where
  attrs := []
  fields := [("Extension", "Extension")]
  strict := false

/-- models/elements.go:4956-4967 -/
def sTarget : GoStruct where
  attrs := [("castInteger", .string), ("field", .string), ("max", .float64), ("min", .float64),
      ("optype", .string), ("rescaleConstant", .float64), ("rescaleFactor", .float64)]
  fields := [("Extension", "Extension"), ("TargetValue", "TargetValue")]
  strict := false

/-- models/elements.go:4502-4546 -/
def sSegment : GoStruct where
  attrs := [("id", .string)]
  fields := [("CompoundPredicate", "CompoundPredicate"), ("False", "False"),
      ("SimplePredicate", "SimplePredicate"), ("SimpleSetPredicate", "SimpleSetPredicate"),
      ("True", "True"), ("AssociationModel", "AssociationModel"),
      ("BaselineModel", "BaselineModel"), ("BayesianNetworkModel", "BayesianNetworkModel"),
      ("ClusteringModel", "ClusteringModel"), ("GaussianProcessModel", "GaussianProcessModel"),
      ("GeneralRegressionModel", "GeneralRegressionModel"), ("MiningModel", "MiningModel"),
      ("NaiveBayesModel", "NaiveBayesModel"), ("NearestNeighborModel", "NearestNeighborModel"),
      ("NeuralNetwork", "NeuralNetwork"), ("RegressionModel", "RegressionModel"),
      ("RuleSetModel", "RuleSetModel"), ("Scorecard", "Scorecard"),
      ("SequenceModel", "SequenceModel"),
      ("SupportVectorMachineModel", "SupportVectorMachineModel"), ("TextModel", "TextModel"),
      ("TimeSeriesModel", "TimeSeriesModel"), ("TreeModel", "TreeModel")]
  strict := true

/-- models/elements.go:3527-3533 -/
def sNumericPredictor : GoStruct where
  attrs := [("name", .string), ("coefficient", .float64), ("exponent", .int)]
  fields := [("Extension", "Extension")]
  strict := false

/-- models/elements.go:4394-4400 -/
def sScoreDistribution : GoStruct where
  attrs := [("confidence", .float64), ("probability", .float64), ("recordCount", .float64), ("value", .string)]
  fields := [("Extension", "Extension")]
  strict := false

/-- models/elements.go:3931-3933 -/
def sPartition : GoStruct where
  attrs := []
  fields := [("Extension", "Extension")]
  strict := false

/-- models/elements.go:1223-1266 -/
def sCompoundPredicate : GoStruct where
  attrs := [("booleanOperator", .string)]
  fields := [("Extension", "Extension"), ("CompoundPredicate", "CompoundPredicate"), ("False", "False"),
      ("SimplePredicate", "SimplePredicate"), ("SimpleSetPredicate", "SimpleSetPredicate"),
      ("True", "True")]
  strict := true

/-- models/elements.go:2100-2102 -/
def sFalse : GoStruct where
  attrs := []
  fields := [("Extension", "Extension")]
  strict := false

/-- models/elements.go:4745-4752 -/
def sSimplePredicate : GoStruct where
  attrs := [("field", .string), ("operator", .string), ("value", .string)]
  fields := [("Extension", "Extension")]
  strict := false

/-- models/elements.go:4803-4809 -/
def sSimpleSetPredicate : GoStruct where
  attrs := [("booleanOperator", .string), ("field", .string)]
  fields := [("Array", "ArrayType"), ("Extension", "Extension")]
  strict := false

/-- models/elements.go:5600-5602 -/
def sTrue : GoStruct where
  attrs := []
  fields := [("Extension", "Extension")]
  strict := false

/-- models/elements.go:1666-1668 -/
def sDecisionTree : GoStruct where
  attrs := []
  fields := [("Extension", "Extension")]
  strict := false

/-- models/elements.go:4211-4213 -/
def sRegression : GoStruct where
  attrs := []
  fields := [("Extension", "Extension")]
  strict := false

/-- models/elements.go:2117-2121 -/
def sFieldColumnPair : GoStruct where
  attrs := [("column", .string), ("field", .string)]
  fields := [("Extension", "Extension")]
  strict := false

/-- models/elements.go:4917-4919 -/
def sTableLocator : GoStruct where
  attrs := []
  fields := [("Extension", "Extension")]
  strict := false

/-- models/elements.go:3090-3092 -/
def sMultivariateStat : GoStruct where
  attrs := []
  fields := [("Extension", "Extension")]
  strict := false

/-- models/elements.go:221-226 -/
def sAnova : GoStruct where
  attrs := [("target", .string)]
  fields := [("AnovaRow", "AnovaRow"), ("Extension", "Extension")]
  strict := false

/-- models/elements.go:1385-1392 -/
def sContStats : GoStruct where
  attrs := [("totalSquaresSum", .float64), ("totalValuesSum", .float64)]
  fields := [("Extension", "Extension"), ("Interval", "Interval"), ("Array", "ArrayType")]
  strict := false

/-- models/elements.go:1525-1532 -/
def sCounts : GoStruct where
  attrs := [("cardinality", .uint), ("invalidFreq", .float64), ("missingFreq", .float64),
      ("totalFreq", .float64)]
  fields := [("Extension", "Extension")]
  strict := false

/-- models/elements.go:1922-1927 -/
def sDiscrStats : GoStruct where
  attrs := [("modalValue", .string)]
  fields := [("Array", "ArrayType"), ("Extension", "Extension")]
  strict := false

/-- models/elements.go:3503-3513 -/
def sNumericInfo : GoStruct where
  attrs := [("interQuartileRange", .float64), ("maximum", .float64), ("mean", .float64), ("median", .float64),
      ("minimum", .float64)]
  fields := [("standardDeviation", "float64"), ("Extension", "Extension"), ("Quantile", "Quantile")]
  strict := false

/-- models/elements.go:5971-5996 -/
def sRow : GoStruct where
  attrs := []
  fields := []
  strict := false

/-- models/elements.go:5817-5823 -/
def sVerificationField : GoStruct where
  attrs := [("field", .string), ("column", .string), ("precision", .float64), ("zeroThreshold", .float64)]
  fields := [("Extension", "Extension")]
  strict := false

/-- models/elements.go:4983-4985 -/
def sTargetValue : GoStruct where
  attrs := []
  fields := [("Extension", "Extension")]
  strict := false

/-- models/complexTypes.go:32-41 -/
def sArrayType : GoStruct where
  attrs := [("n", .int), ("type", .string)]
  fields := []
  strict := false

/-- models/elements.go:261-270 -/
def sAnovaRow : GoStruct where
  attrs := [("degreesOfFreedom", .float64), ("fValue", .float64), ("meanOfSquares", .float64),
      ("pValue", .float64), ("sumOfSquares", .float64), ("type", .string)]
  fields := [("Extension", "Extension")]
  strict := false

/-- models/elements.go:4080-4085 -/
def sQuantile : GoStruct where
  attrs := [("quantileLimit", .float64), ("quantileValue", .float64)]
  fields := [("Extension", "Extension")]
  strict := false

/-- The types, under their names. -/
def goStructs : List (String × GoStruct) :=
  [("PMML", sPMML), ("Header", sHeader), ("DataDictionary", sDataDictionary),
   ("TransformationDictionary", sTransformationDictionary), ("MiningBuildTask", sMiningBuildTask),
   ("AssociationModel", sAssociationModel), ("BaselineModel", sBaselineModel),
   ("BayesianNetworkModel", sBayesianNetworkModel), ("ClusteringModel", sClusteringModel),
   ("GaussianProcessModel", sGaussianProcessModel), ("GeneralRegressionModel", sGeneralRegressionModel),
   ("MiningModel", sMiningModel), ("NaiveBayesModel", sNaiveBayesModel),
   ("NearestNeighborModel", sNearestNeighborModel), ("NeuralNetwork", sNeuralNetwork),
   ("RegressionModel", sRegressionModel), ("RuleSetModel", sRuleSetModel), ("Scorecard", sScorecard),
   ("SequenceModel", sSequenceModel), ("SupportVectorMachineModel", sSupportVectorMachineModel),
   ("TextModel", sTextModel), ("TimeSeriesModel", sTimeSeriesModel), ("TreeModel", sTreeModel),
   ("Annotation", sAnnotation), ("Application", sApplication), ("Extension", sExtension),
   ("Timestamp", sTimestamp), ("DataField", sDataField), ("Taxonomy", sTaxonomy),
   ("DefineFunction", sDefineFunction), ("DerivedField", sDerivedField),
   ("AssociationRule", sAssociationRule), ("Item", sItem), ("Itemset", sItemset),
   ("LocalTransformations", sLocalTransformations), ("MiningSchema", sMiningSchema),
   ("ModelStats", sModelStats), ("ModelVerification", sModelVerification), ("Output", sOutput),
   ("ModelExplanation", sModelExplanation), ("Targets", sTargets),
   ("BayesianNetworkNodes", sBayesianNetworkNodes), ("Segmentation", sSegmentation),
   ("RegressionTable", sRegressionTable), ("Node", sNode), ("Interval", sInterval), ("Value", sValue),
   ("ChildParent", sChildParent), ("ParameterField", sParameterField), ("Aggregate", sAggregate),
   ("Apply", sApply), ("Constant", sConstant), ("Discretize", sDiscretize), ("FieldRef", sFieldRef),
   ("Lag", sLag), ("MapValues", sMapValues), ("NormContinuous", sNormContinuous),
   ("NormDiscrete", sNormDiscrete), ("TextIndex", sTextIndex), ("MiningField", sMiningField),
   ("MultivariateStats", sMultivariateStats), ("UnivariateStats", sUnivariateStats),
   ("InlineTable", sInlineTable), ("VerificationFields", sVerificationFields), ("OutputField", sOutputField),
   ("Correlations", sCorrelations), ("Target", sTarget), ("Segment", sSegment),
   ("NumericPredictor", sNumericPredictor), ("ScoreDistribution", sScoreDistribution),
   ("Partition", sPartition), ("CompoundPredicate", sCompoundPredicate), ("False", sFalse),
   ("SimplePredicate", sSimplePredicate), ("SimpleSetPredicate", sSimpleSetPredicate), ("True", sTrue),
   ("DecisionTree", sDecisionTree), ("Regression", sRegression), ("FieldColumnPair", sFieldColumnPair),
   ("TableLocator", sTableLocator), ("MultivariateStat", sMultivariateStat), ("Anova", sAnova),
   ("ContStats", sContStats), ("Counts", sCounts), ("DiscrStats", sDiscrStats),
   ("NumericInfo", sNumericInfo), ("Row", sRow), ("VerificationField", sVerificationField),
   ("TargetValue", sTargetValue), ("ArrayType", sArrayType), ("AnovaRow", sAnovaRow), ("Quantile", sQuantile)]

/-- The first entry under a name. -/
def find {α : Type} (k : String) : List (String × α) → Option α
  | [] => none
  | (n, x) :: l => if k = n then some x else find k l

section
variable (F : Type) [Arith F] [Lib F]

/-- Whether a text can be read into a kind. -/
def Kind.reads : Kind → String → Bool
  | .string, _ => true
  | .float64, v => (attrFloat (F := F) v).isOk
  | .int, v => (attrInt v).isOk
  | .uint, v => (attrUint v).isOk
  | .bool, v => (attrBool v).isOk
  | .count, v => v = "" || (Lib.parseFloat v : Option F).isSome
  | .yesNo, v => v = "yes" || v = "no"

/-- `unmarshalAttr`, or the loop over `start.Attr`: attributes without a field are not looked at. -/
def attrReads (s : GoStruct) (a : String × String) : Bool :=
  match find a.1 s.attrs with
  | none => true
  | some k => k.reads F a.2

mutual
/-- One child of an element of the type `s`. -/
def childReads (s : GoStruct) : Xml → Bool
  | .text _ _ => true
  | .elem n as ch =>
    match find n s.fields with
    | none => !s.strict
    | some t =>
      if t = "float64" then Kind.float64.reads F (Xml.chardata ch)
      else
        match find t goStructs with
        | none => true
        | some s' => as.all (attrReads F s') && childrenRead s' ch
/-- All children of an element of the type `s`. -/
def childrenRead (s : GoStruct) : List Xml → Bool
  | [] => true
  | c :: cs => childReads s c && childrenRead s cs
end

/-- Whether an element can be decoded into a variable of the type `t`. -/
def reads (t : String) (as : Attrs) (ch : List Xml) : Bool :=
  match find t goStructs with
  | none => true
  | some s => as.all (attrReads F s) && childrenRead F s ch

/-- The elements no evaluator looks at are decoded as their struct tags say. -/
@[instance_reducible] def goReflect : Reflect := ⟨reads F⟩

end

/-- main/perftest.go:55-60 with nothing left open: every element is decoded as its type says. -/
def decodeAll {F : Type} [Arith F] [Lib F] (as : Attrs) (ch : List Xml) : Dec (Pmml F) :=
  letI := goReflect F
  decodePmml as ch

/-- main/perftest.go:47-86, likewise -/
def runAll {F : Type} [Arith F] [Lib F] [Trans F] (as : Attrs) (ch : List Xml) (calls : List (MapOrd × Row F)) :
    Except Crash (List (Out F)) :=
  letI := goReflect F
  runFile as ch calls

end Structs

end Gopmml
