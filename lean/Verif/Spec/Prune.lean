import Verif.Spec.Rearrange

/-!
# What a document need not have

Of a document only the elements and attributes listed here can matter for an answer. Everything else may be
left out, at any depth: headers, extensions, statistics, intervals, and the content of the elements that are
described by their attributes alone. Nothing is left out inside a constant, whose value is its source, or
inside a row of a table, where every name is a column.
-/

namespace Gopmml.Spec

/-- The attributes that can matter. -/
def saidAttrs : List String :=
  ["booleanOperator", "coefficient", "column", "confidence", "dataType", "defaultChild", "defaultValue", "exponent",
   "feature", "field", "function", "functionName", "id", "intercept", "invalidValueTreatment",
   "missingValuePenalty", "missingValueReplacement", "missingValueStrategy", "multipleModelMethod", "name",
   "noTrueChildStrategy", "normalizationMethod", "operator", "optype", "outliers", "precision", "probability",
   "recordCount", "rescaleConstant", "rescaleFactor", "score", "targetCategory", "usageType", "value", "version"]

/-- The elements that can matter. -/
def saidNames : List String :=
  predicateNames ++ expressionNames ++ modelNames ++
  ["DataDictionary", "DataField", "DerivedField", "FieldColumnPair", "InlineTable", "LocalTransformations",
   "MiningField", "MiningSchema", "ModelVerification", "Node", "NumericPredictor", "Output", "OutputField",
   "RegressionTable", "row", "ScoreDistribution", "Segment", "Segmentation", "Target", "Targets",
   "TransformationDictionary", "Value", "VerificationField", "VerificationFields"]

/-- The elements whose content never matters. -/
def leafNames : List String :=
  ["False", "FieldColumnPair", "FieldRef", "MiningField", "NumericPredictor", "OutputField", "ScoreDistribution",
   "SimplePredicate", "SimpleSetPredicate", "Target", "True", "Value", "VerificationField",
   "Aggregate", "Discretize", "Lag", "NormContinuous", "NormDiscrete", "TextIndex",
   "AssociationModel", "BaselineModel", "BayesianNetworkModel", "ClusteringModel", "GaussianProcessModel",
   "GeneralRegressionModel", "NaiveBayesModel", "NearestNeighborModel", "NeuralNetwork", "RuleSetModel", "Scorecard",
   "SequenceModel", "SupportVectorMachineModel", "TextModel", "TimeSeriesModel"]

/-- The attributes that can matter for an answer. -/
def coreAttrs : List String :=
  saidAttrs.filter fun k => decide (k ∉ ["exponent", "invalidValueTreatment", "outliers", "precision", "version"])

/-- The elements that can matter for an answer. -/
def coreNames : List String :=
  saidNames.filter fun n => decide (n ∉ ["ModelVerification", "VerificationField", "VerificationFields"])

/-- Some attributes have been left out, none of those in the list. -/
def AttrsPruned (A : List String) (as as' : Attrs) : Prop :=
  as'.Sublist as ∧ ∀ k ∈ A, as.filter (fun a => decide (a.1 = k)) = as'.filter (fun a => decide (a.1 = k))

/-- Something has been left out, no element in the list `N` and no attribute in the list `A`. -/
inductive Pruned (N A : List String) : List Xml → List Xml → Prop
  | refl (ch : List Xml) : Pruned N A ch ch
  | trans {ch₁ ch₂ ch₃ : List Xml} : Pruned N A ch₁ ch₂ → Pruned N A ch₂ ch₃ → Pruned N A ch₁ ch₃
  | skip (x : Xml) {ch ch' : List Xml} : Pruned N A ch ch' → Pruned N A (x :: ch) (x :: ch')
  | drop {n : String} (as : Attrs) (ch cs : List Xml) : n ∉ N → Pruned N A (.elem n as ch :: cs) cs
  | hollow {n : String} (as : Attrs) (ch cs : List Xml) : n ∈ leafNames →
      Pruned N A (.elem n as ch :: cs) (.elem n as [] :: cs)
  | inside {n : String} (as : Attrs) {ch ch' : List Xml} (cs : List Xml) : n ≠ "Constant" → n ≠ "row" →
      Pruned N A ch ch' → Pruned N A (.elem n as ch :: cs) (.elem n as ch' :: cs)
  | attrs (n : String) {as as' : Attrs} (ch cs : List Xml) : AttrsPruned A as as' →
      Pruned N A (.elem n as ch :: cs) (.elem n as' ch :: cs)

def bareAttrs (A : List String) (as : Attrs) : Attrs := as.filter fun a => decide (a.1 ∈ A)

mutual
/-- Everything else left out at once. -/
def bareItem (N A : List String) : Xml → List Xml
  | .text r v => [.text r v]
  | .elem n as ch =>
    if n ∉ N then []
    else if n ∈ leafNames then [.elem n (bareAttrs A as) []]
    else if n = "Constant" ∨ n = "row" then [.elem n (bareAttrs A as) ch]
    else [.elem n (bareAttrs A as) (bare N A ch)]
def bare (N A : List String) : List Xml → List Xml
  | [] => []
  | c :: cs => bareItem N A c ++ bare N A cs
end

end Gopmml.Spec
