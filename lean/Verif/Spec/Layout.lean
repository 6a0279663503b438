import Verif.Spec.Xml

/-!
# Two ways of writing the same document

`Relay` relates two lists of XML nodes that differ only in

* text between elements (indentation, line breaks, stray words),
* the order in which an element's attributes are written, and
* attributes no decoder reads.

The content of a few elements is taken over word by word (`verbatim`): the elements decoded by
`Reflect` are arbitrary functions of their content, and a `Constant` is given its source text, which
has to stay the same.  In a `row` the text between the cells is free, the text of a cell may be
spelled in other ways.
-/

namespace Gopmml.Spec

/-- Elements whose content is not layout. -/
def verbatim (n : String) : Bool :=
  n ∈ ["Constant", "ModelExplanation", "ModelStats", "Taxonomy", "AssociationModel",
    "BaselineModel", "BayesianNetworkModel", "ClusteringModel", "GaussianProcessModel",
    "GeneralRegressionModel", "NaiveBayesModel", "NearestNeighborModel", "NeuralNetwork",
    "RuleSetModel", "Scorecard", "SequenceModel", "SupportVectorMachineModel", "TextModel",
    "TimeSeriesModel"]

/-- The content may be laid out in another way. -/
def Free (n : String) (ch ch' : List Xml) : Prop :=
  verbatim n = false ∨ n = "Constant" ∧ Xml.sources ch = Xml.sources ch'

/-- The attributes some decoder reads. -/
def readAttrs : List String :=
  ["booleanOperator", "coefficient", "column", "confidence", "dataType", "defaultChild",
   "defaultValue", "exponent", "feature", "field", "fieldCount", "function", "functionName",
   "highValue", "id", "importance", "intercept", "invalidValueTreatment", "isCyclic",
   "isMultiValued", "isScorable", "leftMargin", "lowValue", "max", "min", "missingValuePenalty",
   "missingValueReplacement", "missingValueStrategy", "multipleModelMethod", "n", "name",
   "noTrueChildStrategy", "normalizationMethod", "numberOfFields", "operator", "optype",
   "outliers", "precision", "probability", "rank", "recordCount", "rescaleConstant",
   "rescaleFactor", "rightMargin", "score", "targetCategory", "usageType", "value", "version",
   "zeroThreshold"]

/-- The same attributes, in any order, up to attributes that are never read.  (No name occurs twice
in the attributes of a well-formed element.) -/
structure SameAttrs (as as' : Attrs) : Prop where
  once : (as.map (·.1)).Nodup
  once' : (as'.map (·.1)).Nodup
  same : ∀ k ∈ readAttrs, ∀ v, (k, v) ∈ as ↔ (k, v) ∈ as'

/-- The same content in another layout.  The flag is set inside a `row`. -/
inductive Relay : Bool → List Xml → List Xml → Prop
  | nil {b : Bool} : Relay b [] []
  | left {b : Bool} {raw val : String} {xs ys : List Xml} :
      Relay b xs ys → Relay b (.text raw val :: xs) ys
  | right {b : Bool} {raw val : String} {xs ys : List Xml} :
      Relay b xs ys → Relay b xs (.text raw val :: ys)
  | same {b : Bool} {n : String} {as : Attrs} {ch xs ys : List Xml} :
      Relay b xs ys → Relay b (.elem n as ch :: xs) (.elem n as ch :: ys)
  | inside {b : Bool} {n : String} {as as' : Attrs} {ch ch' xs ys : List Xml} : Free n ch ch' →
      SameAttrs as as' → Relay (n == "row") ch ch' →
      (b = true → Xml.chardata ch = Xml.chardata ch') → Relay b xs ys →
      Relay b (.elem n as ch :: xs) (.elem n as' ch' :: ys)

end Gopmml.Spec
