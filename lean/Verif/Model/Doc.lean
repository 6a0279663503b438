import Verif.Model.Value

/-!
# The PMML document structures the evaluator reads (models/elements.go)

Fields that `evaluation/*.go` never reads (Extensions, ModelStats, ...) are left
out.  String enumerations become inductive types with an `other` case for every
other string (including the empty one).
-/

namespace Gopmml

/-- models/simpleTypes.go:342-352 `MiningFunction` -/
inductive MiningFunction where
  | classification | regression | other (s : String)
  deriving DecidableEq, Repr

/-- models/simpleTypes.go:366-375 `MissingValueStrategy` -/
inductive MissingValueStrategy where
  | aggregateNodes | defaultChild | lastPrediction | none | nullPrediction | weightedConfidence
  | other (s : String)
  deriving DecidableEq, Repr

/-- models/simpleTypes.go:468-473 `NoTrueChildStrategy` -/
inductive NoTrueChildStrategy where
  | returnLastPrediction | returnNullPrediction | other (s : String)
  deriving DecidableEq, Repr

/-- models/elements.go:4707-4718 `SimplePredicateOperator` -/
inductive SimpleOp where
  | equal | greaterOrEqual | greaterThan | isMissing | isNotMissing | lessOrEqual | lessThan
  | notEqual | other (s : String)
  deriving DecidableEq, Repr

/-- models/elements.go:1182-1189 `CompoundPredicateOperator` -/
inductive BoolOp where
  | and | or | surrogate | xor | other (s : String)
  deriving DecidableEq, Repr

/-- models/elements.go:4745-4752 `SimplePredicate`; `raw` is `RawPredicateValue`. -/
structure SimplePred (F : Type) where
  field : String
  op : SimpleOp
  value : String
  raw : GoVal F := .nil

/-- models/groups.go:247-249 `Predicate` and its five implementations. -/
inductive Pred (F : Type) where
  | true_
  | false_
  | simple (p : SimplePred F)
  /-- models/elements.go:4803-4809 `SimpleSetPredicate` (contents never read) -/
  | set (field : String)
  /-- models/elements.go:1213-1218 `CompoundPredicate` -/
  | compound (op : BoolOp) (ps : List (Pred F))

/-- models/elements.go:4394-4400 `ScoreDistribution` -/
structure ScoreDistribution (F : Type) where
  value : String
  recordCount : F
  confidence : Option F
  probability : Option F

/-- models/elements.go:3333-3345 `Node`; `pred = none` is a nil predicate. -/
inductive Node (F : Type) where
  | mk (id defaultChild score : String) (recordCount : F)
      (dists : List (ScoreDistribution F)) (nodes : List (Node F)) (pred : Option (Pred F))

/-- models/simpleTypes.go:225-236 `FieldUsageType` -/
inductive UsageType where
  | active | target | other (s : String)
  deriving DecidableEq, Repr

/-- models/elements.go:2904-2917 `MiningField` -/
structure MiningField where
  name : String
  usageType : UsageType
  outliers : String
  invalidValueTreatment : String
  missingValueReplacement : Option String
  deriving DecidableEq, Repr

/-- models/elements.go:1608-1619 `DataField` -/
structure DataField where
  name : String
  dataType : DataType
  values : List String
  deriving DecidableEq, Repr

/-- models/elements.go:2117-2121 `FieldColumnPair` -/
structure FieldColumnPair where
  column : String
  field : String
  deriving DecidableEq, Repr

/-- models/elements.go:2772-2780 `MapValues`; an inline table is its list of rows
(models/elements.go:2401-2404, 5969 `Row map[string]interface{}`). -/
structure MapValues (F : Type) where
  defaultValue : Option String
  dataType : DataType
  fieldColumnPairs : List FieldColumnPair
  inlineTables : List (List (GoMap (GoVal F)))

/-- models/groups.go:63-65 `Expression`.  `other` stands for every kind
`HandleExpression` does not know, and for a nil expression. -/
inductive Expr (F : Type) where
  | fieldRef (field : String)
  | const (dataType : DataType) (value : String)
  | apply (function : String) (args : List (Expr F))
  | mapValues (m : MapValues F)
  | other (kind : String)

/-- models/simpleTypes.go:491-497 `OpType` -/
inductive OpType where
  | continuous | other (s : String)
  deriving DecidableEq, Repr

/-- models/elements.go:1820-1829 `DerivedField` -/
structure DerivedField (F : Type) where
  name : String
  dataType : DataType
  opType : OpType
  expr : Expr F

/-- models/elements.go:5817-5823 `VerificationField` -/
structure VerificationField (F : Type) where
  field : String
  column : String
  precision : Option F

/-- models/elements.go:3056-3063 `ModelVerification` -/
structure ModelVerification (F : Type) where
  fields : List (VerificationField F)
  rows : List (GoMap (GoVal F))

/-- models/elements.go:5526-5545 `TreeModel` -/
structure TreeDoc (F : Type) where
  functionName : MiningFunction
  missingValuePenalty : F
  missingValueStrategy : MissingValueStrategy
  noTrueChildStrategy : NoTrueChildStrategy
  localTransformations : List (DerivedField F)
  miningFields : List MiningField
  verification : Option (ModelVerification F)
  node : Node F

/-- models/simpleTypes.go:595-621 `ResultFeature` -/
inductive ResultFeature where
  | empty | probability | other (s : String)
  deriving DecidableEq, Repr

/-- models/elements.go:3616-3632 `OutputField` -/
structure OutputField where
  name : String
  feature : ResultFeature
  value : String
  deriving DecidableEq, Repr

/-- models/simpleTypes.go:552-564 `RegressionNormalizationMethod` -/
inductive Normalization where
  | cauchit | cloglog | exp | logit | none | simplemax | softmax | empty | other (s : String)
  deriving DecidableEq, Repr

/-- models/elements.go:3527-3533 `NumericPredictor` -/
structure NumericPredictor (F : Type) where
  name : String
  coefficient : F
  exponent : Int

/-- models/elements.go:4285-4290 `RegressionTable` -/
structure RegressionTable (F : Type) where
  intercept : F
  targetCategory : String
  predictors : List (NumericPredictor F)

/-- models/elements.go:4250-4267 `RegressionModel` -/
structure RegressionDoc (F : Type) where
  functionName : MiningFunction
  normalization : Normalization
  tables : List (RegressionTable F)
  outputs : List OutputField
  verification : Option (ModelVerification F)

/-- models/simpleTypes.go:414-427 `MultipleModelMethod` -/
inductive MultipleModelMethod where
  | average | modelChain | selectFirst | sum | empty | other (s : String)
  deriving DecidableEq, Repr

/-- models/elements.go:4956-4967 `Target` -/
structure Target (F : Type) where
  field : String
  rescaleConstant : Option F
  rescaleFactor : Option F

/-- models/elements.go:2945-2959 `MiningModel` without its segments. -/
structure MiningHead (F : Type) where
  functionName : MiningFunction
  method : MultipleModelMethod
  verification : Option (ModelVerification F)
  miningFields : List MiningField
  localTransformations : List (DerivedField F)
  outputs : List OutputField
  targets : List (Target F)

mutual
/-- models/groups.go:180-182 `ModelElement`. `other` is any kind NewModel rejects. -/
inductive ModelElem (F : Type) where
  | tree (d : TreeDoc F)
  | regression (d : RegressionDoc F)
  | mining (h : MiningHead F) (segments : List (SegDoc F))
  | other (kind : String)
/-- models/elements.go:4495-4500 `Segment` -/
inductive SegDoc (F : Type) where
  | mk (id : String) (predicates : List (Pred F)) (models : List (ModelElem F))
end

end Gopmml
