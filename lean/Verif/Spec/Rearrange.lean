import Verif.Model.Structs

/-!
# Documents in another order

Elements of different kinds may change places, at any depth, and so may attributes of different names.
Predicates are of one kind, whatever their names, and so are expressions and models. Text keeps its order but may
stand before or behind an element. Nothing is changed inside a constant: its value is its source.
-/

namespace Gopmml.Spec

/-- The attributes in another order, those of one name in theirs. -/
def AttrsReordered (as as' : Attrs) : Prop :=
  as.Perm as' ∧ ∀ k : String, as.filter (fun a => decide (a.1 = k)) = as'.filter (fun a => decide (a.1 = k))

def predicateNames : List String := ["CompoundPredicate", "False", "SimplePredicate", "SimpleSetPredicate", "True"]

def expressionNames : List String :=
  ["Aggregate", "Apply", "Constant", "Discretize", "FieldRef", "Lag", "MapValues", "NormContinuous", "NormDiscrete", "TextIndex"]

def modelNames : List String :=
  ["AssociationModel", "BaselineModel", "BayesianNetworkModel", "ClusteringModel", "GaussianProcessModel",
   "GeneralRegressionModel", "MiningModel", "NaiveBayesModel", "NearestNeighborModel", "NeuralNetwork",
   "RegressionModel", "RuleSetModel", "Scorecard", "SequenceModel", "SupportVectorMachineModel", "TextModel",
   "TimeSeriesModel", "TreeModel"]

/-- What an item of a document is, as far as its place among the others matters. -/
inductive ItemKind where
  | text
  | predicate
  | expression
  | model
  | named (n : String)
  deriving DecidableEq

def kindOf : Xml → ItemKind
  | .text _ _ => .text
  | .elem n _ _ =>
    if n ∈ predicateNames then .predicate
    else if n ∈ expressionNames then .expression
    else if n ∈ modelNames then .model
    else .named n

/-- Two contents that differ in the order of items of different kinds only. -/
inductive Rearranged : List Xml → List Xml → Prop
  | refl (ch : List Xml) : Rearranged ch ch
  | trans {ch₁ ch₂ ch₃ : List Xml} : Rearranged ch₁ ch₂ → Rearranged ch₂ ch₃ → Rearranged ch₁ ch₃
  | skip (x : Xml) {ch ch' : List Xml} : Rearranged ch ch' → Rearranged (x :: ch) (x :: ch')
  | swap {x y : Xml} (ch : List Xml) : kindOf x ≠ kindOf y → Rearranged (x :: y :: ch) (y :: x :: ch)
  | inside {n : String} (as : Attrs) {ch ch' : List Xml} (cs : List Xml) : n ≠ "Constant" → Rearranged ch ch' →
      Rearranged (.elem n as ch :: cs) (.elem n as ch' :: cs)
  | attrs (n : String) {as as' : Attrs} (ch cs : List Xml) : AttrsReordered as as' →
      Rearranged (.elem n as ch :: cs) (.elem n as' ch :: cs)

end Gopmml.Spec
