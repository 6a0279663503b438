import Verif.Spec.Tree
import Verif.Model.Mining
import Mathlib.Data.List.Dedup

/-!
# What answers, rows and evaluators may contain (C83)
-/

namespace Gopmml.Spec

variable {F : Type}

mutual
/-- The labels written in a tree, with repetitions. -/
def labels : Node F → List String
  | .mk _ _ score _ ds ns _ => score :: (ds.map (·.value) ++ labelsList ns)
def labelsList : List (Node F) → List String
  | [] => []
  | n :: ns => labels n ++ labelsList ns
end

/-- The labels of a document: those written in its tree and the declared values of its target. -/
def treeLabels (dd : List DataField) (d : TreeDoc F) : List String :=
  labels d.node ++ targetValues dd (targetOf d.miningFields)

mutual
/-- The keys an answer may have. -/
def answerKeys (dd : List DataField) : ModelElem F → List String
  | .tree d =>
    if d.functionName = .classification then
      targetOf d.miningFields :: (treeLabels dd d).map fun l => "probability(" ++ l ++ ")"
    else ["score"]
  | .regression d => "" :: d.outputs.map (·.name)
  | .mining h segs =>
    if h.method = .modelChain ∨ h.method = .selectFirst then segsAnswerKeys dd segs
    else h.outputs.map (·.name) ++ h.targets.map (·.field)
  | .other _ => []
def segsAnswerKeys (dd : List DataField) : List (SegDoc F) → List String
  | [] => []
  | .mk _ _ es :: segs => elemsAnswerKeys dd es ++ segsAnswerKeys dd segs
def elemsAnswerKeys (dd : List DataField) : List (ModelElem F) → List String
  | [] => []
  | e :: es => answerKeys dd e ++ elemsAnswerKeys dd es
end

mutual
/-- The keys evaluation may add to the row. -/
def addedKeys (dd : List DataField) : ModelElem F → List String
  | .tree d => d.localTransformations.map (·.name)
  | .regression _ => []
  | .mining h segs =>
    ((h.miningFields.filter fun f => f.missingValueReplacement.isSome).map (·.name)) ++
    h.localTransformations.map (·.name) ++ segsAddedKeys dd segs ++
    if h.method = .modelChain then segsAnswerKeys dd segs else []
  | .other _ => []
def segsAddedKeys (dd : List DataField) : List (SegDoc F) → List String
  | [] => []
  | .mk _ _ es :: segs => elemsAddedKeys dd es ++ segsAddedKeys dd segs
def elemsAddedKeys (dd : List DataField) : List (ModelElem F) → List String
  | [] => []
  | e :: es => addedKeys dd e ++ elemsAddedKeys dd es
end

mutual
/-- How many different labels each tree of a document has, added up. -/
def labelCount (dd : List DataField) : ModelElem F → Nat
  | .tree d => (treeLabels dd d).dedup.length
  | .regression _ => 0
  | .mining _ segs => segsLabelCount dd segs
  | .other _ => 0
def segsLabelCount (dd : List DataField) : List (SegDoc F) → Nat
  | [] => 0
  | .mk _ _ es :: segs => elemsLabelCount dd es + segsLabelCount dd segs
def elemsLabelCount (dd : List DataField) : List (ModelElem F) → Nat
  | [] => 0
  | e :: es => labelCount dd e + elemsLabelCount dd es
end

mutual
/-- How many entries the caches of an evaluator hold. -/
def cached : EModel F → Nat
  | .tree m => m.outKeys.size
  | .regression _ => 0
  | .mining _ ms => cachedList ms
def cachedList : List (EModel F) → Nat
  | [] => 0
  | m :: ms => cached m + cachedList ms
end

end Gopmml.Spec
