import Verif.Spec.Document

/-!
# Live fields

The fields of the row whose values on entry can matter to a model: a field that is computed as a
derived field before anything reads it is not live.  `liveIn e after` is the set of fields needed on
entry so that the answer is determined, and the fields `after` are determined afterwards.
-/

namespace Gopmml.Spec

variable {F : Type}

mutual
/-- The fields the predicates of a tree read. -/
def nodeFields : Node F → List String
  | .mk _ _ _ _ _ ns p =>
    (match p with
      | some q => predFields q
      | none => []) ++ nodesFields ns
def nodesFields : List (Node F) → List String
  | [] => []
  | n :: ns => nodeFields n ++ nodesFields ns
end

/-- Computing derived fields one after the other, backwards: a field is needed if the expression
reads it, or if it is needed later and not computed here. -/
def needs : List (DerivedField F) → List String → List String
  | [], after => after
  | d :: ds, after => exprFields d.expr ++ (needs ds after).filter (· ≠ d.name)

mutual
def liveIn : ModelElem F → List String → List String
  | .tree d, after => needs d.localTransformations (nodeFields d.node ++ after)
  | .regression d, after => d.tables.flatMap (fun t => t.predictors.map (·.name)) ++ after
  | .mining h segs, after =>
    needs h.localTransformations
      (if h.method = .selectFirst then liveFirst segs after else liveSegs segs after)
  | .other _, after => after
/-- One segment (a model is only built if every segment holds one model). -/
def liveSeg : SegDoc F → List String → List String
  | .mk _ _ es, after => liveModels es after
def liveModels : List (ModelElem F) → List String → List String
  | [], after => after
  | e :: es, after => liveIn e (liveModels es after)
def liveFirst : List (SegDoc F) → List String → List String
  | [], after => after
  | s :: _, after => liveSeg s after
def liveSegs : List (SegDoc F) → List String → List String
  | [], after => after
  | s :: ss, after => liveSeg s (liveSegs ss after)
end

end Gopmml.Spec
