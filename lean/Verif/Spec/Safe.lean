import Verif.Spec.Regression
import Verif.Spec.Mining
import Verif.Spec.Tree

/-!
# A check that rules out run-time errors

Computed on the document alone, given the names `K` of the fields every row is known to hold.
-/

namespace Gopmml.Spec

variable {F : Type}

/-- A text that can be read at the given type. -/
def readable (F : Type) [Lib F] (dt : DataType) (text : String) : Bool :=
  match dt with
  | .boolean => (parseBool text).isSome
  | .double | .float => (Lib.parseFloat text : Option F).isSome
  | .integer => (parseInt text).isSome
  | .string => true
  | .other _ => false

/-- The functions the library knows, with the number of their arguments. -/
def knownCall (fn : String) (args : Nat) : Bool :=
  fn == "sum" ||
  ["+", "-", "*", "/"].contains fn && args == 2 ||
  ["isMissing", "isNotMissing"].contains fn && args == 1 ||
  fn == "if" && args == 3

section
variable [Lib F]

mutual
/-- An expression that has a value in every row that holds the fields `K`. -/
def safeExpr (K : List String) : Expr F → Bool
  | .fieldRef _ => true
  | .const dt text => dt == .double && readable F dt text
  | .apply fn args => knownCall fn args.length && safeExprs K args
  | .mapValues m =>
    match m.defaultValue with
    | some text => readable F m.dataType text
    | none => m.fieldColumnPairs.any fun p => p.column == "data:input" && K.contains p.field
  | .other _ => false
def safeExprs (K : List String) : List (Expr F) → Bool
  | [] => true
  | e :: es => safeExpr K e && safeExprs K es
end

mutual
/-- Expressions without choices: every part is always computed. -/
def plain : Expr F → Bool
  | .apply fn args => fn != "if" && plains args
  | .mapValues _ => false
  | .fieldRef _ => true
  | .const _ _ => true
  | .other _ => true
def plains : List (Expr F) → Bool
  | [] => true
  | e :: es => plain e && plains es
end

/-- Derived fields may use the ones before them. -/
def safeDerived (K : List String) : List (DerivedField F) → Bool
  | [] => true
  | df :: dfs => safeExpr K df.expr && safeDerived (df.name :: K) dfs

mutual
def everyNode (p : Node F → Bool) : Node F → Bool
  | .mk id dc score rc dists nodes pred => p (.mk id dc score rc dists nodes pred) && everyNodes p nodes
def everyNodes (p : Node F → Bool) : List (Node F) → Bool
  | [] => true
  | n :: ns => everyNode p n && everyNodes p ns
end

/-- The text a node would be asked to report as a number. -/
def numberText (dd : List DataField) (d : TreeDoc F) (n : Node F) : Option String :=
  match n.dists with
  | s :: _ => some s.value
  | [] =>
    if targetOf d.miningFields = "" then some n.score else (targetValues dd (targetOf d.miningFields)).head?

/-- The strategies that go from node to child and answer with the node they end at. -/
def goesDown : MissingValueStrategy → Bool
  | .none | .other _ | .nullPrediction => true
  | _ => false

/-- A child that holds on every row. -/
def hasSureChild (n : Node F) : Bool :=
  n.nodes.any fun c => match c.pred with
    | some .true_ => true
    | _ => false

/-- A node at which a regression tree either never ends or finds a number to report. -/
def reportsNumber (dd : List DataField) (d : TreeDoc F) (n : Node F) : Bool :=
  goesDown d.missingValueStrategy && hasSureChild n ||
  (n.nodes.isEmpty || d.noTrueChildStrategy != .returnNullPrediction) &&
    (match numberText dd d n with
      | some text => readable F .double text
      | none => false)

/-- A tree that answers every row that holds the fields `K`. -/
def safeTree (dd : List DataField) (K : List String) (d : TreeDoc F) : Bool :=
  everyNode (fun n => n.pred.isSome) d.node && safeDerived K d.localTransformations &&
  (d.functionName != .regression ||
    (goesDown d.missingValueStrategy || d.missingValueStrategy == .lastPrediction) &&
      everyNode (reportsNumber dd d) d.node)

end

/-- The normalization methods of the library: for a single score, and for several tables. -/
def linkKnown : Normalization → Bool
  | .softmax | .logit | .exp | .cloglog | .cauchit => true
  | _ => false

def weightKnown : Normalization → Bool
  | .softmax | .simplemax => true
  | _ => false

/-- The fields a table reads. -/
def tableFields (d : RegressionDoc F) : List String := d.tables.flatMap fun t => t.predictors.map (·.name)

/-- A regression of a kind the library can evaluate. -/
def regressionKnown (d : RegressionDoc F) : Bool :=
  match d.functionName with
  | .regression => d.tables.length == 1 && d.outputs.length == 1 && linkKnown d.normalization
  | .classification =>
    if d.outputs.length = 2 then (tableFields d).isEmpty || linkKnown d.normalization
    else d.tables.isEmpty || weightKnown d.normalization
  | .other _ => false

/-- A regression that answers every row that holds the fields `K`. -/
def safeRegression (K : List String) (d : RegressionDoc F) : Bool :=
  (tableFields d).all (K.contains ·) && regressionKnown d

/-- Names that are certain to be in the answer of a regression. -/
def regressionGives (d : RegressionDoc F) : List String :=
  match d.functionName with
  | .regression => d.outputs.map (·.name)
  | .classification =>
    if d.outputs.length = 2 then
      (d.outputs.filter fun o => (d.tables.map (·.targetCategory)).contains o.value).map (·.name)
    else d.tables.map fun t => reportedAs d.outputs t.targetCategory
  | .other _ => []

/-- Fields with a value for rows that lack them. -/
def replaced (fs : List MiningField) : List String :=
  (fs.filter (·.missingValueReplacement.isSome)).map (·.name)

mutual
/-- Names that are certain to be in the answer of a model. -/
def gives : ModelElem F → List String
  | .tree _ => []
  | .regression d => regressionGives d
  | .mining h segs =>
    match effectiveMethod h.method with
    | .modelChain => lastGives segs
    | .selectFirst => firstGives segs
    | _ => ensembleKeys h
  | .other _ => []
def lastGives : List (SegDoc F) → List String
  | [] => []
  | [.mk _ _ [e]] => gives e
  | .mk _ _ _ :: segs => lastGives segs
def firstGives : List (SegDoc F) → List String
  | .mk _ _ [e] :: _ => gives e
  | _ => []
end

mutual
/-- Names that are certain to be in the row once a model has been evaluated on it. -/
def leaves : ModelElem F → List String
  | .tree d => d.localTransformations.map (·.name)
  | .regression _ => []
  | .mining h segs =>
    (match effectiveMethod h.method with
      | .selectFirst => firstLeaves segs
      | _ => segsLeave segs) ++ h.localTransformations.map (·.name) ++ replaced h.miningFields
  | .other _ => []
def segsLeave : List (SegDoc F) → List String
  | [] => []
  | .mk _ _ [e] :: segs => segsLeave segs ++ leaves e
  | .mk _ _ _ :: segs => segsLeave segs
def firstLeaves : List (SegDoc F) → List String
  | .mk _ _ [e] :: _ => leaves e
  | _ => []
end

section
variable [Lib F]

mutual
/-- A model that answers every row that holds the fields `K`. -/
def safe (dd : List DataField) (K : List String) : ModelElem F → Bool
  | .tree d => safeTree dd K d
  | .regression d => safeRegression K d
  | .mining h segs =>
    safeDerived (replaced h.miningFields ++ K) h.localTransformations &&
    match effectiveMethod h.method with
    | .selectFirst => safeFirst dd (h.localTransformations.map (·.name) ++ replaced h.miningFields ++ K) segs
    | .modelChain =>
      safeSegs dd true (h.localTransformations.map (·.name) ++ replaced h.miningFields ++ K) segs
    | _ => safeSegs dd false (h.localTransformations.map (·.name) ++ replaced h.miningFields ++ K) segs
  | .other _ => false
/-- Every segment may use what the ones before it leave in the row; in a chain also their answers. -/
def safeSegs (dd : List DataField) (chain : Bool) (K : List String) : List (SegDoc F) → Bool
  | [] => true
  | .mk _ _ [e] :: segs =>
    safe dd K e && safeSegs dd chain ((if chain then gives e else []) ++ leaves e ++ K) segs
  | .mk _ _ _ :: _ => false
def safeFirst (dd : List DataField) (K : List String) : List (SegDoc F) → Bool
  | .mk _ _ [e] :: _ => safe dd K e
  | _ => false
end

end

end Gopmml.Spec
