import Verif.Spec.Predicate
import Verif.Model.Tree

/-!
# Specification of tree models on document level

Nodes are the document's `Node`s; nothing here mentions compiled nodes, closures,
caches or loops.
-/

namespace Gopmml

namespace Node
variable {F : Type}
def id : Node F → String | .mk i _ _ _ _ _ _ => i
def defaultChild : Node F → String | .mk _ d _ _ _ _ _ => d
def score : Node F → String | .mk _ _ s _ _ _ _ => s
def recordCount : Node F → F | .mk _ _ _ r _ _ _ => r
def dists : Node F → List (ScoreDistribution F) | .mk _ _ _ _ d _ _ => d
def nodes : Node F → List (Node F) | .mk _ _ _ _ _ n _ => n
def pred : Node F → Option (Pred F) | .mk _ _ _ _ _ _ p => p
end Node

namespace Spec

variable {F : Type}

/-- `Sub r n`: `r` is `n` or a descendant of it. -/
inductive Sub (r : Node F) : Node F → Prop
  | refl : Sub r r
  | child {n c : Node F} : c ∈ n.nodes → Sub r c → Sub r n

/-- Every node of the tree carries a predicate. -/
def AllPreds (n : Node F) : Prop := ∀ r, Sub r n → ∃ p, r.pred = some p

/-- The name of the last mining field with usage type target, `""` if there is none. -/
def targetOf (fs : List MiningField) : String :=
  (((fs.filter (fun f => f.usageType = .target)).getLast?).map (·.name)).getD ""

/-- The declared values of the data fields with the given name. -/
def targetValues (dd : List DataField) (target : String) : List String :=
  (dd.filter (fun f => f.name = target)).flatMap (·.values)

/-- The declared type of a field: the last derived field of that name, else the last
data field. -/
def declaredType (dd : List DataField) (td : TD F) (name : String) : Option DataType :=
  match (td.filter (fun f => f.name = name)).getLast? with
  | some f => some f.dataType
  | none => ((dd.filter (fun f => f.name = name)).getLast?).map (·.dataType)

/-- The fields and types a tree's predicates may refer to. -/
abbrev treeTypes (dd : List DataField) (td : TD F) (d : TreeDoc F) : FieldTypes :=
  buildTypes dd (td ++ d.localTransformations)

section
variable [Arith F]

/-- The declared distribution of a node: given confidences and probabilities, or each
label's share of the summed record counts. -/
def declaredDist (dists : List (ScoreDistribution F)) : List (ScoreDist F) :=
  let total := (dists.map (·.recordCount)).foldl Arith.add Arith.zero
  dists.map fun s =>
    { value := s.value
      confidence := match s.confidence with
        | some x => x
        | none => Arith.div s.recordCount total
      probability := match s.probability with
        | some x => x
        | none => Arith.div s.recordCount total
      recordCount := s.recordCount }

/-- All mass on the node's score, over the declared target values. -/
def oneHot (values : List String) (score : String) (rc : F) : List (ScoreDist F) :=
  values.map fun v =>
    ⟨v, if v = score then Arith.one else Arith.zero, if v = score then Arith.one else Arith.zero,
      if v = score then rc else Arith.zero⟩

/-- The distribution a node answers with when it is the answering node. -/
def ownDist (dd : List DataField) (d : TreeDoc F) (n : Node F) : List (ScoreDist F) :=
  if n.nodes ≠ [] ∧ d.noTrueChildStrategy = .returnNullPrediction then []
  else if n.dists ≠ [] then declaredDist n.dists
  else if targetOf d.miningFields ≠ "" then
    oneHot (targetValues dd (targetOf d.miningFields)) n.score n.recordCount
  else [⟨n.score, Arith.zero, Arith.zero, n.recordCount⟩]

variable [Lib F]

/-- The value of a node's predicate on a row. -/
def nodeTest (types : FieldTypes) (row : Row F) (n : Node F) : PredRes :=
  match n.pred with
  | some p => testValue (simpleVal types row) p
  | none => .u

end

/-- The path taken when nothing is unknown: go to the first true child while there is one. -/
inductive FirstTrue (T : Node F → PredRes) : Node F → Node F → Prop
  | stop {n : Node F} : (∀ c ∈ n.nodes, T c ≠ .t) → FirstTrue T n n
  | step {n c r : Node F} {pre post : List (Node F)} :
      n.nodes = pre ++ c :: post → (∀ d ∈ pre, T d ≠ .t) → T c = .t →
      FirstTrue T c r → FirstTrue T n r

/-- `Visits T n r`: going from `n` to the first child that is not false, again and
again, one comes to `r` (children are only visited below true nodes). -/
inductive Visits (T : Node F → PredRes) (r : Node F) : Node F → Prop
  | here : Visits T r r
  | step {n c : Node F} {pre post : List (Node F)} :
      T n = .t → n.nodes = pre ++ c :: post → (∀ d ∈ pre, T d = .f) → T c ≠ .f →
      Visits T r c → Visits T r n

/-- A node's answer: a distribution and whether it holds. -/
abbrev Ans (F : Type) := List (ScoreDist F) × PredRes

/-- The distribution of the last true answer (empty if there is none). -/
def lastTrue (as : List (Ans F)) : List (ScoreDist F) :=
  match (as.filter (fun a => a.2 = .t)).getLast? with
  | some a => a.1
  | none => []

/-- lastPrediction. -/
def lastAns (T : Node F → PredRes) (own : Node F → List (ScoreDist F)) : Node F → Ans F
  | .mk id dc score rc dists nodes pred =>
    if T (.mk id dc score rc dists nodes pred) = .f then ([], .f)
    else if (∀ a ∈ lastAnss T own nodes, a.2 ≠ .u) ∧ lastTrue (lastAnss T own nodes) ≠ [] then
      (lastTrue (lastAnss T own nodes), .t)
    else (own (.mk id dc score rc dists nodes pred), T (.mk id dc score rc dists nodes pred))
where
  lastAnss (T : Node F → PredRes) (own : Node F → List (ScoreDist F)) : List (Node F) → List (Ans F)
    | [] => []
    | n :: ns => lastAns T own n :: lastAnss T own ns

/-- The answer of the last child with the given id. -/
def answerOf (dc : String) (nodes : List (Node F)) (as : List (Ans F)) : Option (Ans F) :=
  (((nodes.zip as).filter (fun p => p.1.id = dc)).getLast?).map (·.2)

/-- defaultChild. -/
def defaultAns [Arith F] (penalty : F) (T : Node F → PredRes) (own : Node F → List (ScoreDist F)) :
    Node F → Ans F
  | .mk id dc score rc dists nodes pred =>
    if T (.mk id dc score rc dists nodes pred) = .f then ([], .f)
    else if ∃ a ∈ defaultAnss penalty T own nodes, a.2 = .u then
      match answerOf dc nodes (defaultAnss penalty T own nodes) with
      | none => ([], .u)
      | some a => (a.1.map fun s => ⟨s.value, Arith.mul s.confidence penalty,
          Arith.mul s.probability penalty, s.recordCount⟩, .t)
    else if lastTrue (defaultAnss penalty T own nodes) ≠ [] then
      (lastTrue (defaultAnss penalty T own nodes), .t)
    else (own (.mk id dc score rc dists nodes pred), T (.mk id dc score rc dists nodes pred))
where
  defaultAnss [Arith F] (penalty : F) (T : Node F → PredRes) (own : Node F → List (ScoreDist F)) :
      List (Node F) → List (Ans F)
    | [] => []
    | n :: ns => defaultAns penalty T own n :: defaultAnss penalty T own ns

section
variable [Arith F]

/-- `d` has a greatest, positive probability in `dist` and is the first such. -/
def IsBest (dist : List (ScoreDist F)) (d : ScoreDist F) : Prop :=
  ∃ pre post, dist = pre ++ d :: post ∧ Arith.lt Arith.zero d.probability = true ∧
    (∀ s ∈ pre, Arith.lt s.probability d.probability = true ∨ Arith.lt Arith.zero s.probability = false) ∧
    ∀ s ∈ post, Arith.lt d.probability s.probability = false

/-- Row reported for a classification answer. -/
def classRow (target label : String) (dist : List (ScoreDist F)) : GoMap (GoVal F) :=
  dist.foldl (fun m s => m.insert ("probability(" ++ s.value ++ ")") (.f64 s.probability))
    ((∅ : GoMap (GoVal F)).insert target (.str label))

/-- What `Evaluate` returns for the root's answer: nothing unless it holds; a
classification row; or, for regression, the first value parsed as a number (a panic if
there is no value). -/
def report [Lib F] (fn : MiningFunction) (target : String) (a : Ans F) : Res (Out F) :=
  if a.2 ≠ .t then .ok none
  else
    match fn, a.1 with
    | .classification, dist => .ok (some (classRow target (pickBest dist).value dist))
    | .regression, [] => panic .indexOutOfRange
    | .regression, s :: _ =>
      match Lib.parseFloat s.value with
      | some x => .ok (some ((∅ : GoMap (GoVal F)).insert "score" (.f64 x)))
      | none => fail (.parse s.value)
    | .other _, _ => .ok (some ∅)

end

/-- The simple predicates inside a predicate. -/
def simples : Pred F → List (SimplePred F)
  | .simple p => [p]
  | .compound _ ps => simpless ps
  | _ => []
where
  simpless : List (Pred F) → List (SimplePred F)
    | [] => []
    | p :: ps => simples p ++ simpless ps

/-- A constant that parses at the given declared type. -/
def ConstOk [Lib F] (dt : DataType) (text : String) : Prop :=
  match dt with
  | .boolean => ∃ b, parseBool text = some b
  | .double | .float => ∃ x : F, Lib.parseFloat text = some x
  | .integer => ∃ n, parseInt text = some n
  | .string => True
  | .other _ => False

end Spec
end Gopmml
