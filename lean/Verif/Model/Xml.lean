import Verif.Model.Doc

/-!
# Decoding PMML documents (models/elements.go, models/groups.go)

A well-formed XML element is a tree (`Xml`).  Two kinds of decoders occur:

* hand-written `UnmarshalXML` methods, which read tokens in a loop.  A start tag they do
  not know falls through their `switch`: the loop goes on *inside* the unknown element, and
  that element's end tag makes the method return.  `encoding/xml` then notices that the
  element it asked to be decoded has not been read to its end and reports an error
  (`unmarshalInterface`: "did not consume entire element").  `bodyLoop` and the `…Item`, `…Body` functions
  keep this: their second result says whether the end tag that stopped them was their own.
* reflection over struct tags, where unknown attributes and child elements are skipped,
  slices are appended to, and a repeated single child is decoded into the same variable
  (`reflectLoop`).

Simplifications: comments, directives and processing instructions are dropped; names are
local names; the text of an element keeps both its source (`raw`) and its meaning (`val`)
because `innerxml` fields receive the source; newer Go releases additionally refuse
elements nested more than 10000 deep.  Elements whose decoded value the evaluator never
reads and whose decoding can fail (Taxonomy, ModelStats, the model kinds `NewModel`
rejects, ...) are decoded by an arbitrary function, the class `Reflect`; Model/Structs.lean
has the one given by their struct tags.
-/

namespace Gopmml

/-- A well-formed XML element or piece of text. -/
inductive Xml where
  | text (raw val : String)
  | elem (name : String) (attrs : List (String × String)) (content : List Xml)

abbrev Attrs := List (String × String)

mutual
/-- The source text of a node, as an `innerxml` field receives it. -/
def Xml.source : Xml → String
  | .text raw _ => raw
  | .elem n as ch =>
    "<" ++ n ++ String.join (as.map fun a => " " ++ a.1 ++ "=\"" ++ a.2 ++ "\"") ++ ">" ++
      Xml.sources ch ++ "</" ++ n ++ ">"
def Xml.sources : List Xml → String
  | [] => ""
  | x :: xs => x.source ++ Xml.sources xs
end

/-- The character data directly inside an element (`encoding/xml` appends the `CharData` tokens;
child elements are skipped). -/
def Xml.chardata : List Xml → String
  | [] => ""
  | .text _ v :: xs => v ++ chardata xs
  | .elem _ _ _ :: xs => chardata xs

/-- The child elements, without the text between them. -/
def Xml.elems : List Xml → List (String × Attrs × List Xml)
  | [] => []
  | .text _ _ :: xs => elems xs
  | .elem n as ch :: xs => (n, as, ch) :: elems xs

inductive DecErr where
  /-- a number or a boolean does not parse -/
  | syntax (s : String)
  /-- `UnmarshalXML` did not consume the entire element -/
  | leftover (elem : String)
  /-- an element that is decoded by `Reflect` -/
  | other (elem : String)
  deriving DecidableEq, Repr

abbrev Dec (α : Type) := Except DecErr α

/-- Outcome of decoding an element of one of the kinds the evaluator never looks at. -/
class Reflect where
  ok : (name : String) → Attrs → List Xml → Bool

def skip [Reflect] (n : String) (as : Attrs) (ch : List Xml) : Dec Unit :=
  if Reflect.ok n as ch then .ok () else .error (.other n)

/-! ## Attribute values -/

/-- Unicode white space, as `strings.TrimSpace` understands it -/
def isSpace (c : Char) : Bool :=
  c = '\t' || c = '\n' || c = '\x0b' || c = '\x0c' || c = '\r' || c = ' ' ||
  c = '\u0085' || c = ' ' || c = ' ' || (' ' ≤ c && c ≤ ' ') ||
  c = ' ' || c = ' ' || c = ' ' || c = ' ' || c = '　'

def trimSpace (s : String) : String :=
  String.ofList ((s.toList.dropWhile isSpace).reverse.dropWhile isSpace).reverse

section Attributes
variable {F : Type} [Arith F] [Lib F]

def parsed {α : Type} (s : String) : Option α → Dec α
  | some x => .ok x
  | none => .error (.syntax s)

/-- `encoding/xml` `copyValue` into a float64: empty means 0, otherwise
`ParseFloat(TrimSpace(s))` -/
def attrFloat (s : String) : Dec F :=
  if s = "" then .ok Arith.zero else parsed s (Lib.parseFloat (trimSpace s))

/-- `copyValue` into an int or int64 -/
def attrInt (s : String) : Dec Int :=
  if s = "" then .ok 0 else parsed s (parseInt (trimSpace s))

/-- `strconv.ParseUint(s, 10, 64)` -/
def parseUint (s : String) : Option Nat :=
  if s.toList = [] ∨ ¬ s.toList.all isDigit then none
  else if digitsVal s.toList < 2 ^ 64 then some (digitsVal s.toList) else none

/-- `copyValue` into a uint -/
def attrUint (s : String) : Dec Nat :=
  if s = "" then .ok 0 else parsed s (parseUint (trimSpace s))

/-- `copyValue` into a bool -/
def attrBool (s : String) : Dec Bool :=
  if s = "" then .ok false else parsed s (parseBool (trimSpace s))

end Attributes

/-- Attributes are visited in document order; the first error ends decoding. -/
def attrLoop {σ : Type} (f : String → String → σ → Dec σ) : Attrs → σ → Dec σ
  | [], s => .ok s
  | (k, v) :: as, s =>
    match f k v s with
    | .error e => .error e
    | .ok s' => attrLoop f as s'

/-! ## The two kinds of decoding loops -/

mutual
/-- One turn of the token loop of a hand-written decoder. `h` is the `switch` on the element name:
`none` for a name it does not know; then the loop goes on inside the element and is over when that
element ends (flag false). -/
def bodyItem {σ : Type} (h : String → Attrs → List Xml → σ → Option (Dec σ)) :
    Xml → σ → Dec (σ × Bool)
  | .text _ _, s => .ok (s, true)
  | .elem n as ch, s =>
    match h n as ch s with
    | some (.error e) => .error e
    | some (.ok s') => .ok (s', true)
    | none =>
      match bodyLoop h ch s with
      | .error e => .error e
      | .ok (s', _) => .ok (s', false)
/-- The token loop of the hand-written decoders. The flag is false when an unknown element's end
tag ended the loop. -/
def bodyLoop {σ : Type} (h : String → Attrs → List Xml → σ → Option (Dec σ)) :
    List Xml → σ → Dec (σ × Bool)
  | [], s => .ok (s, true)
  | c :: cs, s =>
    match bodyItem h c s with
    | .error e => .error e
    | .ok (s', true) => bodyLoop h cs s'
    | .ok (s', false) => .ok (s', false)
end

/-- `encoding/xml` `unmarshalInterface` after `UnmarshalXML` has returned nil -/
def consumed {σ : Type} (name : String) : Dec (σ × Bool) → Dec σ
  | .error e => .error e
  | .ok (s, true) => .ok s
  | .ok (_, false) => .error (.leftover name)

/-- Child elements of a struct decoded by reflection; `h` leaves the state alone for names without
a field. -/
def reflectLoop {σ : Type} (h : String → Attrs → List Xml → σ → Dec σ) : List Xml → σ → Dec σ
  | [], s => .ok s
  | .text _ _ :: cs, s => reflectLoop h cs s
  | .elem n as ch :: cs, s =>
    match h n as ch s with
    | .error e => .error e
    | .ok s' => reflectLoop h cs s'

/-! ## Enumerations: every Go enumeration is a string -/

/-- models/simpleTypes.go:342-352 -/
def MiningFunction.ofString (s : String) : MiningFunction :=
  if s = "classification" then .classification
  else if s = "regression" then .regression
  else .other s

/-- models/simpleTypes.go:366-375 -/
def MissingValueStrategy.ofString (s : String) : MissingValueStrategy :=
  if s = "aggregateNodes" then .aggregateNodes
  else if s = "defaultChild" then .defaultChild
  else if s = "lastPrediction" then .lastPrediction
  else if s = "none" then .none
  else if s = "nullPrediction" then .nullPrediction
  else if s = "weightedConfidence" then .weightedConfidence
  else .other s

/-- models/simpleTypes.go:468-473 -/
def NoTrueChildStrategy.ofString (s : String) : NoTrueChildStrategy :=
  if s = "returnLastPrediction" then .returnLastPrediction
  else if s = "returnNullPrediction" then .returnNullPrediction
  else .other s

/-- models/elements.go:4707-4718 -/
def SimpleOp.ofString (s : String) : SimpleOp :=
  if s = "equal" then .equal
  else if s = "greaterOrEqual" then .greaterOrEqual
  else if s = "greaterThan" then .greaterThan
  else if s = "isMissing" then .isMissing
  else if s = "isNotMissing" then .isNotMissing
  else if s = "lessOrEqual" then .lessOrEqual
  else if s = "lessThan" then .lessThan
  else if s = "notEqual" then .notEqual
  else .other s

/-- models/elements.go:1182-1189 -/
def BoolOp.ofString (s : String) : BoolOp :=
  if s = "and" then .and
  else if s = "or" then .or
  else if s = "surrogate" then .surrogate
  else if s = "xor" then .xor
  else .other s

/-- models/simpleTypes.go:225-236 -/
def UsageType.ofString (s : String) : UsageType :=
  if s = "active" then .active
  else if s = "target" then .target
  else .other s

/-- models/simpleTypes.go:160-180 -/
def DataType.ofString (s : String) : DataType :=
  if s = "boolean" then .boolean
  else if s = "double" then .double
  else if s = "float" then .float
  else if s = "integer" then .integer
  else if s = "string" then .string
  else .other s

/-- models/simpleTypes.go:491-497 -/
def OpType.ofString (s : String) : OpType :=
  if s = "continuous" then .continuous else .other s

/-- models/simpleTypes.go:595-621 -/
def ResultFeature.ofString (s : String) : ResultFeature :=
  if s = "" then .empty
  else if s = "probability" then .probability
  else .other s

/-- models/simpleTypes.go:552-564 -/
def Normalization.ofString (s : String) : Normalization :=
  if s = "cauchit" then .cauchit
  else if s = "cloglog" then .cloglog
  else if s = "exp" then .exp
  else if s = "logit" then .logit
  else if s = "none" then .none
  else if s = "simplemax" then .simplemax
  else if s = "softmax" then .softmax
  else if s = "" then .empty
  else .other s

/-- models/simpleTypes.go:414-427 -/
def MultipleModelMethod.ofString (s : String) : MultipleModelMethod :=
  if s = "average" then .average
  else if s = "modelChain" then .modelChain
  else if s = "selectFirst" then .selectFirst
  else if s = "sum" then .sum
  else if s = "" then .empty
  else .other s

section Decoders
variable {F : Type} [Arith F] [Lib F]

/-! ## Predicates -/

/-- models/elements.go:4745-4752 `SimplePredicate`, by reflection -/
def simpleAttr (k v : String) (p : SimplePred F) : Dec (SimplePred F) :=
  if k = "field" then .ok { p with field := v }
  else if k = "operator" then .ok { p with op := SimpleOp.ofString v }
  else if k = "value" then .ok { p with value := v }
  else .ok p

/-- models/elements.go:4803-4809 `SimpleSetPredicate`: of the array only the attribute `n` can fail
(models/complexTypes.go:32-41) -/
def arrayAttr (k v : String) (_ : Unit) : Dec Unit :=
  if k = "n" then (attrInt v).map fun _ => () else .ok ()

def setChild (n : String) (as : Attrs) (_ : List Xml) (u : Unit) : Dec Unit :=
  if n = "Array" then attrLoop arrayAttr as u else .ok u

/-- models/groups.go:251-266 `GetPredicate` and the decoding of the item, for every kind but
`CompoundPredicate`; `none`: no such predicate -/
def leafPred (n : String) (as : Attrs) (ch : List Xml) : Option (Dec (Pred F)) :=
  if n = "False" then some (.ok .false_)
  else if n = "SimplePredicate" then
    some ((attrLoop simpleAttr as ⟨"", .other "", "", .nil⟩).map .simple)
  else if n = "SimpleSetPredicate" then
    some (match attrLoop (fun k v f => .ok (if k = "field" then v else f)) as "" with
      | .error e => .error e
      | .ok f => (reflectLoop setChild ch ()).map fun _ => .set f)
  else if n = "True" then some (.ok .true_)
  else none

/-- models/elements.go:1227-1232 -/
def boolOpAttr (as : Attrs) : BoolOp :=
  as.foldl (fun op a => if a.1 = "booleanOperator" then BoolOp.ofString a.2 else op) (.other "")

mutual
/-- models/elements.go:1234-1265 one turn of the loop of `CompoundPredicate.UnmarshalXML` -/
def compoundItem : Xml → List (Pred F) → Dec (List (Pred F) × Bool)
  | .text _ _, ps => .ok (ps, true)
  | .elem n as ch, ps =>
    if n = "Extension" then .ok (ps, true)
    else if n = "CompoundPredicate" then
      match consumed n (compoundBody ch []) with
      | .error e => .error e
      | .ok qs => .ok (ps ++ [.compound (boolOpAttr as) qs], true)
    else
      match leafPred n as ch with
      | some (.error e) => .error e
      | some (.ok p) => .ok (ps ++ [p], true)
      | none =>
        match compoundBody ch ps with
        | .error e => .error e
        | .ok (ps', _) => .ok (ps', false)
/-- models/elements.go:1234-1265 the loop of `CompoundPredicate.UnmarshalXML` -/
def compoundBody : List Xml → List (Pred F) → Dec (List (Pred F) × Bool)
  | [], ps => .ok (ps, true)
  | c :: cs, ps =>
    match compoundItem c ps with
    | .error e => .error e
    | .ok (ps', true) => compoundBody cs ps'
    | .ok (ps', false) => .ok (ps', false)
end

/-- models/groups.go:251-266 `GetPredicate` followed by `DecodeElement` -/
def decodePred (n : String) (as : Attrs) (ch : List Xml) : Option (Dec (Pred F)) :=
  if n = "CompoundPredicate" then
    some ((consumed n (compoundBody ch [])).map (.compound (boolOpAttr as)))
  else leafPred n as ch

/-! ## Tree nodes -/

/-- models/elements.go:4394-4400 `ScoreDistribution`, by reflection -/
def distAttr (k v : String) (d : ScoreDistribution F) : Dec (ScoreDistribution F) :=
  if k = "confidence" then (attrFloat v).map fun x => { d with confidence := some x }
  else if k = "probability" then (attrFloat v).map fun x => { d with probability := some x }
  else if k = "recordCount" then (attrFloat v).map fun x => { d with recordCount := x }
  else if k = "value" then .ok { d with value := v }
  else .ok d

def decodeDist (as : Attrs) : Dec (ScoreDistribution F) :=
  attrLoop distAttr as ⟨"", Arith.zero, none, none⟩

/-- models/elements.go:3352-3370 the attributes of `Node` -/
def nodeAttr (k v : String) : Node F → Dec (Node F)
  | .mk id dc sc rc ds ns p =>
    if k = "defaultChild" then .ok (.mk id v sc rc ds ns p)
    else if k = "id" then .ok (.mk v dc sc rc ds ns p)
    else if k = "recordCount" then
      if v = "" then .ok (.mk id dc sc rc ds ns p)
      else (parsed v (Lib.parseFloat v)).map fun x => .mk id dc sc x ds ns p
    else if k = "score" then .ok (.mk id dc v rc ds ns p)
    else .ok (.mk id dc sc rc ds ns p)

omit [Arith F] [Lib F] in
def Node.addNode (x c : Node F) : Node F :=
  match x with
  | .mk id dc sc rc ds ns p => .mk id dc sc rc ds (ns ++ [c]) p

omit [Arith F] [Lib F] in
def Node.addDist (x : Node F) (d : ScoreDistribution F) : Node F :=
  match x with
  | .mk id dc sc rc ds ns p => .mk id dc sc rc (ds ++ [d]) ns p

omit [Arith F] [Lib F] in
def Node.setPred (x : Node F) (q : Pred F) : Node F :=
  match x with
  | .mk id dc sc rc ds ns _ => .mk id dc sc rc ds ns (some q)

/-- The zero value of `Node` (models/elements.go:3333-3345). -/
def Node.zero : Node F := .mk "" "" "" Arith.zero [] [] none

mutual
/-- models/elements.go:3372-3427 one turn of the loop of `Node.UnmarshalXML`.  `Extension`,
`Partition` and the embedded models (models/groups.go:109-118) have no fields that could fail to
decode, and none the evaluator reads. -/
def nodeItem : Xml → Node F → Dec (Node F × Bool)
  | .text _ _, x => .ok (x, true)
  | .elem n as ch, x =>
    if n = "Extension" then .ok (x, true)
    else if n = "Node" then
      match attrLoop nodeAttr as Node.zero with
      | .error e => .error e
      | .ok y =>
        match consumed n (nodeBody ch y) with
        | .error e => .error e
        | .ok c => .ok (x.addNode c, true)
    else if n = "ScoreDistribution" then
      match decodeDist as with
      | .error e => .error e
      | .ok d => .ok (x.addDist d, true)
    else if n = "Partition" then .ok (x, true)
    else
      match decodePred n as ch with
      | some (.error e) => .error e
      | some (.ok p) => .ok (x.setPred p, true)
      | none =>
        if n = "DecisionTree" ∨ n = "Regression" then .ok (x, true)
        else
          match nodeBody ch x with
          | .error e => .error e
          | .ok (x', _) => .ok (x', false)
/-- models/elements.go:3372-3427 the loop of `Node.UnmarshalXML` -/
def nodeBody : List Xml → Node F → Dec (Node F × Bool)
  | [], x => .ok (x, true)
  | c :: cs, x =>
    match nodeItem c x with
    | .error e => .error e
    | .ok (x', true) => nodeBody cs x'
    | .ok (x', false) => .ok (x', false)
end

/-- models/elements.go:3348-3428 `Node.UnmarshalXML`, called by `encoding/xml` on a variable that
holds `x` -/
def decodeNode (as : Attrs) (ch : List Xml) (x : Node F) : Dec (Node F) :=
  match attrLoop nodeAttr as x with
  | .error e => .error e
  | .ok y => consumed "Node" (nodeBody ch y)

/-! ## Tables and expressions -/

/-- models/elements.go:5971-5996 `Row.UnmarshalXML`: every child element is a cell -/
def rowHandle (n : String) (_ : Attrs) (ch : List Xml) (r : GoMap (GoVal F)) :
    Option (Dec (GoMap (GoVal F))) :=
  some (.ok (r.insert n (.str (Xml.chardata ch))))

/-- models/elements.go:2408-2435 the `switch` of `InlineTable.UnmarshalXML` -/
def tableHandle (n : String) (_ : Attrs) (ch : List Xml) (rows : List (GoMap (GoVal F))) :
    Option (Dec (List (GoMap (GoVal F)))) :=
  if n = "row" then
    some (match consumed n (bodyLoop rowHandle ch ∅) with
      | .error e => .error e
      | .ok r => .ok (rows ++ [r]))
  else none

/-- models/elements.go:2408-2435 `InlineTable.UnmarshalXML` on a variable that holds `rows` -/
def decodeTable (ch : List Xml) (rows : List (GoMap (GoVal F))) : Dec (List (GoMap (GoVal F))) :=
  consumed "InlineTable" (bodyLoop tableHandle ch rows)

/-- models/elements.go:2117-2121 `FieldColumnPair`, by reflection -/
def pairAttr (k v : String) (p : FieldColumnPair) : Dec FieldColumnPair :=
  if k = "column" then .ok { p with column := v }
  else if k = "field" then .ok { p with field := v }
  else .ok p

/-- models/elements.go:2772-2780 `MapValues`, by reflection (the hand-written decoder at 2785 is
commented out) -/
def mapAttr (k v : String) (m : MapValues F) : Dec (MapValues F) :=
  if k = "defaultValue" then .ok { m with defaultValue := some v }
  else if k = "dataType" then .ok { m with dataType := DataType.ofString v }
  else .ok m

def mapChild (n : String) (as : Attrs) (ch : List Xml) (m : MapValues F) : Dec (MapValues F) :=
  if n = "FieldColumnPair" then
    (attrLoop pairAttr as ⟨"", ""⟩).map fun p =>
      { m with fieldColumnPairs := m.fieldColumnPairs ++ [p] }
  else if n = "InlineTable" then
    (decodeTable ch []).map fun t => { m with inlineTables := m.inlineTables ++ [t] }
  else .ok m

def decodeMap (as : Attrs) (ch : List Xml) : Dec (MapValues F) :=
  match attrLoop mapAttr as ⟨none, .other "", [], []⟩ with
  | .error e => .error e
  | .ok m => reflectLoop mapChild ch m

/-- The kinds of expressions that decode but that the evaluator does not know; all are decoded by
reflection and have no field that could fail. -/
def otherExpr (n : String) : Bool :=
  n = "Aggregate" || n = "Discretize" || n = "Lag" || n = "NormContinuous" ||
  n = "NormDiscrete" || n = "TextIndex"

/-- models/elements.go:379-418 the `switch` of `Apply.UnmarshalXML` (and of `DerivedField`,
`DefineFunction`) and the decoding of the item, for every kind but `Apply`.  A `Constant` takes its
value from `innerxml` (models/elements.go:1337-1340). -/
def leafExpr (n : String) (as : Attrs) (ch : List Xml) : Option (Dec (Expr F)) :=
  if n = "Constant" then
    some ((attrLoop (fun k v t => .ok (if k = "dataType" then DataType.ofString v else t)) as
      (.other "")).map fun t => .const t (Xml.sources ch))
  else if n = "FieldRef" then
    some ((attrLoop (fun k v f => .ok (if k = "field" then v else f)) as "").map .fieldRef)
  else if n = "MapValues" then some ((decodeMap as ch).map .mapValues)
  else if otherExpr n then some (.ok (.other n))
  else none

/-- models/elements.go:353-368: of the attributes of `Apply` the evaluator reads only `function` -/
def functionAttr (as : Attrs) : String :=
  as.foldl (fun f a => if a.1 = "function" then a.2 else f) ""

mutual
/-- models/elements.go:370-422 one turn of the loop of `Apply.UnmarshalXML` -/
def applyItem : Xml → List (Expr F) → Dec (List (Expr F) × Bool)
  | .text _ _, xs => .ok (xs, true)
  | .elem n as ch, xs =>
    if n = "Extension" then .ok (xs, true)
    else if n = "Apply" then
      match consumed n (applyBody ch []) with
      | .error e => .error e
      | .ok ys => .ok (xs ++ [.apply (functionAttr as) ys], true)
    else
      match leafExpr n as ch with
      | some (.error e) => .error e
      | some (.ok x) => .ok (xs ++ [x], true)
      | none =>
        match applyBody ch xs with
        | .error e => .error e
        | .ok (xs', _) => .ok (xs', false)
/-- models/elements.go:370-422 the loop of `Apply.UnmarshalXML` -/
def applyBody : List Xml → List (Expr F) → Dec (List (Expr F) × Bool)
  | [], xs => .ok (xs, true)
  | c :: cs, xs =>
    match applyItem c xs with
    | .error e => .error e
    | .ok (xs', true) => applyBody cs xs'
    | .ok (xs', false) => .ok (xs', false)
end

/-- Decoding an expression element; `none`: the name is not one of the known expressions. -/
def decodeExpr (n : String) (as : Attrs) (ch : List Xml) : Option (Dec (Expr F)) :=
  if n = "Apply" then some ((consumed n (applyBody ch [])).map (.apply (functionAttr as)))
  else leafExpr n as ch

/-- models/elements.go:1836-1847 -/
def derivedAttr (k v : String) (d : DerivedField F) : Dec (DerivedField F) :=
  if k = "dataType" then .ok { d with dataType := DataType.ofString v }
  else if k = "name" then .ok { d with name := v }
  else if k = "optype" then .ok { d with opType := OpType.ofString v }
  else .ok d

/-- models/elements.go:1849-1908 the `switch` of `DerivedField.UnmarshalXML`; the last expression
wins -/
def derivedHandle (n : String) (as : Attrs) (ch : List Xml) (d : DerivedField F) :
    Option (Dec (DerivedField F)) :=
  if n = "Extension" ∨ n = "Value" then some (.ok d)
  else (decodeExpr n as ch).map fun r => r.map fun x => { d with expr := x }

/-- models/elements.go:1832-1909 `DerivedField.UnmarshalXML`; a nil expression is `.other ""` -/
def decodeDerived (as : Attrs) (ch : List Xml) : Dec (DerivedField F) :=
  match attrLoop derivedAttr as ⟨"", .other "", .other "", .other ""⟩ with
  | .error e => .error e
  | .ok d => consumed "DerivedField" (bodyLoop derivedHandle ch d)

/-- models/elements.go:2720-2723 `LocalTransformations`, by reflection -/
def localChild (n : String) (as : Attrs) (ch : List Xml) (ds : List (DerivedField F)) :
    Dec (List (DerivedField F)) :=
  if n = "DerivedField" then (decodeDerived as ch).map fun d => ds ++ [d] else .ok ds

/-- models/elements.go:1728-1787 the `switch` of `DefineFunction.UnmarshalXML`; the evaluator never
reads the result -/
def functionHandle (n : String) (as : Attrs) (ch : List Xml) (_ : Unit) : Option (Dec Unit) :=
  if n = "Extension" ∨ n = "ParameterField" then some (.ok ())
  else (decodeExpr (F := F) n as ch).map fun r => r.map fun _ => ()

/-! ## Schema, outputs, targets, verification -/

/-- models/elements.go:2904-2917 `MiningField`, by reflection -/
def miningFieldAttr (F : Type) [Arith F] [Lib F] (k v : String) (m : MiningField) :
    Dec MiningField :=
  if k = "highValue" ∨ k = "importance" ∨ k = "lowValue" then
    (attrFloat (F := F) v).map fun _ => m
  else if k = "invalidValueTreatment" then .ok { m with invalidValueTreatment := v }
  else if k = "missingValueReplacement" then .ok { m with missingValueReplacement := some v }
  else if k = "name" then .ok { m with name := v }
  else if k = "outliers" then .ok { m with outliers := v }
  else if k = "usageType" then .ok { m with usageType := UsageType.ofString v }
  else .ok m

/-- models/elements.go:2973-2976 `MiningSchema`, by reflection -/
def schemaChild (F : Type) [Arith F] [Lib F] (n : String) (as : Attrs) (_ : List Xml)
    (fs : List MiningField) : Dec (List MiningField) :=
  if n = "MiningField" then
    (attrLoop (miningFieldAttr F) as ⟨"", .other "", "", "", none⟩).map fun f => fs ++ [f]
  else .ok fs

/-- models/elements.go:3616-3632 `OutputField`, by reflection -/
def outputAttr (k v : String) (f : OutputField) : Dec OutputField :=
  if k = "isMultiValued" ∨ k = "rank" then (attrInt v).map fun _ => f
  else if k = "feature" then .ok { f with feature := ResultFeature.ofString v }
  else if k = "name" then .ok { f with name := v }
  else if k = "value" then .ok { f with value := v }
  else .ok f

/-- models/elements.go:3559-3562 `Output`, by reflection -/
def outputChild (n : String) (as : Attrs) (_ : List Xml) (fs : List OutputField) :
    Dec (List OutputField) :=
  if n = "OutputField" then
    (attrLoop outputAttr as ⟨"", .empty, ""⟩).map fun f => fs ++ [f]
  else .ok fs

/-- models/elements.go:4956-4967 `Target`, by reflection -/
def targetAttr (k v : String) (t : Target F) : Dec (Target F) :=
  if k = "field" then .ok { t with field := v }
  else if k = "max" ∨ k = "min" then (attrFloat (F := F) v).map fun _ => t
  else if k = "rescaleConstant" then (attrFloat v).map fun x => { t with rescaleConstant := some x }
  else if k = "rescaleFactor" then (attrFloat v).map fun x => { t with rescaleFactor := some x }
  else .ok t

/-- models/elements.go:5055-5058 `Targets`, by reflection -/
def targetsChild (n : String) (as : Attrs) (_ : List Xml) (ts : List (Target F)) :
    Dec (List (Target F)) :=
  if n = "Target" then
    (attrLoop targetAttr as ⟨"", none, none⟩).map fun t => ts ++ [t]
  else .ok ts

/-- models/elements.go:5817-5823 `VerificationField`, by reflection -/
def verificationAttr (k v : String) (f : VerificationField F) : Dec (VerificationField F) :=
  if k = "field" then .ok { f with field := v }
  else if k = "column" then .ok { f with column := v }
  else if k = "precision" then (attrFloat v).map fun x => { f with precision := some x }
  else if k = "zeroThreshold" then (attrFloat (F := F) v).map fun _ => f
  else .ok f

/-- models/elements.go:5835-5838 `VerificationFields`, by reflection -/
def verificationFieldsChild (n : String) (as : Attrs) (_ : List Xml)
    (fs : List (VerificationField F)) : Dec (List (VerificationField F)) :=
  if n = "VerificationField" then
    (attrLoop verificationAttr as ⟨"", "", none⟩).map fun f => fs ++ [f]
  else .ok fs

/-- models/elements.go:3056-3063 `ModelVerification`, by reflection: its counts -/
def countAttr (k v : String) (u : Unit) : Dec Unit :=
  if k = "fieldCount" ∨ k = "recordCount" then (attrInt v).map fun _ => u else .ok u

def verificationChild (n : String) (_ : Attrs) (ch : List Xml) (m : ModelVerification F) :
    Dec (ModelVerification F) :=
  if n = "InlineTable" then (decodeTable ch m.rows).map fun t => { m with rows := t }
  else if n = "VerificationFields" then
    (reflectLoop verificationFieldsChild ch m.fields).map fun fs => { m with fields := fs }
  else .ok m

/-- `ModelVerification` behind a pointer that may be nil -/
def decodeVerification (as : Attrs) (ch : List Xml) (m : Option (ModelVerification F)) :
    Dec (Option (ModelVerification F)) :=
  match attrLoop countAttr as () with
  | .error e => .error e
  | .ok () => (reflectLoop verificationChild ch (m.getD ⟨[], []⟩)).map some

/-! ## Models -/

variable [Reflect]

/-- models/elements.go:5526-5545 `TreeModel`, by reflection -/
def treeAttr (k v : String) (d : TreeDoc F) : Dec (TreeDoc F) :=
  if k = "functionName" then .ok { d with functionName := MiningFunction.ofString v }
  else if k = "isScorable" then (attrBool v).map fun _ => d
  else if k = "missingValuePenalty" then
    (attrFloat v).map fun x => { d with missingValuePenalty := x }
  else if k = "missingValueStrategy" then
    .ok { d with missingValueStrategy := MissingValueStrategy.ofString v }
  else if k = "noTrueChildStrategy" then
    .ok { d with noTrueChildStrategy := NoTrueChildStrategy.ofString v }
  else .ok d

def treeChild (n : String) (as : Attrs) (ch : List Xml) (d : TreeDoc F) : Dec (TreeDoc F) :=
  if n = "LocalTransformations" then
    (reflectLoop localChild ch d.localTransformations).map fun l =>
      { d with localTransformations := l }
  else if n = "MiningSchema" then
    (reflectLoop (schemaChild F) ch d.miningFields).map fun l => { d with miningFields := l }
  else if n = "ModelExplanation" ∨ n = "ModelStats" then (skip n as ch).map fun _ => d
  else if n = "ModelVerification" then
    (decodeVerification as ch d.verification).map fun v => { d with verification := v }
  else if n = "Node" then (decodeNode as ch d.node).map fun x => { d with node := x }
  else if n = "Output" then (reflectLoop outputChild ch []).map fun _ => d
  else if n = "Targets" then (reflectLoop (targetsChild (F := F)) ch []).map fun _ => d
  else .ok d

/-- The zero value of `TreeModel`: note that an omitted `missingValuePenalty` is 0. -/
def TreeDoc.zero : TreeDoc F where
  functionName := .other ""
  missingValuePenalty := Arith.zero
  missingValueStrategy := .other ""
  noTrueChildStrategy := .other ""
  localTransformations := []
  miningFields := []
  verification := none
  node := Node.zero

def decodeTree (as : Attrs) (ch : List Xml) : Dec (TreeDoc F) :=
  match attrLoop treeAttr as TreeDoc.zero with
  | .error e => .error e
  | .ok d => reflectLoop treeChild ch d

/-- models/elements.go:3527-3533 `NumericPredictor`, by reflection -/
def predictorAttr (k v : String) (p : NumericPredictor F) : Dec (NumericPredictor F) :=
  if k = "name" then .ok { p with name := v }
  else if k = "coefficient" then (attrFloat v).map fun x => { p with coefficient := x }
  else if k = "exponent" then (attrInt v).map fun x => { p with exponent := x }
  else .ok p

/-- models/elements.go:4285-4290 `RegressionTable`, by reflection -/
def regTableAttr (k v : String) (t : RegressionTable F) : Dec (RegressionTable F) :=
  if k = "intercept" then (attrFloat v).map fun x => { t with intercept := x }
  else if k = "targetCategory" then .ok { t with targetCategory := v }
  else .ok t

def regTableChild (n : String) (as : Attrs) (_ : List Xml) (t : RegressionTable F) :
    Dec (RegressionTable F) :=
  if n = "NumericPredictor" then
    (attrLoop predictorAttr as ⟨"", Arith.zero, 0⟩).map fun p =>
      { t with predictors := t.predictors ++ [p] }
  else .ok t

def decodeRegTable (as : Attrs) (ch : List Xml) : Dec (RegressionTable F) :=
  match attrLoop regTableAttr as ⟨Arith.zero, "", []⟩ with
  | .error e => .error e
  | .ok t => reflectLoop regTableChild ch t

/-- models/elements.go:4250-4267 `RegressionModel`, by reflection -/
def regressionAttr (k v : String) (d : RegressionDoc F) : Dec (RegressionDoc F) :=
  if k = "functionName" then .ok { d with functionName := MiningFunction.ofString v }
  else if k = "isScorable" then (attrBool v).map fun _ => d
  else if k = "normalizationMethod" then .ok { d with normalization := Normalization.ofString v }
  else .ok d

def regressionChild (n : String) (as : Attrs) (ch : List Xml) (d : RegressionDoc F) :
    Dec (RegressionDoc F) :=
  if n = "LocalTransformations" then (reflectLoop (localChild (F := F)) ch []).map fun _ => d
  else if n = "MiningSchema" then (reflectLoop (schemaChild F) ch []).map fun _ => d
  else if n = "RegressionTable" then
    (decodeRegTable as ch).map fun t => { d with tables := d.tables ++ [t] }
  else if n = "ModelExplanation" ∨ n = "ModelStats" then (skip n as ch).map fun _ => d
  else if n = "ModelVerification" then
    (decodeVerification as ch d.verification).map fun v => { d with verification := v }
  else if n = "Output" then
    (reflectLoop outputChild ch d.outputs).map fun l => { d with outputs := l }
  else if n = "Targets" then (reflectLoop (targetsChild (F := F)) ch []).map fun _ => d
  else .ok d

def decodeRegression (as : Attrs) (ch : List Xml) : Dec (RegressionDoc F) :=
  match attrLoop regressionAttr as ⟨.other "", .empty, [], [], none⟩ with
  | .error e => .error e
  | .ok d => reflectLoop regressionChild ch d

/-- models/groups.go:184-225 `GetModelElement`: the kinds `NewModel` rejects -/
def otherModels : List String :=
  ["AssociationModel", "BaselineModel", "BayesianNetworkModel", "ClusteringModel",
   "GaussianProcessModel", "GeneralRegressionModel", "NaiveBayesModel", "NearestNeighborModel",
   "NeuralNetwork", "RuleSetModel", "Scorecard", "SequenceModel", "SupportVectorMachineModel",
   "TextModel", "TimeSeriesModel"]

/-- `GetModelElement` and the decoding of the item, for every kind but `MiningModel` -/
def leafModel (n : String) (as : Attrs) (ch : List Xml) : Option (Dec (ModelElem F)) :=
  if n = "TreeModel" then some ((decodeTree as ch).map .tree)
  else if n = "RegressionModel" then some ((decodeRegression as ch).map .regression)
  else if n ∈ otherModels then some ((skip n as ch).map fun _ => .other n)
  else none

/-- models/elements.go:2945-2959 `MiningModel`, by reflection -/
def miningAttr (k v : String) (h : MiningHead F) : Dec (MiningHead F) :=
  if k = "functionName" then .ok { h with functionName := MiningFunction.ofString v }
  else if k = "isScorable" then (attrBool v).map fun _ => h
  else .ok h

/-- The children of `MiningModel` other than `Segmentation` -/
def miningChild (n : String) (as : Attrs) (ch : List Xml) (h : MiningHead F) :
    Dec (MiningHead F) :=
  if n = "ModelVerification" then
    (decodeVerification as ch h.verification).map fun v => { h with verification := v }
  else if n = "MiningSchema" then
    (reflectLoop (schemaChild F) ch h.miningFields).map fun l => { h with miningFields := l }
  else if n = "LocalTransformations" then
    (reflectLoop localChild ch h.localTransformations).map fun l =>
      { h with localTransformations := l }
  else if n = "Output" then
    (reflectLoop outputChild ch h.outputs).map fun l => { h with outputs := l }
  else if n = "Targets" then
    (reflectLoop targetsChild ch h.targets).map fun l => { h with targets := l }
  else .ok h

/-- models/elements.go:4559-4563 `Segmentation`: its attribute -/
def methodAttr (as : Attrs) (m : MultipleModelMethod) : MultipleModelMethod :=
  as.foldl (fun m a => if a.1 = "multipleModelMethod" then MultipleModelMethod.ofString a.2 else m) m

def MiningHead.zero : MiningHead F := ⟨.other "", .empty, none, [], [], [], []⟩

/-- models/elements.go:4506-4511 -/
def segmentId (as : Attrs) : String :=
  as.foldl (fun i a => if a.1 = "id" then a.2 else i) ""

mutual
/-- One child of `MiningModel` (models/elements.go:2945-2959), by reflection. -/
def miningItem : Xml → MiningHead F × List (SegDoc F) → Dec (MiningHead F × List (SegDoc F))
  | .text _ _, x => .ok x
  | .elem n as ch, (h, segs) =>
    if n = "Segmentation" then
      match segmentationBody ch segs with
      | .error e => .error e
      | .ok segs' => .ok ({ h with method := methodAttr as h.method }, segs')
    else
      match miningChild n as ch h with
      | .error e => .error e
      | .ok h' => .ok (h', segs)
/-- The children of `MiningModel` -/
def miningBody : List Xml → MiningHead F × List (SegDoc F) → Dec (MiningHead F × List (SegDoc F))
  | [], x => .ok x
  | c :: cs, x =>
    match miningItem c x with
    | .error e => .error e
    | .ok x' => miningBody cs x'
/-- One child of `Segmentation` (models/elements.go:4559-4563), by reflection. -/
def segmentationItem : Xml → List (SegDoc F) → Dec (List (SegDoc F))
  | .text _ _, segs => .ok segs
  | .elem n as ch, segs =>
    if n = "Segment" then
      match consumed n (segmentBody ch ([], [])) with
      | .error e => .error e
      | .ok (ps, ms) => .ok (segs ++ [.mk (segmentId as) ps ms])
    else .ok segs
/-- The children of `Segmentation` -/
def segmentationBody : List Xml → List (SegDoc F) → Dec (List (SegDoc F))
  | [], segs => .ok segs
  | c :: cs, segs =>
    match segmentationItem c segs with
    | .error e => .error e
    | .ok segs' => segmentationBody cs segs'
/-- models/elements.go:4513-4545 one turn of the loop of `Segment.UnmarshalXML` -/
def segmentItem : Xml → List (Pred F) × List (ModelElem F) →
    Dec ((List (Pred F) × List (ModelElem F)) × Bool)
  | .text _ _, x => .ok (x, true)
  | .elem n as ch, (ps, ms) =>
    match decodePred n as ch with
    | some (.error e) => .error e
    | some (.ok p) => .ok ((ps ++ [p], ms), true)
    | none =>
      if n = "MiningModel" then
        match attrLoop miningAttr as MiningHead.zero with
        | .error e => .error e
        | .ok h =>
          match miningBody ch (h, []) with
          | .error e => .error e
          | .ok (h', segs) => .ok ((ps, ms ++ [.mining h' segs]), true)
      else
        match leafModel n as ch with
        | some (.error e) => .error e
        | some (.ok m) => .ok ((ps, ms ++ [m]), true)
        | none =>
          match segmentBody ch (ps, ms) with
          | .error e => .error e
          | .ok (x, _) => .ok (x, false)
/-- models/elements.go:4513-4545 the loop of `Segment.UnmarshalXML` -/
def segmentBody : List Xml → List (Pred F) × List (ModelElem F) →
    Dec ((List (Pred F) × List (ModelElem F)) × Bool)
  | [], x => .ok (x, true)
  | c :: cs, x =>
    match segmentItem c x with
    | .error e => .error e
    | .ok (x', true) => segmentBody cs x'
    | .ok (x', false) => .ok (x', false)
end

/-- `MiningModel` (models/elements.go:2945-2959), by reflection -/
def decodeMining (as : Attrs) (ch : List Xml) : Dec (ModelElem F) :=
  match attrLoop miningAttr as MiningHead.zero with
  | .error e => .error e
  | .ok h => (miningBody ch (h, [])).map fun r => .mining r.1 r.2

/-- models/groups.go:184-225 `GetModelElement` followed by `DecodeElement` -/
def decodeModel (n : String) (as : Attrs) (ch : List Xml) : Option (Dec (ModelElem F)) :=
  if n = "MiningModel" then some (decodeMining as ch) else leafModel n as ch

/-- models/elements.go:4502-4546 `Segment.UnmarshalXML` -/
def decodeSegment (as : Attrs) (ch : List Xml) : Dec (SegDoc F) :=
  (consumed "Segment" (segmentBody ch ([], []))).map fun r => .mk (segmentId as) r.1 r.2

/-! ## The document -/

/-- models/elements.go:2496-2502 `Interval`, by reflection -/
def intervalAttr (F : Type) [Arith F] [Lib F] (k v : String) (u : Unit) : Dec Unit :=
  if k = "leftMargin" ∨ k = "rightMargin" then (attrFloat (F := F) v).map fun _ => u else .ok u

/-- models/elements.go:1608-1619 `DataField`, by reflection -/
def dataFieldAttr (k v : String) (d : DataField) : Dec DataField :=
  if k = "dataType" then .ok { d with dataType := DataType.ofString v }
  else if k = "isCyclic" then (attrBool v).map fun _ => d
  else if k = "name" then .ok { d with name := v }
  else .ok d

/-- models/elements.go:5715-5721 `Value`, by reflection -/
def valueAttr (as : Attrs) : String :=
  as.foldl (fun s a => if a.1 = "value" then a.2 else s) ""

def dataFieldChild (F : Type) [Arith F] [Lib F] (n : String) (as : Attrs) (_ : List Xml)
    (d : DataField) : Dec DataField :=
  if n = "Interval" then (attrLoop (intervalAttr F) as ()).map fun _ => d
  else if n = "Value" then .ok { d with values := d.values ++ [valueAttr as] }
  else .ok d

def decodeDataField (F : Type) [Arith F] [Lib F] (as : Attrs) (ch : List Xml) : Dec DataField :=
  match attrLoop dataFieldAttr as ⟨"", .other "", []⟩ with
  | .error e => .error e
  | .ok d => reflectLoop (dataFieldChild F) ch d

/-- models/elements.go:1574-1580 `DataDictionary`, by reflection -/
def dictChild (F : Type) [Arith F] [Lib F] (n : String) (as : Attrs) (ch : List Xml)
    (dd : List DataField) : Dec (List DataField) :=
  if n = "DataField" then (decodeDataField F as ch).map fun d => dd ++ [d]
  else if n = "Taxonomy" then (skip n as ch).map fun _ => dd
  else .ok dd

def dictAttr (k v : String) (u : Unit) : Dec Unit :=
  if k = "numberOfFields" then (attrUint v).map fun _ => u else .ok u

def decodeDict (F : Type) [Arith F] [Lib F] (as : Attrs) (ch : List Xml) (dd : List DataField) :
    Dec (List DataField) :=
  match attrLoop dictAttr as () with
  | .error e => .error e
  | .ok () => reflectLoop (dictChild F) ch dd

omit [Reflect] in
/-- models/elements.go:5480-5484 `TransformationDictionary`, by reflection -/
def transChild (n : String) (as : Attrs) (ch : List Xml) (td : List (DerivedField F)) :
    Dec (List (DerivedField F)) :=
  if n = "DefineFunction" then
    (consumed n (bodyLoop (functionHandle (F := F)) ch ())).map fun _ => td
  else localChild n as ch td

omit [Arith F] [Lib F] [Reflect] in
variable (F) in
/-- models/elements.go:3734-3743 `PMML`: what `NewModel` is given -/
structure Pmml where
  version : String
  dataDictionary : List DataField
  transformations : List (DerivedField F)
  models : List (ModelElem F)

/-- models/elements.go:3749-3754 -/
def versionAttr (as : Attrs) : String :=
  as.foldl (fun s a => if a.1 = "version" then a.2 else s) ""

/-- models/elements.go:3756-3799 the `switch` of `PMML.UnmarshalXML`; `Header` and
`MiningBuildTask` cannot fail to decode -/
def pmmlHandle (n : String) (as : Attrs) (ch : List Xml) (p : Pmml F) : Option (Dec (Pmml F)) :=
  if n = "Header" ∨ n = "MiningBuildTask" then some (.ok p)
  else if n = "DataDictionary" then
    some ((decodeDict F as ch p.dataDictionary).map fun d => { p with dataDictionary := d })
  else if n = "TransformationDictionary" then
    some ((reflectLoop transChild ch p.transformations).map fun t => { p with transformations := t })
  else (decodeModel n as ch).map fun r => r.map fun m => { p with models := p.models ++ [m] }

/-- models/elements.go:3745-3800 `PMML.UnmarshalXML` on a zero variable -/
def decodePmml (as : Attrs) (ch : List Xml) : Dec (Pmml F) :=
  consumed "PMML" (bodyLoop pmmlHandle ch ⟨versionAttr as, [], [], []⟩)

end Decoders

end Gopmml
