import Verif.Spec.Specialise
import Verif.Spec.Memory
import Verif.Spec.Regression
import Verif.Spec.Ascending

/-!
# Bounding answers on a region of inputs (C102)

From what is known about the fields of a row it is computed what is then known about the answer and about the row
after the call: an abstract interpretation of documents. Numbers are bounded by float64 intervals, whose bounds are
computed by the float64 operations themselves.
-/

namespace Gopmml.Spec
open Gopmml

/-- Bounds for a finite number, if there are any. -/
abbrev Span := Option (F64 × F64)

/-- A number within the bounds. -/
def Span.Holds : Span → F64 → Prop
  | none, _ => True
  | some (lo, hi), x => F64.le lo x = true ∧ F64.le x hi = true

namespace Span

/-- Neither infinite nor NaN. -/
def finite : F64 → Bool
  | .negZero | .fin _ _ => true
  | _ => false

/-- Bounds from which no NaN can come. -/
def of (lo hi : F64) : Span := if finite lo && finite hi then some (lo, hi) else none

/-- Exactly this number. -/
def point (x : F64) : Span := of x x

def least (x y : F64) : F64 := if F64.le x y then x else y
def greatest (x y : F64) : F64 := if F64.le x y then y else x

/-- Bounds for numbers within one or the other bounds. -/
def join : Span → Span → Span
  | some (l, h), some (l', h') =>
    if F64.le l l && F64.le l' l' && F64.le h h && F64.le h' h' then some (least l l', greatest h h') else none
  | _, _ => none

def add : Span → Span → Span
  | some (l, h), some (l', h') => of (Arith.add l l') (Arith.add h h')
  | _, _ => none

def sub : Span → Span → Span
  | some (l, h), some (l', h') => of (Arith.sub l h') (Arith.sub h l')
  | _, _ => none

/-- Bounds for the operation from its values at the corners. -/
def corners (op : F64 → F64 → F64) : F64 × F64 → F64 × F64 → Span
  | (l, h), (l', h') =>
    let a := op l l'
    let b := op l h'
    let c := op h l'
    let d := op h h'
    if finite a && finite b && finite c && finite d then
      some (least (least a b) (least c d), greatest (greatest a b) (greatest c d))
    else none

def mul : Span → Span → Span
  | some a, some b =>
    if finite a.1 && finite a.2 && finite b.1 && finite b.2 then corners Arith.mul a b else none
  | _, _ => none

/-- Division by numbers that all have the same sign. -/
def div : Span → Span → Span
  | some a, some b =>
    if finite a.1 && finite a.2 && finite b.1 && finite b.2 &&
        (Arith.lt Arith.zero b.1 || Arith.lt b.2 Arith.zero) then
      corners Arith.div a b
    else none
  | _, _ => none

end Span

namespace Region

/-- Numbers within the bounds. -/
def ofSpan : Span → Region
  | none => .any
  | some (lo, hi) => .between lo hi

/-- Bounds for the number a value stands for. -/
def number : Region → Span
  | .is v => .point v.float64
  | .between lo hi => some (lo, hi)
  | _ => none

/-- Values that are as known here or there. -/
def join : Region → Region → Region
  | .absent, .absent => .absent
  | .is v, .is w => if v = w then .is v else
      match v, w with
      | .f64 x, .f64 y => ofSpan (.join (.point x) (.point y))
      | _, _ => .any
  | .is (.f64 x), .between lo hi => ofSpan (.join (.point x) (some (lo, hi)))
  | .between lo hi, .is (.f64 x) => ofSpan (.join (some (lo, hi)) (.point x))
  | .between lo hi, .between lo' hi' => ofSpan (.join (some (lo, hi)) (some (lo', hi')))
  | _, _ => .any

/-- What is known about the result of an arithmetic operation. -/
def arith (op : F64 → F64 → F64) (span : Span → Span → Span) : Region → Region → Region
  | .is v, .is w => .is (.f64 (op v.float64 w.float64))
  | r, r' => ofSpan (span r.number r'.number)

end Region

/-- The values of the fields, if nothing but them is possible. -/
def knownRow (B : Box) (fs : List String) : Option (GoMap (GoVal F64)) :=
  fs.foldr (fun f r => match r, B f with
    | some r, .absent => some (r.erase f)
    | some r, .is v => some (r.insert f v)
    | _, _ => none) (some ∅)

mutual
/-- What is known about the value of an expression. -/
def exprRegion (B : Box) : Expr F64 → Region
  | .fieldRef f => match B f with
    | .absent => .is .nil
    | r => r
  | .const dt t => match handleConstant dt t with
    | .ok v => .is v
    | .error _ => .any
  | .mapValues m => match knownRow B (m.fieldColumnPairs.map (·.field)) with
    | none => .any
    | some r => match handleMapValues m (some r) with
      | .ok v => .is v
      | .error _ => .any
  | .other _ => .any
  | .apply fn args =>
    if fn = "sum" then sumRegion B (.is (.f64 Arith.zero)) args
    else if fn = "*" ∨ fn = "+" ∨ fn = "-" ∨ fn = "/" then
      match args with
      | [a, b] =>
        if fn = "*" then .arith Arith.mul Span.mul (exprRegion B a) (exprRegion B b)
        else if fn = "+" then .arith Arith.add Span.add (exprRegion B a) (exprRegion B b)
        else if fn = "-" then .arith Arith.sub Span.sub (exprRegion B a) (exprRegion B b)
        else .arith Arith.div Span.div (exprRegion B a) (exprRegion B b)
      | _ => .any
    else if fn = "isMissing" ∨ fn = "isNotMissing" then
      match args with
      | [a] => match exprRegion B a with
        | .is v => .is (.bool ((fn == "isMissing") == (v == .nil)))
        | .between _ _ => .is (.bool (fn == "isNotMissing"))
        | _ => .any
      | _ => .any
    else if fn = "if" then
      match args with
      | [c, a, b] => match exprRegion B c with
        | .is v => if v.toBool then exprRegion B a else exprRegion B b
        | _ => .join (exprRegion B a) (exprRegion B b)
      | _ => .any
    else .any
def sumRegion (B : Box) (r : Region) : List (Expr F64) → Region
  | [] => r
  | e :: es => sumRegion B (.arith Arith.add Span.add r (exprRegion B e)) es
end

/-- What is known about the value stored for a derived field. -/
def storeRegion (op : OpType) (r : Region) : Region :=
  match op, r with
  | .continuous, .is v => .is (.f64 v.float64)
  | _, r => r

/-- The box with one field changed. -/
def Box.set (B : Box) (f : String) (r : Region) : Box := fun g => if g = f then r else B g

/-- The box after the derived fields. -/
def derivedBox : List (DerivedField F64) → Box → Box
  | [], B => B
  | df :: dfs, B => derivedBox dfs (B.set df.name (storeRegion df.opType (exprRegion B df.expr)))

/-- The box after the replacements. -/
def imputedBox (fs : List MiningField) (B : Box) : Box := fun f =>
  match replacement fs f, B f with
  | some t, .absent => .is (.str t)
  | some t, .is .nil => .is (.str t)
  | _, r => r

/-- What is known about an answer: whether there may be no prediction, and its entries otherwise. -/
structure Outlook where
  none : Bool
  entry : String → Region

/-- An answer that is as known. -/
def Outlook.Holds (a : Outlook) : Out F64 → Prop
  | Option.none => a.none = true
  | some out => ∀ k, (a.entry k).Holds out[k]?

/-- Nothing is known. -/
def Outlook.any : Outlook := ⟨true, fun _ => .any⟩

/-- Bounds for the numbers. -/
def hull : List F64 → Span
  | [] => none
  | [x] => .point x
  | x :: xs => .join (.point x) (hull xs)

/-- The nodes of a specialised tree that may answer, for the strategies where an answer is that of one node: none with
a child that is always true, except under lastPrediction. -/
def mayAnswer (d : TreeDoc F64) : Option (List (Node F64)) :=
  match d.missingValueStrategy with
  | .none | .other _ | .nullPrediction => some ((allNodes d.node).filter fun n =>
      n.nodes.all fun c => match c.pred with | some .true_ => false | _ => true)
  | .lastPrediction => some (allNodes d.node)
  | _ => none

/-- A specialised tree always predicts. -/
def sure (out : Pred F64 → Outcomes) (d : TreeDoc F64) : Bool :=
  certain out (· == .t) d.node.pred &&
  match d.missingValueStrategy with
  | .none | .other _ => true
  | .nullPrediction => (allNodes d.node).all fun n => certain out (· != .u) n.pred
  | _ => false

/-- Exactly this entry. -/
def Region.entry : Option (GoVal F64) → Region
  | none => .absent
  | some v => .is v

/-- As known at one of the places. -/
def joinAll : List Region → Region
  | [] => .any
  | [r] => r
  | r :: rs => .join r (joinAll rs)

/-- The answers of nodes. -/
def nodeAnswers (dd : List DataField) (d : TreeDoc F64) (ns : List (Node F64)) : List (GoMap (GoVal F64)) :=
  ns.filterMap fun n => match report d.functionName (targetOf d.miningFields) (ownDist dd d n, .t) with
    | .ok out => out
    | .error _ => none

/-- What is known about the answer of a specialised tree. -/
def specialAnswers (out : Pred F64 → Outcomes) (dd : List DataField) (d : TreeDoc F64) : Outlook :=
  match mayAnswer d with
  | some ns =>
    if (allNodes d.node).all (·.pred.isSome) then
      ⟨!sure out d, fun k => joinAll ((nodeAnswers dd d ns).map fun out => .entry out[k]?)⟩
    else .any
  | none =>
    if d.functionName = .regression then
      ⟨true, fun k => if k = "score" then .ofSpan (hull ((treeLabels dd d).filterMap (Lib.parseFloat ·))) else .absent⟩
    else .any

/-- What is known about the answer of a tree, given what is known about the row it is evaluated on. -/
def treeAnswers (B : Box) (dd : List DataField) (td : TD F64) (d : TreeDoc F64) : Outlook :=
  specialAnswers (testOutcomes (leafOutcomes (treeTypes dd td d) B)) dd (specialTree B dd td d)

/-- Bounds for a linear score. -/
def linearSpan (B : Box) (t : RegressionTable F64) : Span :=
  t.predictors.foldl (fun s np => s.add (.mul (.point np.coefficient) (B np.name).number)) (.point t.intercept)

variable [Trans F64]

/-- What is known about the answer of a regression model. -/
def regressionAnswers (B : Box) (d : RegressionDoc F64) : Outlook :=
  match d.functionName, d.tables, d.outputs, link (F := F64) d.normalization with
  | .regression, [t], [f], some g =>
    ⟨false, fun k => if k = f.name then
        match linearSpan B t with
        | some (lo, hi) => .ofSpan (.of (g lo) (g hi))
        | none => .any
      else .absent⟩
  | _, _, _, _ => .any

omit [Trans F64] in
/-- Bounds for a sum after one more segment. -/
def addSpan (key : String) (s : Span) (a : Outlook) : Span :=
  match a.entry key with
  | .absent => s
  | r => if a.none then .join s (s.add r.number) else s.add r.number

omit [Trans F64] in
/-- Bounds for the rescaled sum. -/
def rescaledSpan : Span → List (Target F64) → Span
  | s, [] => s
  | s, t :: ts =>
    let s := match t.rescaleFactor with
      | some k => s.mul (.point k)
      | none => s
    let s := match t.rescaleConstant with
      | some k => s.add (.point k)
      | none => s
    rescaledSpan s ts

omit [Trans F64] in
/-- What is known about the answer of a sum ensemble. -/
def sumAnswers (h : MiningHead F64) (as : List Outlook) : Outlook :=
  ⟨false, fun k => if k ∈ ensembleKeys h then
      .ofSpan (rescaledSpan (as.foldl (addSpan (if h.functionName = .classification then k else "score"))
        (.point Arith.zero)) (h.targets.filter (fun t => t.field = k)))
    else .absent⟩

omit [Trans F64] in
/-- What is known about the answer of an average ensemble. -/
def averageAnswers (h : MiningHead F64) (n : Nat) (as : List Outlook) : Outlook :=
  ⟨false, fun k => if k ∈ ensembleKeys h then
      .ofSpan (.div ((sumAnswers h as).entry k).number (.point (Arith.ofInt n)))
    else .absent⟩

omit [Trans F64] in
/-- The row extended and overridden by an answer. -/
def Outlook.written (a : Outlook) (B : Box) : Box := fun f =>
  match a.entry f with
  | .absent => B f
  | .any => .any
  | r => if a.none then .join (B f) r else r

mutual
/-- What is known about the answer of a document and the row afterwards, from what is known about the row. -/
def bounds (dd : List DataField) (B : Box) : ModelElem F64 → TD F64 → Outlook × Box
  | .tree d, td =>
    let B' := derivedBox d.localTransformations B
    (treeAnswers B' dd td d, B')
  | .regression d, _ => (regressionAnswers B d, B)
  | .mining h segs, td =>
    let B' := derivedBox h.localTransformations (imputedBox h.miningFields B)
    let td' := td ++ h.localTransformations
    match effectiveMethod h.method with
    | .sum =>
      let r := segsBounds dd B' segs td'
      (sumAnswers h r.1, r.2)
    | .average =>
      let r := segsBounds dd B' segs td'
      (averageAnswers h segs.length r.1, r.2)
    | .modelChain => chainBounds dd ⟨false, fun _ => .absent⟩ B' segs td'
    | .selectFirst => firstBounds dd B' segs td'
    | _ => (.any, fun _ => .any)
  | .other _, _ => (.any, fun _ => .any)
def segsBounds (dd : List DataField) (B : Box) : List (SegDoc F64) → TD F64 → List Outlook × Box
  | [], _ => ([], B)
  | .mk _ _ es :: segs, td =>
    let a := elemsBounds dd B es td
    let r := segsBounds dd a.2 segs (td ++ localFieldsAll es)
    (a.1 :: r.1, r.2)
def chainBounds (dd : List DataField) (last : Outlook) (B : Box) : List (SegDoc F64) → TD F64 → Outlook × Box
  | [], _ => (last, B)
  | .mk _ _ es :: segs, td =>
    let a := elemsBounds dd (last.written B) es td
    chainBounds dd a.1 a.2 segs (td ++ localFieldsAll es)
def firstBounds (dd : List DataField) (B : Box) : List (SegDoc F64) → TD F64 → Outlook × Box
  | [], _ => (.any, fun _ => .any)
  | .mk _ _ es :: _, td => elemsBounds dd B es td
/-- (Of the only model of a segment.) -/
def elemsBounds (dd : List DataField) (B : Box) : List (ModelElem F64) → TD F64 → Outlook × Box
  | [], _ => (.any, fun _ => .any)
  | e :: _, td => bounds dd B e td
end

end Gopmml.Spec
