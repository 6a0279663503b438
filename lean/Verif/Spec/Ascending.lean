import Verif.Spec.Tree
import Verif.Spec.Mining
import Verif.Spec.Forms
import Verif.Model.F64

/-!
# Trees that ascend with a field (C88)

All on document level.
-/

namespace Gopmml.Spec

variable {F : Type}

/-- A larger number can only make the test true (`up`), or only make it false. -/
def Towards (up : Bool) : SimpleOp → Prop
  | .greaterThan | .greaterOrEqual => up = true
  | .lessThan | .lessOrEqual => up = false
  | .equal | .notEqual => False
  | _ => True

/-- A larger number in the field `x` can only make the predicate true (`up`), or only make it not true. -/
def Follows (up : Bool) (x : String) : Pred F → Prop
  | .simple s => s.field = x → Towards up s.op
  | .compound .and ps => FollowsAll up x ps
  | .compound .or ps => FollowsAll up x ps
  | .compound .surrogate ps => (∀ p ∈ ps, ∃ s, p = .simple s) ∧ FollowsAll up x ps
  | .compound _ ps => x ∉ predFields.predsFields ps
  | _ => True
where
  FollowsAll (up : Bool) (x : String) : List (Pred F) → Prop
    | [] => True
    | p :: ps => Follows up x p ∧ FollowsAll up x ps

/-- The same for the predicate of a node. -/
def NodeFollows (up : Bool) (x : String) (n : Node F) : Prop := ∀ p, n.pred = some p → Follows up x p

section
variable [Arith F] [Lib F]

/-- The number a node stands for if the answer is taken from it: its score, or the first label of its
distribution. -/
def numberOf (dd : List DataField) (d : TreeDoc F) (n : Node F) : Option F :=
  (ownDist dd d n).head?.bind fun s => Lib.parseFloat s.value

/-- No number at or below `a` is above one at or below `b`. -/
def BelowAll (num : Node F → Option F) (a b : Node F) : Prop :=
  ∀ r, Sub r a → ∀ r', Sub r' b → ∀ y, num r = some y → ∀ y', num r' = some y' → Arith.le y y' = true

/-- No number at or below `a` is above the number of `n` itself. -/
def BelowOwn (num : Node F → Option F) (a n : Node F) : Prop :=
  ∀ r, Sub r a → ∀ y, num r = some y → ∀ y', num n = some y' → Arith.le y y' = true

/-- The number of `n` itself is not above any number at or below `a`. -/
def AboveOwn (num : Node F → Option F) (a n : Node F) : Prop :=
  ∀ r, Sub r a → ∀ y, num r = some y → ∀ y', num n = some y' → Arith.le y' y = true

/-- Of the children, one tests `x` against a constant and another one for the opposite. -/
def Complementary (dt : Option DataType) (x : String) (n : Node F) : Prop :=
  ∃ c ∈ n.nodes, ∃ d ∈ n.nodes, ∃ t op op' raw raw', c.pred = some (.simple ⟨x, op, t, raw⟩) ∧
    d.pred = some (.simple ⟨x, op', t, raw'⟩) ∧
    ((op = .lessThan ∧ op' = .greaterOrEqual) ∨ (op = .lessOrEqual ∧ op' = .greaterThan)) ∧
    match dt with
    | some .double | some .float => ∃ y : F, Lib.parseFloat t = some y ∧ Arith.le y y = true
    | some .integer => (parseInt t).isSome = true
    | _ => False

/-- The node may be the one to answer: unless a child is always true, or two complement each other. -/
def MayStop (dt : Option DataType) (x : String) (n : Node F) : Prop :=
  (∀ c ∈ n.nodes, c.pred ≠ some .true_) ∧ ¬ Complementary dt x n

/-- The tree ascends with `x`, a field of the given type. Whenever a larger `x` may lead from one child to
another, the numbers below the other one are not smaller: from a child that may stop being true to the ones
after it and to the node itself, and to a child that may become true from the ones after it and from the
node itself. -/
inductive Ascending (dt : Option DataType) (x : String) (num : Node F → Option F) : Node F → Prop
  | node {n : Node F} :
      (∀ c ∈ n.nodes, Ascending dt x num c) →
      n.nodes.Pairwise (fun c d => (NodeFollows true x c ∨ BelowAll num c d) ∧
        (NodeFollows false x c ∨ BelowAll num d c)) →
      (MayStop dt x n → ∀ c ∈ n.nodes,
        (NodeFollows true x c ∨ BelowOwn num c n) ∧ (NodeFollows false x c ∨ AboveOwn num c n)) →
      Ascending dt x num n

/-- As values of a field of the given type, `v` is a number not above `v'`. -/
def NotLess (dt : DataType) (v v' : GoVal F) : Prop :=
  match dt with
  | .double | .float => Arith.le v.float64 v'.float64 = true
  | .integer => v.int64 ≤ v'.int64
  | _ => True

/-- Two rows that differ in the field `x` alone, where the second has the larger number (as values of
all the types in `dts`). -/
structure Larger (dts : DataType → Prop) (x : String) (r r' : GoMap (GoVal F)) : Prop where
  same : ∀ f, f ≠ x → r[f]? = r'[f]?
  grows : ∃ v v', r[x]? = some v ∧ r'[x]? = some v' ∧ v ≠ .nil ∧ v' ≠ .nil ∧ ∀ dt, dts dt → NotLess dt v v'

/-- No derived field of the list is called `x` or computed from it. -/
def Untouched (x : String) (dfs : List (DerivedField F)) : Prop :=
  ∀ df ∈ dfs, df.name ≠ x ∧ x ∉ exprFields df.expr

/-- The tree has the default strategy for missing values. -/
def DefaultStrategy (d : TreeDoc F) : Prop :=
  d.missingValueStrategy = .none ∨ ∃ s, d.missingValueStrategy = .other s

/-- A regression tree that ascends with `x`, a field of the given type. Whether its root is true does not depend on `x`, and no
label stands for NaN. -/
structure AscendingTree (dd : List DataField) (dt : Option DataType) (x : String) (d : TreeDoc F) : Prop where
  regression : d.functionName = .regression
  preds : AllPreds d.node
  root : NodeFollows true x d.node ∧ NodeFollows false x d.node
  ascending : Ascending dt x (numberOf dd d) d.node
  numbers : ∀ r, Sub r d.node → ∀ y, numberOf dd d r = some y → Arith.le y y = true
  untouched : Untouched x d.localTransformations

end

end Gopmml.Spec
