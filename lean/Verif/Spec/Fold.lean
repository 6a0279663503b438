import Verif.Model.Expr
import Verif.Spec.Expr
import Verif.Model.F64

/-!
# Computing constant expressions once

Expressions that read no field have the same value for every row.  `foldDoc` computes them, and writes
the float64 they give into the document as constants.
-/

namespace Gopmml.Spec

variable {F : Type}

/-- The value of an expression that reads no field, if it has one. -/
def fixedValue [Arith F] [Lib F] (e : Expr F) : Option (GoVal F) :=
  if exprFields e = [] then (handleExpression none e).toOption else none

section
variable [Arith F] [Lib F]

/-- A call whose arguments `args` became `args'`: of a conditional with a fixed condition only the branch
taken is left. -/
def foldCall (fn : String) (args args' : List (Expr F)) : Expr F :=
  match args, args' with
  | [c, _, _], [_, a, b] =>
    if fn = "if" then
      match fixedValue c with
      | some v => if v.toBool then a else b
      | none => .apply fn args'
    else .apply fn args'
  | _, _ => .apply fn args'

mutual
/-- The expression with its constant parts computed. -/
def foldExpr : Expr F → Expr F
  | .fieldRef f => .fieldRef f
  | .const dt text => .const dt text
  | .mapValues m => .mapValues m
  | .other k => .other k
  | .apply fn args =>
    match fixedValue (.apply fn args) with
    | some (.f64 x) => .const .double (Lib.fmtF64 x)
    | _ => foldCall fn args (foldExprs args)
def foldExprs : List (Expr F) → List (Expr F)
  | [] => []
  | e :: es => foldExpr e :: foldExprs es
end
end

/-- The derived fields with their expressions changed. -/
def mapFields (g : Expr F → Expr F) (L : List (DerivedField F)) : List (DerivedField F) :=
  L.map fun df => { df with expr := g df.expr }

mutual
/-- The document with the expressions of all its derived fields changed. -/
def mapExprs (g : Expr F → Expr F) : ModelElem F → ModelElem F
  | .tree d => .tree { d with localTransformations := mapFields g d.localTransformations }
  | .regression d => .regression d
  | .mining h segs =>
    .mining { h with localTransformations := mapFields g h.localTransformations } (mapExprsSegs g segs)
  | .other k => .other k
def mapExprsSegs (g : Expr F → Expr F) : List (SegDoc F) → List (SegDoc F)
  | [] => []
  | .mk id p es :: segs => .mk id p (mapExprsDocs g es) :: mapExprsSegs g segs
def mapExprsDocs (g : Expr F → Expr F) : List (ModelElem F) → List (ModelElem F)
  | [] => []
  | e :: es => mapExprs g e :: mapExprsDocs g es
end

/-- The document with its constant expressions computed. -/
def foldDoc [Arith F] [Lib F] (e : ModelElem F) : ModelElem F := mapExprs foldExpr e

end Gopmml.Spec
