import Verif.Spec.Live
import Verif.Spec.Safe

/-!
# Inlining temporary derived fields

Documents often compute a result in steps, through derived fields no predicate or predictor reads.
`inlineDoc D e` takes the steps `D` out: where a derived field refers to one, the expression of the
step is put in its place.  `none` if `e` does not allow it.
-/

namespace Gopmml.Spec

variable {F : Type}

mutual
/-- The expression with fields replaced by expressions. -/
def subst (σ : List (String × Expr F)) : Expr F → Expr F
  | .fieldRef f => (σ.lookup f).getD (.fieldRef f)
  | .apply fn args => .apply fn (substs σ args)
  | .const dt text => .const dt text
  | .mapValues m => .mapValues m
  | .other k => .other k
def substs (σ : List (String × Expr F)) : List (Expr F) → List (Expr F)
  | [] => []
  | e :: es => subst σ e :: substs σ es
end

/-- An expression whose value, if it has one, is a float64: storing it in a continuous field does not
change it. -/
def makesNumber : Expr F → Bool
  | .const _ _ => true
  | .apply fn args =>
    ["sum", "+", "-", "*", "/"].contains fn ||
    fn == "if" && (match args with
      | [_, a, b] => makesNumber a && makesNumber b
      | _ => false)
  | _ => false

/-- No field of the list is one of `D`. -/
def clear (D fs : List String) : Bool := fs.all fun f => !D.contains f

section
variable [Lib F]

/-- A step that can be taken out: its expression always has a value, and the value is stored as it
is. -/
def canDrop (op : OpType) (e : Expr F) : Bool :=
  safeExpr [] e && (op != .continuous || makesNumber e)

/-- The derived fields without those named in `D`; `σ` holds the expressions of the ones met so far. -/
def inlineFields (D : List String) : List (String × Expr F) → List (DerivedField F) →
    Option (List (DerivedField F))
  | _, [] => some []
  | σ, df :: dfs =>
    if !clear D (exprFields (subst σ df.expr)) then none
    else if D.contains df.name then
      if canDrop df.opType (subst σ df.expr) then inlineFields D ((df.name, subst σ df.expr) :: σ) dfs
      else none
    else if σ.any (fun s => (exprFields s.2).contains df.name) then none
    else (inlineFields D σ dfs).map ({ df with expr := subst σ df.expr } :: ·)

/-- A document computes a field as a derived one, at any depth. -/
inductive Computed : ModelElem F → String → Prop
  | tree {d : TreeDoc F} {df} : df ∈ d.localTransformations → Computed (.tree d) df.name
  | head {h : MiningHead F} {segs df} : df ∈ h.localTransformations → Computed (.mining h segs) df.name
  | segment {h : MiningHead F} {segs : List (SegDoc F)} {id ps es e f} :
      SegDoc.mk id ps es ∈ segs → e ∈ es → Computed e f → Computed (.mining h segs) f

mutual
/-- The document without the steps `D`, if no predicate and no predictor reads them. -/
def inlineDoc (D : List String) : ModelElem F → Option (ModelElem F)
  | .tree d =>
    if clear D (nodeFields d.node) then
      (inlineFields D [] d.localTransformations).map fun l => .tree { d with localTransformations := l }
    else none
  | .regression d => if clear D (tableFields d) then some (.regression d) else none
  | .mining h segs =>
    match inlineFields D [] h.localTransformations, inlineSegs D segs with
    | some l, some segs' => some (.mining { h with localTransformations := l } segs')
    | _, _ => none
  | .other k => some (.other k)
def inlineSegs (D : List String) : List (SegDoc F) → Option (List (SegDoc F))
  | [] => some []
  | .mk id p es :: segs =>
    match inlineDocs D es, inlineSegs D segs with
    | some es', some segs' => some (.mk id p es' :: segs')
    | _, _ => none
def inlineDocs (D : List String) : List (ModelElem F) → Option (List (ModelElem F))
  | [] => some []
  | e :: es =>
    match inlineDoc D e, inlineDocs D es with
    | some e', some es' => some (e' :: es')
    | _, _ => none
end

end

end Gopmml.Spec
