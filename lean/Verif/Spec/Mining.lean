import Verif.Spec.Mix
import Verif.Model.Mining

/-!
# Specification of ensembles

Segments are described by what their own `Evaluate` returns and does to the shared row.  Map
iteration orders inside the segments are unspecified, hence the relations.
-/

namespace Gopmml.Spec

variable {F : Type}

/-- The method used when none is given is `sum`. -/
def effectiveMethod (m : MultipleModelMethod) : MultipleModelMethod :=
  match m with
  | .empty => .sum
  | m => m

/-- The replacement text of a field: that of the last mining field of that name that has one. -/
def replacement (fs : List MiningField) (k : String) : Option String :=
  ((fs.filter (fun f => f.name = k ∧ f.missingValueReplacement.isSome)).getLast?).bind
    (·.missingValueReplacement)

/-- `row'` is `row` with every absent or nil field that has a replacement set to it. -/
def Imputed (fs : List MiningField) (row row' : GoMap (GoVal F)) : Prop :=
  ∀ k, row'[k]? =
    match replacement fs k, row[k]? with
    | some t, none => some (.str t)
    | some t, some .nil => some (.str t)
    | _, v => v

section
variable [Arith F] [Lib F] [Trans F]

omit [Trans F] in
/-- The evaluators of the segments: each is what `NewModel` makes of the segment's only model, the
transformation dictionary being threaded from one to the next. -/
inductive SegModels (dd : List DataField) : List (SegDoc F) → TD F → List (EModel F) → TD F → Prop
  | nil {td} : SegModels dd [] td [] td
  | cons {id ps e segs td td1 td2 m ms} : newModel dd e td = (.ok m, td1) →
      SegModels dd segs td1 ms td2 → SegModels dd (.mk id ps [e] :: segs) td (m :: ms) td2

omit [Trans F] in
/-- The row handed to the segments (or the failure before them): replacements, then derived
fields. -/
inductive Prepared (h : MiningHead F) : Row F → Res Unit → Row F → Prop
  | row {row row1 r row2} : Imputed h.miningFields row row1 →
      handleInput h.localTransformations (some row1) = (r, row2) → Prepared h (some row) r row2
  | nilRow {r row2} : (∀ k, replacement h.miningFields k = none) →
      handleInput h.localTransformations none = (r, row2) → Prepared h none r row2
  | nilPanic {k} : (replacement h.miningFields k).isSome → Prepared h none (panic .nilMapWrite) none

/-- The segments evaluated one after the other on a shared row, up to the first failure: the
outputs, or the error; and the row afterwards. -/
inductive SegsRun : List (EModel F) → Row F → Res (List (Out F)) → Row F → Prop
  | nil {row} : SegsRun [] row (.ok []) row
  | fail {m ms row o e} : (EModel.evaluate o m row).res = .error e →
      SegsRun (m :: ms) row (.error e) (EModel.evaluate o m row).row
  | cons {m ms row o out r row'} : (EModel.evaluate o m row).res = .ok out →
      SegsRun ms (EModel.evaluate o m row).row r row' →
      SegsRun (m :: ms) row (r.map (out :: ·)) row'

/-- `row'` is `row` extended and overridden by `out`. -/
def Extended (row : Row F) (out : GoMap (GoVal F)) (row' : Row F) : Prop :=
  (row = none ↔ row' = none) ∧ (row = none → out = ∅) ∧
  ∀ k, row'.get k = match out[k]? with
    | some v => some v
    | none => row.get k

/-- The segments evaluated one after the other, each on the row extended by the output of the
one before (`last` for the first). -/
inductive ChainRun : Out F → List (EModel F) → Row F → Res (Out F) → Row F → Prop
  | nil {last row} : ChainRun last [] row (.ok last) row
  | nilRow {last m ms} : last.getD ∅ ≠ ∅ → ChainRun last (m :: ms) none (panic .nilMapWrite) none
  | fail {last m ms row row1 o e} : Extended row (last.getD ∅) row1 →
      (EModel.evaluate o m row1).res = .error e →
      ChainRun last (m :: ms) row (.error e) (EModel.evaluate o m row1).row
  | cons {last m ms row row1 o out r row'} : Extended row (last.getD ∅) row1 →
      (EModel.evaluate o m row1).res = .ok out →
      ChainRun out ms (EModel.evaluate o m row1).row r row' →
      ChainRun last (m :: ms) row r row'
end

section
variable [Arith F] [Lib F]

/-- What a segment's output adds to entry `k`: its entry `k` in classification ensembles, its
"score" otherwise, as a float. -/
def contribution (fn : MiningFunction) (k : String) (out : Out F) : Option F :=
  (out.bind (fun m => m[if fn = .classification then k else "score"]?)).map GoVal.float64

omit [Lib F] in
/-- Multiply by the factor, then add the constant, target by target. -/
def rescaled (x : F) : List (Target F) → F
  | [] => x
  | t :: ts =>
    let x := match t.rescaleFactor with
      | some k => Arith.mul x k
      | none => x
    let x := match t.rescaleConstant with
      | some k => Arith.add x k
      | none => x
    rescaled x ts

/-- Entry `k` of a sum ensemble. -/
def ensembleSum (h : MiningHead F) (outs : List (Out F)) (k : String) : F :=
  rescaled (sum (outs.filterMap (contribution h.functionName k)))
    (h.targets.filter (fun t => t.field = k))

omit [Arith F] [Lib F] in
/-- The entries an ensemble reports. -/
def ensembleKeys (h : MiningHead F) : List String := h.outputs.map (·.name) ++ h.targets.map (·.field)

end

end Gopmml.Spec
