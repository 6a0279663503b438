import Verif.Spec.Compose
import Mathlib.Logic.Equiv.Defs

/-!
# Other names for nodes and for classes

`ν` gives every node id its new name, `σ` every class. Names of fields stay as they are, except those of
probabilities: `κ` says what `probability(a)` is called afterwards.
-/

namespace Gopmml.Spec

variable {F : Type} (ν σ κ : String → String)

def labelDist (d : ScoreDistribution F) : ScoreDistribution F := { d with value := σ d.value }

mutual
/-- A node whose ids (and those of the default children) and classes are renamed. -/
def labelNode : Node F → Node F
  | .mk id dc score rc dists nodes pred => .mk (ν id) (ν dc) (σ score) rc (dists.map (labelDist σ)) (labelNodes nodes) pred
def labelNodes : List (Node F) → List (Node F)
  | [] => []
  | n :: ns => labelNode n :: labelNodes ns
end

/-- The scores of a regression tree are numbers, not classes. -/
def labelTree (d : TreeDoc F) : TreeDoc F :=
  { d with node := if d.functionName = .classification then labelNode ν σ d.node else labelNode ν id d.node }

/-- The values declared for the fields in `T` are classes. -/
def labelData (T : String → Bool) (f : DataField) : DataField :=
  if T f.name then { f with values := f.values.map σ } else f

def labelOutput (o : OutputField) : OutputField := { o with name := κ o.name, value := σ o.value }

def labelRegression (d : RegressionDoc F) : RegressionDoc F :=
  { d with
    tables := d.tables.map fun t => { t with targetCategory := σ t.targetCategory }
    outputs := d.outputs.map (labelOutput σ κ) }

def labelHead (h : MiningHead F) : MiningHead F :=
  { h with
    outputs := h.outputs.map (labelOutput σ κ)
    targets := h.targets.map fun t => { t with field := κ t.field } }

mutual
/-- The document with its nodes and classes renamed. -/
def labelElem : ModelElem F → ModelElem F
  | .tree d => .tree (labelTree ν σ d)
  | .regression d => .regression (labelRegression σ κ d)
  | .mining h segs => .mining (labelHead σ κ h) (labelSegs segs)
  | .other k => .other k
def labelSegs : List (SegDoc F) → List (SegDoc F)
  | [] => []
  | .mk id ps es :: segs => .mk id ps (labelElems es) :: labelSegs segs
def labelElems : List (ModelElem F) → List (ModelElem F)
  | [] => []
  | e :: es => labelElem e :: labelElems es
end

/-- The answer with its classes renamed: those that are values, and those in the names of probabilities. -/
def labelVal : GoVal F → GoVal F
  | .str s => .str (σ s)
  | v => v

mutual
/-- `T` are the names under which trees answer with a class. Nothing else goes by such a name, and no answer of
a model is read by another as an input. -/
def Apart (T : String → Bool) : ModelElem F → Prop
  | .tree d => T (targetOf d.miningFields) = decide (d.functionName = .classification)
  | .regression d => ∀ o ∈ d.outputs, T o.name = false
  | .mining h segs => h.method ≠ .modelChain ∧ (∀ o ∈ h.outputs, T o.name = false) ∧
      (∀ t ∈ h.targets, T t.field = false) ∧ ApartSegs T segs
  | .other _ => True
def ApartSegs (T : String → Bool) : List (SegDoc F) → Prop
  | [] => True
  | .mk _ _ es :: segs => ApartElems T es ∧ ApartSegs T segs
def ApartElems (T : String → Bool) : List (ModelElem F) → Prop
  | [] => True
  | e :: es => Apart T e ∧ ApartElems T es
end

/-- Two answers that differ in the names of classes only; a class is given under a name in `T`. -/
def LabelOut (T : String → Bool) : Out F → Out F → Prop
  | none, none => True
  | some m, some m' => (∀ k, m'[κ k]? = (m[k]?).map (labelVal σ)) ∧ ∀ k s, m[k]? = some (.str s) → T k = true
  | _, _ => False

def LabelRes (T : String → Bool) : Res (Out F) → Res (Out F) → Prop
  | .ok out, .ok out' => LabelOut σ κ T out out'
  | .error e, .error e' => e' = e
  | _, _ => False

/-- The two evaluators give the same answers up to the names of classes: what the one can answer on a row, in
some order of visiting maps, the other can, and they leave the row alike. -/
def Labelled [Arith F] [Lib F] [Trans F] (T : String → Bool) (M M' : EModel F) : Prop := ∀ row,
  (∀ o, ∃ o', LabelRes σ κ T (EModel.evaluate o M row).res (EModel.evaluate o' M' row).res ∧
    (EModel.evaluate o' M' row).row = (EModel.evaluate o M row).row) ∧
  (∀ o', ∃ o, LabelRes σ κ T (EModel.evaluate o M row).res (EModel.evaluate o' M' row).res ∧
    (EModel.evaluate o' M' row).row = (EModel.evaluate o M row).row)

/-- New names that fit each other: the unnamed class and the names "" and "score" stay, as do the names under
which classes are given, and `probability(a)` becomes `probability(σ a)`. -/
structure Names (T : String → Bool) : Prop where
  empty : σ "" = ""
  unnamed : κ "" = ""
  score : κ "score" = "score"
  target : ∀ t, T t = true → κ t = t
  prob : ∀ v, κ ("probability(" ++ v ++ ")") = "probability(" ++ σ v ++ ")"
  notScore : T "score" = false

end Gopmml.Spec
