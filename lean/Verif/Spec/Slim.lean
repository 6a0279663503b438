import Verif.Model.Main

/-!
# What the answers of a document do not depend on
-/

namespace Gopmml.Spec

variable {F : Type}

/-- What to do with outliers and invalid values is left open. -/
def plainField (f : MiningField) : MiningField := { f with outliers := "", invalidValueTreatment := "" }

/-- A term without its exponent. -/
def plainTerm (q : NumericPredictor F) : NumericPredictor F := { q with exponent := 0 }

def plainTable (t : RegressionTable F) : RegressionTable F := { t with predictors := t.predictors.map plainTerm }

mutual
/-- A model without records to verify it with, without what is said about outliers and invalid values, without
exponents, and with neither the names nor the predicates of segments. -/
def slim : ModelElem F → ModelElem F
  | .tree d => .tree { d with miningFields := d.miningFields.map plainField, verification := none }
  | .regression d => .regression { d with tables := d.tables.map plainTable, verification := none }
  | .mining h segs =>
    .mining { h with miningFields := h.miningFields.map plainField, verification := none } (slimSegs segs)
  | .other k => .other k
def slimSegs : List (SegDoc F) → List (SegDoc F)
  | [] => []
  | .mk _ _ es :: segs => .mk "" [] (slimAll es) :: slimSegs segs
def slimAll : List (ModelElem F) → List (ModelElem F)
  | [] => []
  | e :: es => slim e :: slimAll es
end

/-- A document with its first model only, and that without what its answers do not depend on. -/
def slimDoc (p : Pmml F) : Pmml F := { p with version := "", models := p.models.head?.toList.map slim }

/-- What the program does with a document that has been decoded. -/
def answersOf [Arith F] [Lib F] [Trans F] (p : Pmml F) (calls : List (MapOrd × Row F)) : Except Crash (List (Out F)) :=
  match p.models with
  | [] => .error .noModel
  | mdl :: _ =>
    match (newModel p.dataDictionary mdl p.transformations).1 with
    | .error f => .error (.build f)
    | .ok m => callAll m calls

end Gopmml.Spec
