import Verif.Spec.Tree
import Verif.Model.Mining

/-!
# What building a model touches (C78)
-/

namespace Gopmml.Spec

variable {F : Type}

mutual
/-- The local transformations anywhere in a model element, outermost first. -/
def localFields : ModelElem F → List (DerivedField F)
  | .tree d => d.localTransformations
  | .mining h segs => h.localTransformations ++ localFieldss segs
  | .regression _ => []
  | .other _ => []
def localFieldss : List (SegDoc F) → List (DerivedField F)
  | [] => []
  | .mk _ _ es :: segs => localFieldsAll es ++ localFieldss segs
def localFieldsAll : List (ModelElem F) → List (DerivedField F)
  | [] => []
  | e :: es => localFields e ++ localFieldsAll es
end

mutual
/-- Nothing for `NewModel` to fill in: no mining fields in trees, no simple predicates, no local
transformations, and every ensemble says how its segments are combined. -/
inductive NothingToFill : ModelElem F → Prop
  | tree {d : TreeDoc F} : d.miningFields = [] → d.localTransformations = [] →
      (∀ r, Sub r d.node → ∀ q, r.pred = some q → simples q = []) → NothingToFill (.tree d)
  | regression {d : RegressionDoc F} : NothingToFill (.regression d)
  | mining {h : MiningHead F} {segs : List (SegDoc F)} : h.method ≠ .empty → h.localTransformations = [] →
      NothingToFills segs → NothingToFill (.mining h segs)
/-- The same for segments of one model each. -/
inductive NothingToFills : List (SegDoc F) → Prop
  | nil : NothingToFills []
  | cons {id ps e segs} : NothingToFill e → NothingToFills segs → NothingToFills (.mk id ps [e] :: segs)
end

end Gopmml.Spec
