import Verif.Model.Doc
import Verif.Model.Value
import Verif.Spec.Mining

/-!
# Documents that leave a row alone
-/

namespace Gopmml.Spec
open Gopmml

variable {F : Type}

/-- Nothing in the document makes `Evaluate` write to this row: there are no local transformations, no
chains of two or more segments, and every field with a replacement value is present. -/
inductive LeavesAlone (row : Row F) : ModelElem F → Prop
  | tree {d : TreeDoc F} : d.localTransformations = [] → LeavesAlone row (.tree d)
  | regression {d} : LeavesAlone row (.regression d)
  | mining {h : MiningHead F} {segs} :
      (∀ f ∈ h.miningFields, f.missingValueReplacement.isSome → row.getD f.name ≠ .nil) →
      h.localTransformations = [] → (effectiveMethod h.method = .modelChain → segs.length ≤ 1) →
      (∀ id ps es e, SegDoc.mk id ps es ∈ segs → e ∈ es → LeavesAlone row e) → LeavesAlone row (.mining h segs)

end Gopmml.Spec
