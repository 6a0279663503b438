import Verif.Spec.Document
import Verif.Spec.Mix

/-!
# Record counts

Documents that differ in their record counts only.
-/

namespace Gopmml

/-- The iteration order depends on the keys only, not on the values stored with them. -/
def MapOrd.Natural (o : MapOrd) : Prop :=
  ∀ (site : List Nat) {V W : Type} (f : V → W) (l : List (String × V)),
    o.order site (l.map fun p => (p.1, f p.2)) = (o.order site l).map fun p => (p.1, f p.2)

end Gopmml

namespace Gopmml.Spec

variable {F : Type} [Arith F]

/-- What a distribution says: label, confidence and probability of every entry, where the entry's
share of the records is used if a number is not given. -/
def shares (ds : List (ScoreDistribution F)) : List (String × F × F) :=
  ds.map fun s =>
    let share := Arith.div s.recordCount (sum (ds.map (·.recordCount)))
    (s.value, s.confidence.getD share, s.probability.getD share)

/-- The same node, but for record counts; they are related by `Q`, and so that all shares stay as they
are. -/
inductive RecountedNode (Q : F → F → Prop) : Node F → Node F → Prop
  | mk {id dc score rc rc' ds ds' ns ns' p} : Q rc rc' → shares ds = shares ds' →
      List.Forall₂ (fun s s' => Q s.recordCount s'.recordCount) ds ds' →
      List.Forall₂ (RecountedNode Q) ns ns' →
      RecountedNode Q (.mk id dc score rc ds ns p) (.mk id dc score rc' ds' ns' p)

mutual
/-- The same document, but for record counts. -/
inductive Recounted (Q : F → F → Prop) : ModelElem F → ModelElem F → Prop
  | tree {d : TreeDoc F} {n'} : RecountedNode Q d.node n' → Recounted Q (.tree d) (.tree { d with node := n' })
  | regression {d : RegressionDoc F} : Recounted Q (.regression d) (.regression d)
  | mining {h : MiningHead F} {segs segs'} : List.Forall₂ (RecountedSeg Q) segs segs' →
      Recounted Q (.mining h segs) (.mining h segs')
  | other {k} : Recounted Q (.other k) (.other k)
inductive RecountedSeg (Q : F → F → Prop) : SegDoc F → SegDoc F → Prop
  | mk {id ps es es'} : List.Forall₂ (Recounted Q) es es' → RecountedSeg Q (.mk id ps es) (.mk id ps es')
end

mutual
/-- All record counts of a tree changed by `f`. -/
def recountNode (f : F → F) : Node F → Node F
  | .mk id dc score rc ds ns p =>
    .mk id dc score (f rc) (ds.map fun s => { s with recordCount := f s.recordCount }) (recountNodes f ns) p
def recountNodes (f : F → F) : List (Node F) → List (Node F)
  | [] => []
  | n :: ns => recountNode f n :: recountNodes f ns
end

mutual
/-- All record counts of a document changed by `f`. -/
def recount (f : F → F) : ModelElem F → ModelElem F
  | .tree d => .tree { d with node := recountNode f d.node }
  | .regression d => .regression d
  | .mining h segs => .mining h (recountSegs f segs)
  | .other k => .other k
def recountSegs (f : F → F) : List (SegDoc F) → List (SegDoc F)
  | [] => []
  | .mk id ps es :: segs => .mk id ps (recounts f es) :: recountSegs f segs
def recounts (f : F → F) : List (ModelElem F) → List (ModelElem F)
  | [] => []
  | e :: es => recount f e :: recounts f es
end

end Gopmml.Spec
