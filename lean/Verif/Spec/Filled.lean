import Verif.Spec.Reached
import Verif.Spec.Safe
import Verif.Spec.Mining
import Verif.Spec.Expr
import Verif.Proofs.TreeEval

/-!
# Rows with more fields (C95)
-/

namespace Gopmml.Spec

variable {F : Type}

/-- `r'` has all the fields of `r` with their values, and perhaps more. -/
def FilledIn (r r' : GoMap (GoVal F)) : Prop := ∀ (k : String) v, r[k]? = some v → r'[k]? = some v

mutual
/-- A predicate that does not ask whether a field is missing: neither by isMissing nor by a surrogate. -/
def steady : Pred F → Bool
  | .simple p => p.op != .isMissing
  | .compound op ps => op != .surrogate && steadies ps
  | .true_ => true
  | .false_ => true
  | .set _ => true
def steadies : List (Pred F) → Bool
  | [] => true
  | p :: ps => steady p && steadies ps
end

def steadyNode (n : Node F) : Bool :=
  match n.pred with
  | some p => steady p
  | none => false

/-- Derived fields computed from the fields `K` and from derived fields before them. -/
def UsesOnly (K : String → Prop) : List (DerivedField F) → Prop
  | [] => True
  | df :: dfs => (∀ f ∈ exprFields df.expr, K f) ∧ UsesOnly (fun k => k = df.name ∨ K k) dfs

variable [Arith F] [Lib F] [Trans F]

mutual
/-- Nothing that is missing in the row plays a part in the model's answer: the derived fields are computed from
fields of the row, the fields with replacements are in the row, and every test that a tree makes is known.
Regressions answer (they fail if a field is missing). -/
inductive Definite (dd : List DataField) : ModelElem F → EModel F → GoMap (GoVal F) → Prop
  | tree {d m td td'} {r q : GoMap (GoVal F)} : newTreeModel dd td d = (.ok m, td') →
      UsesOnly (fun k => (r[k]?).isSome) d.localTransformations →
      handleInput d.localTransformations (some r) = (.ok (), some q) →
      (∀ n ∈ reached d.missingValueStrategy (nodeTest (treeTypes dd td d) (some q)) d.node,
        steadyNode n = true ∧ nodeTest (treeTypes dd td d) (some q) n ≠ .u) →
      Definite dd (.tree d) (.tree m) r
  | regression {d m out} {r : GoMap (GoVal F)} : (∀ o, (EModel.evaluate o m (some r)).res = .ok out) →
      Definite dd (.regression d) m r
  | mining {h segs s ms} {r q : GoMap (GoVal F)} : (∀ k ∈ replaced h.miningFields, (r[k]?).isSome) →
      UsesOnly (fun k => (r[k]?).isSome) h.localTransformations →
      Prepared h (some r) (.ok ()) (some q) →
      DefiniteSegs dd (effectiveMethod h.method) (some ∅) segs ms q →
      Definite dd (.mining h segs) (.mining s ms) r
/-- The same for the segments that are evaluated, each on the row the one before has left; in a chain this is
extended by its answer. -/
inductive DefiniteSegs (dd : List DataField) : MultipleModelMethod → Out F → List (SegDoc F) → List (EModel F) →
    GoMap (GoVal F) → Prop
  | nil {method last r} : DefiniteSegs dd method last [] [] r
  | first {last id ps e segs m ms r} : Definite dd e m r →
      DefiniteSegs dd .selectFirst last (.mk id ps [e] :: segs) (m :: ms) r
  | next {method last out id ps e segs m ms} {r r1 q : GoMap (GoVal F)} :
      (if method = .modelChain then Extended (some r) (Option.getD last ∅) (some r1) else r1 = r) →
      Definite dd e m r1 →
      (∀ o, (EModel.evaluate o m (some r1)).res = .ok out ∧ (EModel.evaluate o m (some r1)).row = some q) →
      DefiniteSegs dd method out segs ms q →
      DefiniteSegs dd method last (.mk id ps [e] :: segs) (m :: ms) r
end

end Gopmml.Spec
