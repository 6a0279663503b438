import Verif.Spec.Tree
import Verif.Model.Mining

/-!
# Induction principles for the nested types
-/

namespace Gopmml

variable {F : Type}

mutual
theorem Node.ind {P : Node F → Prop} (h : ∀ n, (∀ c ∈ n.nodes, P c) → P n) : (n : Node F) → P n
  | .mk id dc score rc dists nodes pred => h _ (by
      have := Node.inds h nodes
      simpa [Node.nodes] using this)
theorem Node.inds {P : Node F → Prop} (h : ∀ n, (∀ c ∈ n.nodes, P c) → P n) :
    (ns : List (Node F)) → ∀ c ∈ ns, P c
  | [] => by simp
  | n :: ns => List.forall_mem_cons.mpr ⟨Node.ind h n, Node.inds h ns⟩
end

mutual
theorem CNode.ind {P : CNode F → Prop} (h : ∀ n, (∀ c ∈ n.children, P c) → P n) : (n : CNode F) → P n
  | .mk id dc sd score pred children => h _ (by
      have := CNode.inds h children
      simpa [CNode.children] using this)
theorem CNode.inds {P : CNode F → Prop} (h : ∀ n, (∀ c ∈ n.children, P c) → P n) :
    (ns : List (CNode F)) → ∀ c ∈ ns, P c
  | [] => by simp
  | n :: ns => List.forall_mem_cons.mpr ⟨CNode.ind h n, CNode.inds h ns⟩
end

mutual
theorem EModel.ind {P : EModel F → Prop} (ht : ∀ m, P (.tree m)) (hr : ∀ d, P (.regression d))
    (hm : ∀ s ms, (∀ m ∈ ms, P m) → P (.mining s ms)) : (m : EModel F) → P m
  | .tree m => ht m
  | .regression d => hr d
  | .mining s ms => hm s ms (EModel.inds ht hr hm ms)
theorem EModel.inds {P : EModel F → Prop} (ht : ∀ m, P (.tree m)) (hr : ∀ d, P (.regression d))
    (hm : ∀ s ms, (∀ m ∈ ms, P m) → P (.mining s ms)) : (ms : List (EModel F)) → ∀ m ∈ ms, P m
  | [] => by simp
  | m :: ms => List.forall_mem_cons.mpr ⟨EModel.ind ht hr hm m, EModel.inds ht hr hm ms⟩
end

mutual
theorem Expr.ind {P : Expr F → Prop} (h1 : ∀ f, P (.fieldRef f)) (h2 : ∀ dt v, P (.const dt v))
    (h3 : ∀ fn args, (∀ a ∈ args, P a) → P (.apply fn args)) (h4 : ∀ m, P (.mapValues m))
    (h5 : ∀ k, P (.other k)) : (e : Expr F) → P e
  | .fieldRef f => h1 f
  | .const dt v => h2 dt v
  | .apply fn args => h3 fn args (Expr.inds h1 h2 h3 h4 h5 args)
  | .mapValues m => h4 m
  | .other k => h5 k
theorem Expr.inds {P : Expr F → Prop} (h1 : ∀ f, P (.fieldRef f)) (h2 : ∀ dt v, P (.const dt v))
    (h3 : ∀ fn args, (∀ a ∈ args, P a) → P (.apply fn args)) (h4 : ∀ m, P (.mapValues m))
    (h5 : ∀ k, P (.other k)) : (es : List (Expr F)) → ∀ e ∈ es, P e
  | [] => by simp
  | e :: es => List.forall_mem_cons.mpr ⟨Expr.ind h1 h2 h3 h4 h5 e, Expr.inds h1 h2 h3 h4 h5 es⟩
end

end Gopmml
