import Verif.Spec.Thresholds
import Verif.Proofs.Forms

/-!
# What a document that only tests an input can see of it
-/

namespace Gopmml
open Spec

variable {F : Type}

mutual
theorem exprSees_of_free {form : String → Form} : (e : Expr F) → (k : Form) →
    (∀ f ∈ exprFields e, form f = .exact) → ExprSees form k e
  | .fieldRef f, k, h => by
    rw [ExprSees, h f (by simp [exprFields])]
    trivial
  | .const _ _, _, _ => by rw [ExprSees]; trivial
  | .mapValues m, _, h => by
    rw [ExprSees]
    intro p hp
    exact h _ (by simp only [exprFields, List.mem_map]; exact ⟨p, hp, rfl⟩)
  | .other _, _, _ => by rw [ExprSees]; trivial
  | .apply fn args, k, h => by
    have ha : ∀ k', ExprsSee form k' args := fun k' =>
      exprsSee_of_free args k' (fun f hf => h f (by rw [exprFields]; exact hf))
    rw [ExprSees.eq_def]
    simp only
    split_ifs
    · exact ha _
    · exact ha _
    · have he := ha .exact
      have hk := ha k
      match args, he, hk with
      | [c, a, b], he, hk =>
        simp only [ExprsSee] at he hk
        exact ⟨he.1, hk.2.1, hk.2.2.1⟩
      | [], _, _ => trivial
      | [_], _, _ => trivial
      | [_, _], _, _ => trivial
      | _ :: _ :: _ :: _ :: _, _, _ => trivial
theorem exprsSee_of_free {form : String → Form} : (es : List (Expr F)) → (k : Form) →
    (∀ f ∈ exprFields.exprsFields es, form f = .exact) → ExprsSee form k es
  | [], _, _ => by rw [ExprsSee]; trivial
  | e :: es, k, h => by
    rw [ExprsSee]
    exact ⟨exprSees_of_free e k fun f hf => h f (by rw [exprFields.exprsFields]; simp [hf]),
      exprsSee_of_free es k fun f hf => h f (by rw [exprFields.exprsFields]; simp [hf])⟩
end

mutual
theorem predSees_of_simples {declared : String → DataType → Prop} {form : String → Form} : (p : Pred F) →
    (∀ s ∈ simples p, ∀ dt, declared s.field dt → TestSees s.op s.value dt (form s.field)) → PredSees declared form p
  | .simple p, h => by rw [PredSees]; exact h p (by simp [simples])
  | .compound op ps, h => by rw [PredSees]; exact predsSee_of_simples ps (by rw [simples] at h; exact h)
  | .true_, _ => by simp [PredSees]
  | .false_, _ => by simp [PredSees]
  | .set _, _ => by simp [PredSees]
theorem predsSee_of_simples {declared : String → DataType → Prop} {form : String → Form} : (ps : List (Pred F)) →
    (∀ s ∈ simples.simpless ps, ∀ dt, declared s.field dt → TestSees s.op s.value dt (form s.field)) →
    PredsSee declared form ps
  | [], _ => by rw [PredsSee]; trivial
  | p :: ps, h => by
    rw [simples.simpless] at h
    rw [PredsSee]
    exact ⟨predSees_of_simples p fun s hs => h s (by simp [hs]), predsSee_of_simples ps fun s hs => h s (by simp [hs])⟩
end

theorem testSees_exact (op : SimpleOp) (text : String) (dt : DataType) : TestSees op text dt .exact := by
  cases op <;> trivial

theorem sees_of_onlyTested_tree {declared : String → DataType → Prop} {S : String → Prop} [DecidablePred S]
    {ts : String → List (DataType × SimpleOp × String)} {d : TreeDoc F}
    (hS : ∀ f, S f → OnlyTested declared (.tree d) f (ts f)) :
    Sees declared (fun f => if S f then .tests (ts f) else .exact) (.tree d) := by
  refine .tree (fun n p hn hp => predSees_of_simples p fun s hs dt hd => ?_) fun df hdf => ?_
  · by_cases hf : S s.field
    · have hm := (hS _ hf).tests s ⟨d, .here, n, p, hn, hp, hs⟩ rfl
      rw [if_pos hf]
      have hc : Looks s.op → (Form.tests (ts s.field)).Covers (.tests [(dt, s.op, s.value)]) :=
        fun hl => .inr ⟨_, rfl, fun t ht => by rw [List.mem_singleton] at ht; exact ht ▸ hm hl dt hd⟩
      generalize s.op = op at hc
      cases op <;> first | exact hc trivial | trivial
    · rw [if_neg hf]; exact testSees_exact _ _ _
  · have hfree : ∀ f ∈ exprFields df.expr, (if S f then Form.tests (ts f) else .exact) = .exact := fun f hf =>
      if_neg fun h => (hS f h).free (.treeDerived hdf hf)
    unfold DerivedSees
    cases df.opType <;> exact exprSees_of_free _ _ hfree

theorem Spec.OnlyTested.segment {declared : String → DataType → Prop} {h : MiningHead F} {segs : List (SegDoc F)}
    {id ps es e f ts} (hS : OnlyTested declared (.mining h segs) f ts) (hs : SegDoc.mk id ps es ∈ segs) (he : e ∈ es) :
    OnlyTested declared e f ts where
  tests s := fun ⟨d, hd, hr⟩ => hS.tests s ⟨d, .segment hs he hd, hr⟩
  free hc := hS.free (.segment hs he hc)

/-- An accepted document sees of fields that are only tested what the tests say. -/
theorem sees_of_onlyTested [Arith F] [Lib F] {dd : List DataField} {td td' : TD F} {e : ModelElem F} {m : EModel F}
    (h : newModel dd e td = (.ok m, td')) {declared : String → DataType → Prop} {S : String → Prop} [DecidablePred S]
    {ts : String → List (DataType × SimpleOp × String)} (hS : ∀ f, S f → OnlyTested declared e f (ts f)) :
    Sees declared (fun f => if S f then .tests (ts f) else .exact) e := by
  have := (newModel_ind_td (dd := dd) (J := fun _ => True)
    (P := fun e _ => (∀ f, S f → OnlyTested declared e f (ts f)) →
      Sees declared (fun f => if S f then .tests (ts f) else .exact) e)
    (fun d _ _ _ _ _ hS => sees_of_onlyTested_tree hS)
    (fun d hS => .regression fun t ht np hnp => by
      rw [if_neg fun h => (hS np.name h).free (.predictor ht hnp)]; trivial)
    (fun hh segs _ _ _ ms _ hall hS => by
      refine .mining (fun df hdf => ?_) fun id ps es e hs he => ?_
      · have hfree : ∀ f ∈ exprFields df.expr, (if S f then Form.tests (ts f) else .exact) = .exact := fun f hf =>
          if_neg fun h => (hS f h).free (.derived hdf hf)
        unfold DerivedSees
        cases df.opType <;> exact exprSees_of_free _ _ hfree
      · have : ∀ {segs : List (SegDoc F)} {ms : List (EModel F)},
            List.Forall₂ (fun seg m => ∃ id ps e, seg = SegDoc.mk id ps [e] ∧
              ((∀ f, S f → OnlyTested declared e f (ts f)) →
                Sees declared (fun f => if S f then .tests (ts f) else .exact) e)) segs ms →
            SegDoc.mk id ps es ∈ segs → (∀ f, S f → OnlyTested declared e f (ts f)) →
            Sees declared (fun f => if S f then .tests (ts f) else .exact) e := by
          intro segs ms hall hs ho
          induction hall with
          | nil => simp at hs
          | cons hx _ ih =>
            rcases List.mem_cons.mp hs with rfl | hs
            · obtain ⟨_, _, e', heq, hx⟩ := hx
              cases heq
              obtain rfl := List.mem_singleton.mp he
              exact hx ho
            · exact ih hs
        exact this hall hs fun f hf => (hS f hf).segment hs he)
    e (fun _ _ => trivial) (fun _ _ => trivial) h).1
  exact this hS

end Gopmml
