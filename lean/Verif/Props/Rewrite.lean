import Verif.Proofs.Rewrite
import Verif.Props.Counts

/-!
# Property C68: simplifying tests and leaving out children that are never chosen
-/

namespace Gopmml
open Spec

variable {F : Type} [Arith F] [Lib F] [Trans F]

/-- Any order of iteration. -/
abbrev SameAlways (m m' : EModel F) : Prop := SameFor (fun _ => True) m m'

omit [Arith F] [Lib F] [Trans F] in
theorem SegsRel.length_eq {T : TreeDoc F → TreeDoc F → Prop} {segs segs' : List (SegDoc F)}
    (h : SegsRel T segs segs') : segs.length = segs'.length := by
  induction segs generalizing segs' with
  | nil => cases h; rfl
  | cons s segs ih => cases h with
    | cons _ h => simp [ih h]

section
variable {T : TreeDoc F → TreeDoc F → Prop} {dd : List DataField}
  (hT : ∀ {d d'} td {m td'}, T d d' → newModel dd (.tree d) td = (.ok m, td') →
    ∃ m', newModel dd (.tree d') td = (.ok m', td') ∧ SameAlways m m')
include hT

set_option linter.unusedSectionVars false in
mutual
/-- What holds of every tree of a document holds of the document. -/
theorem docRel_newModel : (e : ModelElem F) → ∀ {e'} td {m td'}, DocRel T e e' → newModel dd e td = (.ok m, td') →
    ∃ m', newModel dd e' td = (.ok m', td') ∧ SameAlways m m'
  | .tree d, _, td, m, td', h, hm => by
    cases h with
    | tree h => exact hT td h hm
  | .regression d, _, td, m, td', h, hm => by
    cases h
    exact ⟨m, hm, fun _ _ _ => ⟨rfl, rfl⟩⟩
  | .other k, _, td, m, td', h, hm => by
    cases h
    exact ⟨m, hm, fun _ _ _ => ⟨rfl, rfl⟩⟩
  | .mining hd segs, _, td, m, td', h, hm => by
    cases h with
    | @mining _ _ segs' h =>
    have hv' : (MiningState.init dd hd segs').validate = (((MiningState.init dd hd segs).validate).1,
        { ((MiningState.init dd hd segs).validate).2 with segments := segs' }) := by
      unfold MiningState.validate MiningState.init
      simp only
      split_ifs <;> rfl
    have hseg : ((MiningState.init dd hd segs).validate).2.segments = segs := by
      unfold MiningState.validate MiningState.init
      simp only
      split_ifs <;> rfl
    rw [newModel] at hm
    rw [newModel, hv']
    rcases hv : (MiningState.init dd hd segs).validate with ⟨_ | ⟨⟨⟩⟩, s⟩
    · rw [hv] at hm; simp at hm
    · rw [hv] at hseg hm
      simp only at hseg hm ⊢
      rcases hc : compileSegments dd segs (td ++ s.head.localTransformations) with ⟨_ | ⟨⟨⟩⟩, ms, td1⟩
      · rw [hc] at hm; simp at hm
      · obtain ⟨ms', h1, h2⟩ := docRel_segments segs (td ++ s.head.localTransformations) h hc
        rw [hc] at hm
        rw [h1]
        simp only [Prod.mk.injEq, Except.ok.injEq] at hm
        obtain ⟨rfl, rfl⟩ := hm
        refine ⟨_, rfl, ?_⟩
        exact mining_for (fun _ _ _ => trivial) _
          (by simp only [MiningState.prepare, hseg]; exact (SegsRel.length_eq h).symm) h2
theorem docRel_segments : (segs : List (SegDoc F)) → ∀ {segs'} td {ms td'}, SegsRel T segs segs' →
    compileSegments dd segs td = (.ok (), ms, td') →
    ∃ ms', compileSegments dd segs' td = (.ok (), ms', td') ∧ List.Forall₂ SameAlways ms ms'
  | [], _, td, ms, td', h, hm => by
    cases h
    simp only [compileSegments, Prod.mk.injEq, true_and] at hm
    obtain ⟨rfl, rfl⟩ := hm
    exact ⟨[], by simp [compileSegments], .nil⟩
  | .mk id ps [] :: segs, _, td, ms, td', h, hm => by
    simp [compileSegments] at hm
  | .mk id ps (e :: e2 :: es) :: segs, _, td, ms, td', h, hm => by
    simp [compileSegments] at hm
  | .mk id ps [e] :: segs, _, td, ms, td', h, hm => by
    cases h with
    | cons h1 h2 =>
      cases h1 with
      | @cons _ e' _ _ h1 hn =>
        cases hn
        rw [compileSegments] at hm
        rcases hc : newModel dd e td with ⟨_ | m, td1⟩
        · rw [hc] at hm; simp at hm
        · rw [hc] at hm
          obtain ⟨m', g1, g2⟩ := docRel_newModel e td h1 hc
          simp only [Prod.mk.injEq] at hm
          obtain ⟨k1, rfl, rfl⟩ := hm
          obtain ⟨ms', k2, k3⟩ := docRel_segments segs td1 h2 (ms := (compileSegments dd segs td1).2.1)
            (td' := (compileSegments dd segs td1).2.2) (by rw [← k1])
          exact ⟨m' :: ms', by rw [compileSegments, g1]; simp only [k2], .cons g2 k3⟩
end
end

theorem tree_simpler {dd : List DataField} {d d' : TreeDoc F} (td : TD F) {m : EModel F} {td' : TD F}
    (h : SimplerTree d d') (hm : newModel dd (.tree d) td = (.ok m, td')) :
    ∃ m', newModel dd (.tree d') td = (.ok m', td') ∧ SameAlways m m' := by
  obtain ⟨n', h, rfl⟩ := h
  by_cases hf : d.functionName = .classification ∨ d.functionName = .regression
  swap
  · have hf' : d.functionName ≠ .classification ∧ d.functionName ≠ .regression := by
      rw [not_or] at hf; exact hf
    simp only [newModel, newTreeModel_bad hf'] at hm
    simp at hm
  · have hf' : ¬ (d.functionName ≠ .classification ∧ d.functionName ≠ .regression) := by
      rcases hf with h | h <;> simp [h]
    have h1 := newTreeModel_good (dd := dd) (td := td) hf'
    have h2 := newTreeModel_good (dd := dd) (td := td) (d := { d with node := n' }) hf'
    change match newNode (treeTypes dd td d) n' with | .error e => _ | .ok _ => _ at h2
    cases hn : newNode (treeTypes dd td d) d.node with
    | error e =>
      rw [hn] at h1
      simp only [newModel, h1] at hm
      simp at hm
    | ok c =>
      obtain ⟨c', hn', hc⟩ := newNode_simpler (R := fun _ => True) d.node h hn
      rw [hn] at h1
      rw [hn'] at h2
      obtain ⟨t, h1⟩ := h1
      obtain ⟨t2, h2⟩ := h2
      obtain ⟨-, -, hv, hcm, hk, hmod, ht, hctx, hroot⟩ := newTreeModel_ok h1
      obtain ⟨-, -, hv2, hcm2, hk2, hmod2, ht2, hctx2, hroot2⟩ := newTreeModel_ok h2
      simp only [newModel, h1, Prod.mk.injEq, Except.ok.injEq] at hm
      obtain ⟨rfl, rfl⟩ := hm
      simp only [newModel, h2]
      refine ⟨_, rfl, fun o ho row => ?_⟩
      simp only [EModel.evaluate]
      obtain ⟨a1, a2, -⟩ := evaluate_eq hv hcm (by rw [hk]; exact keysOk_empty) o row
      obtain ⟨b1, b2, -⟩ := evaluate_eq hv2 hcm2 (by rw [hk2]; exact keysOk_empty) o row
      rw [a1, a2, b1, b2, hctx, hctx2, hmod, hmod2, ht, ht2]
      refine ⟨?_, rfl⟩
      rw [hn, Except.ok.injEq] at hroot
      change newNode (treeTypes dd td d) n' = _ at hroot2
      rw [hn', Except.ok.injEq] at hroot2
      subst hroot hroot2
      rcases handleInput d.localTransformations row with ⟨_ | _, row1⟩
      · rfl
      · change (match evalNode (docCtx dd td d) o row1 t.root with
          | .error e => _ | .ok a => _) = (match evalNode (docCtx dd td d) o row1 t2.root with
          | .error e => _ | .ok a => _)
        rw [evalNode_simpler (c := docCtx dd td d) (o := o) (row := row1) trivial hc]

/-! ### Simplifications of tests -/

namespace Spec
variable {F : Type} {p q r : Pred F} {ps qs rs : List (Pred F)} {op : BoolOp}

theorem Simplifies.refl (p : Pred F) : Simplifies p p := ⟨fun _ => rfl, fun _ h => h⟩

theorem Simplifies.trans (h : Simplifies p q) (h2 : Simplifies q r) : Simplifies p r :=
  ⟨fun l => (h.value l).trans (h2.value l), fun _ hs => h.leaves (h2.leaves hs)⟩

theorem mem_simpless {s : SimplePred F} : s ∈ simples.simpless ps ↔ ∃ p ∈ ps, s ∈ simples p := by
  induction ps with
  | nil => simp [simples.simpless]
  | cons p ps ih => simp [simples.simpless, ih]

/-- Operands may be written in any order (not under surrogate, see C04). -/
theorem Simplifies.reorder (hop : op ≠ .surrogate) (h : ps.Perm qs) :
    Simplifies (.compound op ps) (.compound op qs) where
  value leaf := by
    simp only [testValue, operandValue, Props.operandValues_map]
    rw [Props.combine_perm hop (h.map _)]
  leaves s hs := by
    simp only [simples, mem_simpless] at hs ⊢
    obtain ⟨p, hp, hs⟩ := hs
    exact ⟨p, h.mem_iff.mpr hp, hs⟩

theorem all3_nest (a b c : List PredRes) : all3 (a ++ all3 b :: c) = all3 (a ++ b ++ c) := by
  unfold all3
  by_cases h1 : PredRes.f ∈ b
  · simp [h1]
  · by_cases h2 : PredRes.u ∈ b <;> simp [h1, h2]

theorem any3_nest (a b c : List PredRes) : any3 (a ++ any3 b :: c) = any3 (a ++ b ++ c) := by
  unfold any3
  by_cases h1 : PredRes.t ∈ b
  · simp [h1]
  · by_cases h2 : PredRes.u ∈ b <;> simp [h1, h2]

theorem odd3_nest (a b c : List PredRes) : odd3 (a ++ odd3 b :: c) = odd3 (a ++ b ++ c) := by
  unfold odd3
  by_cases h1 : PredRes.u ∈ b
  · simp [h1]
  · by_cases h2 : b.count .t % 2 = 1
    · simp only [h1, h2, if_false, if_true, List.mem_append, List.mem_cons, List.count_append, List.count_cons]
      have : (a.count PredRes.t + (c.count PredRes.t + 1)) % 2 =
          (a.count PredRes.t + b.count PredRes.t + c.count PredRes.t) % 2 := by omega
      simp [this]
    · simp only [h1, h2, if_false, List.mem_append, List.mem_cons, List.count_append, List.count_cons]
      have : (a.count PredRes.t + c.count PredRes.t) % 2 =
          (a.count PredRes.t + b.count PredRes.t + c.count PredRes.t) % 2 := by omega
      simp [this]

theorem firstKnown_nest (a b c : List PredRes) : firstKnown (a ++ firstKnown b :: c) = firstKnown (a ++ b ++ c) := by
  unfold firstKnown
  cases h : b.find? (· ≠ .u) with
  | none =>
    simp only [List.find?_append, List.find?_cons, h, Option.getD_none]
    simp
  | some v =>
    have : v ≠ .u := by simpa using List.find?_some h
    simp [List.find?_append, this] at h ⊢
    simp [h]

/-- A compound inside a compound of the same operator may be opened. -/
theorem Simplifies.flatten (hop : ∀ s, op ≠ .other s) :
    Simplifies (.compound op (ps ++ .compound op qs :: rs)) (.compound op (ps ++ qs ++ rs)) where
  value leaf := by
    simp only [testValue, operandValue, Props.operandValues_map, List.map_append, List.map_cons]
    cases op with
    | and => exact all3_nest _ _ _
    | or => exact any3_nest _ _ _
    | xor => exact odd3_nest _ _ _
    | surrogate => exact firstKnown_nest _ _ _
    | other s => exact absurd rfl (hop s)
  leaves s hs := by
    simp only [simples, mem_simpless, List.mem_append, List.mem_cons] at hs ⊢
    obtain ⟨p, (hp | hp) | hp, hs⟩ := hs
    · exact ⟨p, .inl hp, hs⟩
    · exact ⟨.compound op qs, .inr (.inl rfl), by rw [simples, mem_simpless]; exact ⟨p, hp, hs⟩⟩
    · exact ⟨p, .inr (.inr hp), hs⟩

/-- A compound with one operand (not `True` or `False`, which count as unknown there). -/
theorem Simplifies.single (hop : ∀ s, op ≠ .other s) (h1 : p ≠ .true_) (h2 : p ≠ .false_) :
    Simplifies (.compound op [p]) p where
  value leaf := by
    have hp : testValue leaf p = operandValue leaf p := by
      cases p with
      | true_ => exact absurd rfl h1
      | false_ => exact absurd rfl h2
      | _ => rfl
    rw [hp]
    simp only [testValue, operandValue, Props.operandValues_map, List.map_cons, List.map_nil]
    generalize operandValue leaf p = v
    cases op with
    | other s => exact absurd rfl (hop s)
    | _ => cases v <;> rfl
  leaves s hs := by simpa [simples, simples.simpless] using hs

/-- An operand of `and` or `or` need not be repeated. -/
theorem Simplifies.repeated (hop : op = .and ∨ op = .or) (hp : p ∈ ps) :
    Simplifies (.compound op (p :: ps)) (.compound op ps) where
  value leaf := by
    simp only [testValue, operandValue, Props.operandValues_map, List.map_cons]
    have key : ∀ v, v ∈ operandValue leaf p :: ps.map (operandValue leaf) ↔ v ∈ ps.map (operandValue leaf) := by
      intro v
      rw [List.mem_cons]
      exact ⟨fun h => h.elim (fun h => h ▸ List.mem_map_of_mem hp) id, .inr⟩
    rcases hop with rfl | rfl
    · simp only [combine, all3, key]
    · simp only [combine, any3, key]
  leaves s hs := by
    simp only [simples, mem_simpless] at hs ⊢
    obtain ⟨p, hp, hs⟩ := hs
    exact ⟨p, .tail _ hp, hs⟩

/-- An operand of `or` that is `and` of another operand and more adds nothing (absorption), and dually. -/
theorem Simplifies.absorb (hop : op = .and ∨ op = .or) (hp : p ∈ ps) (hq : p ∈ qs) :
    Simplifies (.compound op (.compound (if op = .and then .or else .and) qs :: ps)) (.compound op ps) where
  value leaf := by
    simp only [testValue, operandValue, Props.operandValues_map, List.map_cons]
    have m1 : operandValue leaf p ∈ ps.map (operandValue leaf) := List.mem_map_of_mem hp
    have m2 : operandValue leaf p ∈ qs.map (operandValue leaf) := List.mem_map_of_mem hq
    revert m1 m2
    generalize operandValue leaf p = v
    generalize ps.map (operandValue leaf) = l
    generalize qs.map (operandValue leaf) = k
    intro m1 m2
    rcases hop with rfl | rfl
    · simp only [if_true, combine, all3, any3, List.mem_cons]
      cases v <;> by_cases a : PredRes.t ∈ k <;> by_cases b : PredRes.u ∈ k <;> simp_all
    · simp only [reduceCtorEq, if_false, combine, all3, any3, List.mem_cons]
      cases v <;> by_cases a : PredRes.f ∈ k <;> by_cases b : PredRes.u ∈ k <;> simp_all
  leaves s hs := by
    simp only [simples, mem_simpless] at hs ⊢
    obtain ⟨p, hp, hs⟩ := hs
    exact ⟨p, .tail _ hp, hs⟩

/-- Operands may be simplified, if neither is a constant (constants count as unknown there). -/
theorem Simplifies.operand (h : Simplifies p q) (hp : p ≠ .true_ ∧ p ≠ .false_) (hq : q ≠ .true_ ∧ q ≠ .false_) :
    Simplifies (.compound op (ps ++ p :: rs)) (.compound op (ps ++ q :: rs)) where
  value leaf := by
    have key : ∀ {p : Pred F}, p ≠ .true_ ∧ p ≠ .false_ → testValue leaf p = operandValue leaf p := by
      intro p hp
      cases p with
      | true_ => exact absurd rfl hp.1
      | false_ => exact absurd rfl hp.2
      | _ => rfl
    have := h.value leaf
    rw [key hp, key hq] at this
    simp only [testValue, operandValue, Props.operandValues_map, List.map_append, List.map_cons, this]
  leaves s hs := by
    simp only [simples, mem_simpless, List.mem_append, List.mem_cons] at hs ⊢
    obtain ⟨r, hr | rfl | hr, hs⟩ := hs
    · exact ⟨r, .inl hr, hs⟩
    · exact ⟨p, .inr (.inl rfl), h.leaves hs⟩
    · exact ⟨r, .inr (.inr hr), hs⟩

theorem dead_false : Dead (.false_ : Pred F) := fun _ => rfl

/-- A `SimpleSetPredicate` is never satisfied (see C07). -/
theorem dead_set {a} : Dead (.set a : Pred F) := fun _ => rfl

theorem dead_and {a} (h : .set a ∈ ps) : Dead (.compound .and ps : Pred F) := fun leaf => by
  have : PredRes.f ∈ ps.map (operandValue leaf) := List.mem_map.mpr ⟨_, h, rfl⟩
  simp only [testValue, operandValue, Props.operandValues_map, combine, all3, if_pos this]

theorem dead_other {s : String} : Dead (.compound (.other s) ps : Pred F) := fun _ => rfl

end Spec
end Gopmml

namespace Gopmml.Props
open Gopmml Spec

variable {F : Type} [Arith F] [Lib F] [Trans F]

/-- **C68**: in an accepted document the tests may be replaced by simpler ones of the same three-valued
meaning, and children whose test is never anything but false may be left out (except under
weightedConfidence and aggregateNodes, and except default children); the document is still accepted and
gives the same answers. Trees, trees in ensembles, at any depth; any arithmetic, any order of maps. -/
theorem C68_simplified {dd : List DataField} {e e' : ModelElem F} (h : DocRel SimplerTree e e') (td : TD F)
    {m : EModel F} {td' : TD F} (hm : newModel dd e td = (.ok m, td')) :
    ∃ m', newModel dd e' td = (.ok m', td') ∧
      ∀ o row, (EModel.evaluate o m' row).res = (EModel.evaluate o m row).res ∧
        (EModel.evaluate o m' row).row = (EModel.evaluate o m row).row := by
  obtain ⟨m', h1, h2⟩ := docRel_newModel (fun td _ _ h hm => tree_simpler td h hm) e td h hm
  exact ⟨m', h1, fun o row => ⟨(h2 o trivial row).1.symm, (h2 o trivial row).2.symm⟩⟩

/-- **C68** (tests): simplifications that keep the meaning: other order of operands (not under
surrogate), opening compounds of the same operator, dropping a compound of one operand, repeated
operands, absorption, and all these inside compounds. -/
theorem C68_tests {F : Type} {op : BoolOp} {p q : Pred F} {ps qs rs : List (Pred F)} :
    (op ≠ .surrogate → ps.Perm qs → Simplifies (.compound op ps) (.compound op qs)) ∧
    ((∀ s, op ≠ .other s) → Simplifies (.compound op (ps ++ .compound op qs :: rs)) (.compound op (ps ++ qs ++ rs))) ∧
    ((∀ s, op ≠ .other s) → p ≠ .true_ → p ≠ .false_ → Simplifies (.compound op [p]) p) ∧
    (op = .and ∨ op = .or → p ∈ ps → Simplifies (.compound op (p :: ps)) (.compound op ps)) ∧
    (op = .and ∨ op = .or → p ∈ ps → p ∈ qs →
      Simplifies (.compound op (.compound (if op = .and then .or else .and) qs :: ps)) (.compound op ps)) ∧
    (Simplifies p q → p ≠ .true_ ∧ p ≠ .false_ → q ≠ .true_ ∧ q ≠ .false_ →
      Simplifies (.compound op (ps ++ p :: rs)) (.compound op (ps ++ q :: rs))) :=
  ⟨.reorder, .flatten, .single, .repeated, .absorb, .operand⟩

/-! Examples. -/
namespace RewriteExample
open Samples Replay

def leaf (id score : String) (p : P) : N := .mk id "" score (num "10") [dist score "10" "1.0"] [] (some p)

/-- A roundabout tree: nested and repeated operands, and two children that are never chosen. -/
def roundabout : N := .mk "1" "4" "no play" (num "30") [dist "no play" "10" "0.6", dist "will play" "20" "0.4"]
  [leaf "2" "may play" (.set "outlook"),
   leaf "3" "will play" (.compound .and [sp "outlook" .equal "sunny",
     .compound .and [sp "temperature" .lessThan "50", sp "outlook" .equal "sunny"]]),
   leaf "4" "no play" (.compound .or [sp "outlook" .equal "rain"]),
   leaf "5" "may play" .false_] (some .true_)

/-- The same, plainly. -/
def plain : N := .mk "1" "4" "no play" (num "30") [dist "no play" "10" "0.6", dist "will play" "20" "0.4"]
  [leaf "3" "will play" (.compound .and [sp "temperature" .lessThan "50", sp "outlook" .equal "sunny"]),
   leaf "4" "no play" (sp "outlook" .equal "rain")] (some .true_)

theorem plain_simpler (s : MissingValueStrategy) (h1 : s ≠ .weightedConfidence) (h2 : s ≠ .aggregateNodes) :
    SimplerTree (doc s "0.8" roundabout) (doc s "0.8" plain) := by
  refine ⟨plain, .mk (.some (.refl _)) ?_ (by simp [doc]), rfl⟩
  refine .drop dead_set h1 h2 (fun _ => by decide) ?_
  refine .cons (.mk (.some ?_) .nil (by simp [doc])) ?_
  · refine (Simplifies.flatten (ps := [sp "outlook" .equal "sunny"])
      (qs := [sp "temperature" .lessThan "50", sp "outlook" .equal "sunny"]) (rs := []) (by simp)).trans ?_
    exact .repeated (.inl rfl) (by simp)
  refine .cons (.mk (.some (.single (by simp) (by simp [sp]) (by simp [sp]))) .nil (by simp [doc])) ?_
  exact .drop dead_false h1 h2 (fun _ => by decide) .nil

/-- The hypotheses of `C68_simplified` on an ensemble around this tree, which is accepted. -/
example (s : MissingValueStrategy) (h1 : s ≠ .weightedConfidence) (h2 : s ≠ .aggregateNodes) :
    DocRel SimplerTree (.mining (head .selectFirst) [seg (.tree (doc s "0.8" roundabout))])
      (.mining (head .selectFirst) [seg (.tree (doc s "0.8" plain))]) :=
  .mining (.cons (.cons (.tree (plain_simpler s h1 h2)) .nil) .nil)

example : (newModel Replay.dd (.mining (head .selectFirst) [seg (.tree (doc .defaultChild "0.8" roundabout))]) []).1.isOk ∧
    lookup (run (doc .defaultChild "0.8" plain) [("outlook", .str "sunny"), ("temperature", .int .int 40)]) "whatIdo" =
      some (.str "will play") := by
  decide +kernel

/-- A tree with one child that is never chosen, the same without it, and a root with given children. -/
def hollow (p : P) : N := .mk "1" "2" "no play" (num "30") [dist "no play" "30" "1.0"]
  [leaf "2" "may play" p, leaf "3" "will play" (sp "outlook" .equal "rain")] (some .true_)
def hollow' : N := .mk "1" "2" "no play" (num "30") [dist "no play" "30" "1.0"]
  [leaf "3" "will play" (sp "outlook" .equal "rain")] (some .true_)
def bare (ns : List N) : N := .mk "1" "" "no play" (num "30") [dist "no play" "30" "1.0"] ns (some .true_)

end RewriteExample

open RewriteExample Replay in
/-- **C68** (the conditions are needed): a child that is never chosen still counts under aggregateNodes,
still serves as default child, and under returnNullPrediction still makes its parent an inner node. -/
theorem C68_needed :
    Dead (F := F64) (.set "outlook") ∧
    run (doc .aggregateNodes "0.8" (hollow (.set "outlook"))) [] ≠ run (doc .aggregateNodes "0.8" hollow') [] ∧
    run (doc .defaultChild "0.8" (hollow (.set "outlook"))) [] ≠ run (doc .defaultChild "0.8" hollow') [] ∧
    run { doc .none "0.8" (bare [leaf "2" "may play" (.set "outlook")]) with
        noTrueChildStrategy := .returnNullPrediction } [] ≠
      run { doc .none "0.8" (bare []) with noTrueChildStrategy := .returnNullPrediction } [] := by
  refine ⟨dead_set, ?_⟩
  decide +kernel

end Gopmml.Props
