import Verif.Proofs.Build
import Verif.Spec.Build
import Verif.Model.Samples

/-!
# Property C78: building models in several goroutines
-/

namespace Gopmml
open Spec BuildProg

variable {F α β ι : Type}

namespace BuildProg

/-- The number of stores into the document of a call that is run alone. -/
def stores : BuildProg F α → TD F → Nat
  | .done _, _ => 0
  | .read k, td => (k td).stores td
  | .write td' k, _ => k.stores td'
  | .store _ k, td => k.stores td + 1

theorem stores_bind (p : BuildProg F α) (f : α → BuildProg F β) (td : TD F) :
    (p.bind f).stores td = p.stores td + (f (p.run td).1).stores (p.run td).2 := by
  induction p generalizing td with
  | done a => simp [BuildProg.bind, stores, BuildProg.run]
  | read k ih => exact ih _ td
  | write td' k ih => exact ih _
  | store c k ih => simp only [BuildProg.bind, stores, BuildProg.run, ih]; omega

theorem stores_andThen {p : BuildProg F (Res α)} {f : α → BuildProg F (Res β)} {td td' : TD F} {a : α}
    (h : p.run td = (.ok a, td')) : (p.andThen f).stores td = p.stores td + (f a).stores td' := by
  rw [BuildProg.andThen, stores_bind, h]

/-- A program that is run alone and stores something does so before writing the dictionary, or writes the
dictionary. -/
theorem store_or_write {p : BuildProg F α} {td : TD F} (h : p.stores td ≠ 0) :
    Writes td p ∨ ∃ c k, Adv td p td (.store c k) := by
  induction p generalizing td with
  | done a => exact absurd rfl h
  | read k ih =>
    rcases ih _ h with h | ⟨c, k', h⟩
    · exact .inl (.read h)
    · exact .inr ⟨c, k', .read h⟩
  | write td' k ih => exact .inl .write
  | store c k ih => exact .inr ⟨c, k, .refl⟩

/-- As long as the dictionary is `td`, the program writes nothing. -/
inductive Silent (td : TD F) : BuildProg F α → Prop
  | done {a} : Silent td (.done a)
  | read {k} : Silent td (k td) → Silent td (.read k)

theorem silent_of {c : Cell} {a : α} {p : BuildProg F α} {td : TD F} (h : Quiet td c a p) (hs : p.stores td = 0) :
    Silent td p := by
  induction h with
  | done => exact .done
  | read _ ih => exact .read (ih hs)
  | store _ _ ih => simp [stores] at hs

end BuildProg

section
variable [DecidableEq ι]

/-- Two goroutines about to store into the same element. -/
theorem store_race {s : BuildSys F ι α} {i j : ι} (hij : i ≠ j) {p : BuildProg F α} (hi : s.threads i = .between p)
    (hj : s.threads j = .between p) {c : Cell} {k} (h : Adv s.dict p s.dict (.store c k)) :
    ∃ t, BuildReach s t ∧ t.Race := by
  have h1 := adv_enter h (by intro a; nofun) i s rfl hi
  have h2 := adv_enter h (by intro a; nofun) j (s.at_ s.dict i (.inside (.store c k))) rfl
    ((Function.update_of_ne hij.symm _ _).trans hj)
  refine ⟨_, h1.trans h2, i, j, some c, hij, ?_, ?_⟩
  · simp only [BuildSys.at_]
    rw [Function.update_of_ne hij, Function.update_self]
    rfl
  · simp only [BuildSys.at_]
    rw [Function.update_self]
    rfl

theorem build_silent_reach {td : TD F} {ps : ι → BuildProg F α} (h : ∀ i, Silent td (ps i)) {s : BuildSys F ι α}
    (hs : BuildReach (.init td ps) s) : s.dict = td ∧ ∀ i, Silent td (s.threads i).prog := by
  induction hs with
  | refl => exact ⟨rfl, h⟩
  | @step s u _ hstep ih =>
    obtain ⟨hd, hq⟩ := ih
    have upd : ∀ {i : ι} {g : Builder F α}, Silent td g.prog →
        ∀ j, Silent td (Function.update s.threads i g j).prog := by
      intro i g hg j
      by_cases hji : j = i
      · subst hji; rw [Function.update_self]; exact hg
      · rw [Function.update_of_ne hji]; exact hq j
    cases hstep with
    | @enter i p hi hp =>
      refine ⟨hd, upd ?_⟩
      have := hq i; rw [hi] at this; exact this
    | @read i k hi =>
      refine ⟨hd, upd ?_⟩
      have := hq i; rw [hi] at this
      cases this with | read hk => rw [hd]; exact hk
    | @write i td' k hi =>
      have := hq i; rw [hi] at this
      cases this
    | @store i c' k hi =>
      have := hq i; rw [hi] at this
      cases this

omit [DecidableEq ι] in
theorem build_silent_no_race {td : TD F} {s : BuildSys F ι α} (h : ∀ i, Silent td (s.threads i).prog) : ¬ s.Race := by
  rintro ⟨i, j, l, hij, hw, ha⟩
  have hi := h i
  generalize s.threads i = g at hi hw
  cases g with
  | between p => cases hw
  | inside p =>
    cases p with
    | done a => cases hw
    | read k => cases hw
    | write td' k => cases hi
    | store c1 k => cases hi

end

theorem appendProg_stores (l : List (DerivedField F)) (td : TD F) : (appendProg l).stores td = 0 := by
  induction l generalizing td with
  | nil => rfl
  | cons tf l ih => exact ih _

theorem fieldsProg_stores (c : Cell) (fs : List MiningField) (td : TD F) :
    (fieldsProg c fs).stores td = fs.length := by
  induction fs with
  | nil => rfl
  | cons f fs ih => simp [fieldsProg, stores, stores_bind, ih]

section
variable [Lib F]

mutual
theorem predProg_stores (c : Cell) {types : FieldTypes} {td : TD F} : (p : Pred F) → {p' : Pred F} →
    compilePredicate types p = .ok p' → (predProg c types p).stores td = (simples p).length
  | .simple p, p', h => by
    rw [compilePredicate] at h
    rw [predProg, simples]
    revert h
    cases types[p.field]? with
    | none => intro h; simp at h
    | some dt =>
      simp only
      cases getRawValue dt p.value (F := F) with
      | error e => intro h; simp at h
      | ok v => intro _; rfl
  | .compound op ps, p', h => by
    rw [compilePredicate] at h
    rw [predProg, simples]
    cases hc : compilePredicates types ps with
    | error e => rw [hc] at h; simp at h
    | ok ps' =>
      rw [stores_andThen (a := ps') (td' := td) (by rw [predsProg_run, hc]), predsProg_stores c ps hc]
      rfl
  | .true_, _, _ => by simp [predProg, simples, stores]
  | .false_, _, _ => by simp [predProg, simples, stores]
  | .set fld, _, _ => by simp [predProg, simples, stores]
theorem predsProg_stores (c : Cell) {types : FieldTypes} {td : TD F} : (ps : List (Pred F)) → {ps' : List (Pred F)} →
    compilePredicates types ps = .ok ps' → (predsProg c types ps).stores td = (simples.simpless ps).length
  | [], _, _ => by rw [predsProg, simples.simpless]; rfl
  | p :: ps, ps', h => by
    simp only [compilePredicates, bind_eq_ok] at h
    obtain ⟨q, hq, qs, hqs, -⟩ := h
    rw [predsProg, simples.simpless, List.length_append,
      stores_andThen (a := q) (td' := td) (by rw [predProg_run, hq]), predProg_stores c p hq,
      stores_andThen (a := qs) (td' := td) (by rw [predsProg_run, hqs]), predsProg_stores c ps hqs]
    rfl
end

variable [Arith F]

mutual
theorem nodeProg_stores (c : Cell) {types : FieldTypes} {td : TD F} : (n : Node F) → {cn : CNode F} →
    newNode types n = .ok cn → ((nodeProg c types n).stores td = 0 ↔
      ∀ r, Sub r n → ∀ q, r.pred = some q → simples q = [])
  | .mk id dc score rc dists nodes pred, cn, h => by
    obtain ⟨cs, pred', hcs, hp, -⟩ := newNode_ok h
    have hsub : (∀ r, Sub r (.mk id dc score rc dists nodes pred) → ∀ q, r.pred = some q → simples q = []) ↔
        (∀ n ∈ nodes, ∀ r, Sub r n → ∀ q, r.pred = some q → simples q = []) ∧
          ∀ q, pred = some q → simples q = [] := by
      constructor
      · intro h
        exact ⟨fun n hn r hr => h r (.child hn hr), fun q hq => h _ .refl q hq⟩
      · rintro ⟨h1, h2⟩ r hr
        cases hr with
        | refl => exact h2
        | child hc hr => exact h1 _ hc r hr
    rw [hsub, nodeProg, stores_andThen (a := cs) (td' := td) (by rw [nodesProg_run, hcs]), Nat.add_eq_zero_iff,
      nodesProg_stores c nodes hcs]
    refine and_congr Iff.rfl ?_
    cases pred with
    | none => simp [stores]
    | some p =>
      obtain ⟨p', hp, -⟩ := hp
      simp only
      rw [stores_andThen (a := p') (td' := td) (by rw [predProg_run, hp]), predProg_stores c p hp]
      simp [stores]
theorem nodesProg_stores (c : Cell) {types : FieldTypes} {td : TD F} : (ns : List (Node F)) → {cs : List (CNode F)} →
    newNodes types ns = .ok cs → ((nodesProg c types ns).stores td = 0 ↔
      ∀ n ∈ ns, ∀ r, Sub r n → ∀ q, r.pred = some q → simples q = [])
  | [], _, _ => by rw [nodesProg]; simp [stores]
  | n :: ns, cs, h => by
    simp only [newNodes, bind_eq_ok] at h
    obtain ⟨q, hq, qs, hqs, -⟩ := h
    rw [nodesProg, stores_andThen (a := q) (td' := td) (by rw [nodeProg_run, hq]), Nat.add_eq_zero_iff,
      nodeProg_stores c n hq, stores_andThen (a := qs) (td' := td) (by rw [nodesProg_run, hqs]),
      Nat.add_eq_zero_iff, nodesProg_stores c ns hqs, List.forall_mem_cons]
    simp [stores]
end

omit [Arith F] in
mutual
theorem accepts_locals {dd : List DataField} : {e : ModelElem F} → {td td' : TD F} → Props.Accepts dd e td td' →
    td' = td ++ localFields e
  | _, _, _, .tree _ => by rw [localFields]
  | _, _, _, .regression => by rw [localFields]; simp
  | _, _, _, .mining _ _ hs => by rw [localFields, accepts_localss hs]; simp
theorem accepts_localss {dd : List DataField} : {segs : List (SegDoc F)} → {td td' : TD F} →
    Props.AcceptsSegs dd segs td td' → td' = td ++ localFieldss segs
  | _, _, _, .nil => by rw [localFieldss]; simp
  | _, _, _, .cons he hs => by
    rw [localFieldss, accepts_localss hs, accepts_locals he, localFieldsAll, localFieldsAll]; simp
end

/-- What an accepted model leaves of the dictionary. -/
theorem newModel_locals {dd : List DataField} {e : ModelElem F} {td td' : TD F} {m : EModel F}
    (hm : newModel dd e td = (.ok m, td')) : td' = td ++ localFields e :=
  accepts_locals (((Props.newModel_accepts dd e td td').1).mp ⟨m, hm⟩)

theorem treeProg_stores (c : Cell) {dd : List DataField} {d : TreeDoc F} {td td' : TD F} {m : EModel F}
    (hm : newModel dd (.tree d) td = (.ok m, td')) :
    ((d.buildProg c dd).stores td = 0 ∧ td' = td) ↔ NothingToFill (.tree d) := by
  have hl := newModel_locals hm
  rw [localFields] at hl
  rw [newModel] at hm
  rcases ht : newTreeModel dd td d with ⟨e | t, td1⟩
  · rw [ht] at hm; simp at hm
  obtain ⟨hf, -, -, -, -, -, -, -, hn⟩ := newTreeModel_ok ht
  have hf' : ¬ (d.functionName ≠ .classification ∧ d.functionName ≠ .regression) := by
    rcases hf with h | h <;> simp [h]
  rw [TreeDoc.buildProg, if_neg hf', stores_bind, fieldsProg_stores, fieldsProg_run, TreeDoc.compileProg, stores_bind, appendProg_stores,
    appendProg_run]
  simp only [stores]
  rw [stores_andThen (a := t.root) (td' := td ++ d.localTransformations) (by rw [nodeProg_run]; exact congrArg (·, _) hn),
    Nat.add_eq_zero_iff, Nat.add_eq_zero_iff, Nat.add_eq_zero_iff, nodeProg_stores c d.node hn, hl]
  constructor
  · rintro ⟨⟨h1, -, h2, -⟩, h3⟩
    exact .tree (List.length_eq_zero_iff.mp h1) (by simpa using h3) h2
  · rintro ⟨h1, h2, h3⟩
    exact ⟨⟨by simp [h1], rfl, h3, rfl⟩, by simp [h2]⟩

mutual
theorem buildProg_stores {dd : List DataField} : (e : ModelElem F) → (c : Cell) → {td td' : TD F} → {m : EModel F} →
    newModel dd e td = (.ok m, td') → (((e.buildProg c dd).stores td = 0 ∧ td' = td) ↔ NothingToFill e)
  | .tree d, c, td, td', m, hm => by rw [ModelElem.buildProg]; exact treeProg_stores c hm
  | .regression d, c, td, td', m, hm => by
    rw [newModel] at hm
    rw [ModelElem.buildProg]
    simp at hm
    simp [stores, hm.2, NothingToFill.regression]
  | .other k, c, td, td', m, hm => by rw [newModel] at hm; simp at hm
  | .mining h segs, c, td, td', m, hm => by
    have hl := newModel_locals hm
    rw [localFields] at hl
    obtain ⟨s, ms, -, -, -, -, -, -, -, -, -, hseg⟩ := newMining_ok hm
    have key : ((miningProg c dd h segs).stores td = 0 ∧ td' = td) ↔
        h.localTransformations = [] ∧ NothingToFills segs := by
      rw [newModel] at hm
      rw [miningProg]
      rcases mining_validate (MiningState.init dd h segs) with ⟨-, -, hv⟩ | ⟨-, e, s', hv⟩
      swap
      · rw [hv] at hm; simp at hm
      rw [hv]
      simp only [MiningState.init]
      rw [stores_bind, appendProg_stores, appendProg_run]
      simp only [stores]
      rw [stores_andThen (a := ms) (td' := td') (by rw [segsProg_run, hseg])]
      simp only [stores]
      have ih := segsProg_stores segs c 0 hseg
      constructor
      · rintro ⟨h1, h2⟩
        have h3 : h.localTransformations = [] := by
          rw [h2] at hl
          have := List.self_eq_append_right.mp hl
          exact (List.append_eq_nil_iff.mp this).1
        refine ⟨h3, ih.mp ⟨by omega, ?_⟩⟩
        rw [h2, h3]; simp
      · rintro ⟨h1, h2⟩
        obtain ⟨h3, h4⟩ := ih.mpr h2
        exact ⟨by omega, by rw [h4, h1]; simp⟩
    rw [ModelElem.buildProg]
    by_cases he : h.method = .empty
    · rw [if_pos he]
      constructor
      · rintro ⟨h1, -⟩; simp [stores] at h1
      · intro hh; cases hh with | mining h1 _ _ => exact absurd he h1
    · rw [if_neg he, key]
      constructor
      · rintro ⟨h1, h2⟩; exact .mining he h1 h2
      · intro hh; cases hh with | mining _ h1 h2 => exact ⟨h1, h2⟩
theorem segsProg_stores {dd : List DataField} : (segs : List (SegDoc F)) → (c : Cell) → (i : Nat) → {td td' : TD F} →
    {ms : List (EModel F)} → compileSegments dd segs td = (.ok (), ms, td') →
    (((segsProg c dd i segs).stores td = 0 ∧ td' = td) ↔ NothingToFills segs)
  | [], c, i, td, td', ms, hm => by
    rw [compileSegments] at hm
    rw [segsProg]
    simp at hm
    simp [stores, hm.2, NothingToFills.nil]
  | .mk id ps [e] :: segs, c, i, td, td', ms, hm => by
    rw [compileSegments] at hm
    rw [segsProg]
    rcases hn : newModel dd e td with ⟨er | m, td1⟩
    · rw [hn] at hm; simp at hm
    rw [hn] at hm
    simp only at hm
    rcases hs : compileSegments dd segs td1 with ⟨er | ⟨⟨⟩⟩, ms', td2⟩
    · rw [hs] at hm; simp at hm
    rw [hs] at hm
    simp at hm
    obtain ⟨rfl, rfl⟩ := hm
    rw [stores_andThen (a := m) (td' := td1) (by rw [buildProg_run, hn]),
      stores_andThen (a := ms') (td' := td2) (by rw [segsProg_run, hs])]
    have ih1 := buildProg_stores e (i :: c) hn
    have ih2 := segsProg_stores segs c (i + 1) hs
    have l1 : td.length ≤ td1.length := by rw [newModel_locals hn]; simp
    have l2 : td1.length ≤ td2.length := by
      have := (segsProg_alone dd segs c (i + 1) td1).le
      rwa [segsProg_run, hs] at this
    constructor
    · rintro ⟨h1, h2⟩
      have h3 : td1 = td := by
        have := newModel_locals hn
        rw [h2] at l2
        rw [this] at l2 ⊢
        simp at l2
        simp [l2]
      exact .cons (ih1.mp ⟨by omega, h3⟩) (ih2.mp ⟨by omega, by rw [h2, h3]⟩)
    · intro hh
      cases hh with | cons h1 h2 => ?_
      obtain ⟨h3, h4⟩ := ih1.mpr h1
      obtain ⟨h5, h6⟩ := ih2.mpr h2
      exact ⟨by simp only [stores]; omega, by rw [h6, h4]⟩
  | .mk id ps [] :: segs, c, i, td, td', ms, hm => by
    rw [compileSegments] at hm
    · simp at hm
    · nofun
  | .mk id ps (e1 :: e2 :: es) :: segs, c, i, td, td', ms, hm => by
    rw [compileSegments] at hm
    · simp at hm
    · intro e h; simp at h
end
end

namespace Props
variable [Lib F] [Arith F] [DecidableEq ι]

omit [DecidableEq ι] in
/-- **C78**: a call of NewModel that runs alone does what the sequential model of it does. -/
theorem C78_alone (dd : List DataField) (e : ModelElem F) (c : Cell) (td : TD F) :
    (e.buildProg c dd).run td = newModel dd e td := buildProg_run dd e c td

/-- Goroutine `i` calls NewModel for the model number `n i` of a document. -/
def building (dd : List DataField) (td : TD F) (n : ι → Nat) (e : ι → ModelElem F) :
    BuildSys F ι (Res (EModel F)) :=
  .init td fun i => (e i).buildProg [n i] dd

/-- **C78**: different models of one document may be built at the same time, by any number of goroutines and
under any schedule, when none of them adds to the transformation dictionary: there is no data race, and every
call returns what it would return alone. -/
theorem C78_separate {dd : List DataField} {td : TD F} {n : ι → Nat} {e : ι → ModelElem F}
    (hn : Function.Injective n) (he : ∀ i, (newModel dd (e i) td).2 = td) {s : BuildSys F ι (Res (EModel F))}
    (hs : BuildReach (building dd td n e) s) :
    ¬ s.Race ∧ s.dict = td ∧ ∀ i r, s.threads i = .between (.done r) → r = (newModel dd (e i) td).1 := by
  have hq : ∀ i, Quiet td [n i] (newModel dd (e i) td).1 ((e i).buildProg [n i] dd) := by
    intro i
    have := (buildProg_alone dd (e i) [n i] td).quiet (by rw [buildProg_run, he i])
    rwa [buildProg_run] at this
  obtain ⟨hd, hq⟩ := build_quiet_reach hq hs
  refine ⟨build_quiet_no_race (fun i j hij c' h h' => ?_) hq, hd, fun i r hi => ?_⟩
  · exact hij (hn (suffix_cons_inj h h'))
  · have := hq i
    rw [hi] at this
    cases this
    rfl

/-- **C78**: models that are accepted and have no local transformations anywhere add nothing to the
dictionary; others do. -/
theorem C78_dictionary {dd : List DataField} {e : ModelElem F} {td td' : TD F} {m : EModel F}
    (hm : newModel dd e td = (.ok m, td')) : td' = td ++ localFields e := newModel_locals hm

/-- **C78**: a model with local transformations and any other tree or ensemble can not be built at the same
time: there is a schedule with a data race on the dictionary. -/
theorem C78_race {dd : List DataField} {td : TD F} {n : ι → Nat} {e : ι → ModelElem F} {i j : ι} (hij : i ≠ j)
    (hi : (newModel dd (e i) td).2 ≠ td) {m : EModel F} {td' : TD F} (hj : newModel dd (e j) td = (.ok m, td'))
    (hr : ∀ d, e j ≠ .regression d) : ∃ s, BuildReach (building dd td n e) s ∧ s.Race :=
  dict_race (s := building dd td n e) hij rfl rfl (writes_of_ne (by rw [buildProg_run]; exact hi))
    (buildProg_reads hj hr _)

/-- **C78**: at least two different trees or ensembles of a document, all of them accepted, can be built at the
same time without a data race exactly when none of them contains a local transformation. -/
theorem C78_exactly {dd : List DataField} {td : TD F} {n : ι → Nat} {e : ι → ModelElem F}
    (hn : Function.Injective n) (hm : ∀ i, ∃ m, (newModel dd (e i) td).1 = .ok m) (hr : ∀ i d, e i ≠ .regression d)
    (h2 : ∃ i j : ι, i ≠ j) :
    (∀ s, BuildReach (building dd td n e) s → ¬ s.Race) ↔ ∀ i, localFields (e i) = [] := by
  have hl : ∀ i, (newModel dd (e i) td).2 = td ++ localFields (e i) := by
    intro i
    obtain ⟨m, hm⟩ := hm i
    exact newModel_locals (m := m) (by rw [← hm])
  constructor
  · intro h i
    by_contra hne
    obtain ⟨j, hj⟩ : ∃ j, i ≠ j := by
      obtain ⟨a, b, hab⟩ := h2
      by_cases hia : i = a
      · exact ⟨b, by rw [hia]; exact hab⟩
      · exact ⟨a, hia⟩
    obtain ⟨m, hmj⟩ := hm j
    obtain ⟨s, hs, hrace⟩ := C78_race (n := n) hj (by rw [hl i]; simpa using hne)
      (m := m) (td' := (newModel dd (e j) td).2) (by rw [← hmj]) (hr j)
    exact h s hs hrace
  · intro h s hs
    exact (C78_separate hn (fun i => by rw [hl i, h i]; simp) hs).1

/-- **C78**: one model can be built by several goroutines at the same time without a data race exactly when
there is nothing to fill in. -/
theorem C78_same {dd : List DataField} {td td' : TD F} {e : ModelElem F} {m : EModel F}
    (hm : newModel dd e td = (.ok m, td')) (k : Nat) (h2 : ∃ i j : ι, i ≠ j) :
    (∀ s, BuildReach (building dd td (fun _ : ι => k) fun _ => e) s → ¬ s.Race) ↔ NothingToFill e := by
  rw [← buildProg_stores e [k] hm]
  constructor
  · intro h
    obtain ⟨i, j, hij⟩ := h2
    have hw : ¬ BuildProg.Writes td (e.buildProg [k] dd) := by
      intro hw
      by_cases hr : ∃ d, e = .regression d
      · obtain ⟨d, rfl⟩ := hr
        rw [ModelElem.buildProg] at hw
        cases hw
      · obtain ⟨s, hs, hrace⟩ := dict_race (s := building dd td (fun _ : ι => k) fun _ => e) hij rfl rfl hw
          (buildProg_reads hm (fun d hd => hr ⟨d, hd⟩) _)
        exact h s hs hrace
    constructor
    · by_contra hne
      rcases store_or_write hne with hw' | ⟨c, k', ha⟩
      · exact hw hw'
      · obtain ⟨s, hs, hrace⟩ := store_race (s := building dd td (fun _ : ι => k) fun _ => e) hij rfl rfl ha
        exact h s hs hrace
    · by_contra hne
      refine hw (writes_of_ne ?_)
      rw [buildProg_run, hm]
      exact hne
  · rintro ⟨h1, h2⟩ s hs
    have hq := (buildProg_alone dd e [k] td).quiet (by rw [buildProg_run, hm]; exact h2)
    exact build_silent_no_race (build_silent_reach (fun _ => silent_of hq h1) hs).2

/-- **C78**: an update of the dictionary may be lost. Two trees of a document, each with one local
transformation, are accepted when they are built one after the other; built at the same time, there is a
schedule (even without overlapping accesses) after which the dictionary has only the field of the first, and
the second was rejected because its own derived field was not found. -/
theorem C78_lost {dd : List DataField} {td td₁ td₂ : TD F} {d₁ d₂ : TreeDoc F} {f₁ f₂ : DerivedField F}
    {m₁ m₂ : EModel F} (h₁ : newModel dd (.tree d₁) td = (.ok m₁, td₁))
    (h₂ : newModel dd (.tree d₂) td₁ = (.ok m₂, td₂)) (l₁ : d₁.localTransformations = [f₁])
    (l₂ : d₂.localTransformations = [f₂]) {r : Node F} (hr : Sub r d₂.node) {q : Pred F} (hq : r.pred = some q)
    {p : SimplePred F} (hp : p ∈ simples q) (hf : p.field = f₂.name) (hnd : ∀ f ∈ dd, f.name ≠ f₂.name)
    (hnt : ∀ f ∈ td, f.name ≠ f₂.name) (hne : f₁.name ≠ f₂.name) {n : ι → Nat} {e : ι → ModelElem F} {i j : ι}
    (hij : i ≠ j) (hi : e i = .tree d₁) (hj : e j = .tree d₂) :
    ∃ s, BuildReach (building dd td n e) s ∧ s.dict = td ++ [f₁] ∧ s.threads i = .between (.done (.ok m₁)) ∧
      ∃ err, s.threads j = .between (.done (fail err)) := by
  -- supported functions
  have sup : ∀ {d : TreeDoc F} {td td' : TD F} {m : EModel F}, newModel dd (.tree d) td = (.ok m, td') →
      ¬ (d.functionName ≠ .classification ∧ d.functionName ≠ .regression) := by
    intro d td td' m h hf
    rw [newModel, newTreeModel, TreeModel.validate, TreeModel.init, if_pos hf] at h
    simp at h
  -- the program of the first up to its append, and from there on
  have run₁ := buildProg_run dd (.tree d₁) [n i] td
  rw [h₁] at run₁
  have ht₁ : td₁ = td ++ [f₁] := by rw [newModel_locals h₁, localFields, l₁]
  obtain ⟨k₁, ha₁, hk₁⟩ : ∃ k₁, Adv td ((ModelElem.tree d₁).buildProg [n i] dd) td (.write (td ++ [f₁]) k₁) ∧
      k₁.run (td ++ [f₁]) = (.ok m₁, td ++ [f₁]) := by
    rw [ModelElem.buildProg, TreeDoc.buildProg, if_neg (sup h₁)] at run₁ ⊢
    rw [build_bind, fieldsProg_run, TreeDoc.compileProg, l₁] at run₁
    have h := adv_bind (fieldsProg [n i] d₁.miningFields) (d₁.compileProg [n i] dd) td
    rw [fieldsProg_run, TreeDoc.compileProg, l₁] at h
    refine ⟨_, h.trans (.read .refl), ?_⟩
    rw [← ht₁]
    exact (congrArg (fun t => BuildProg.run _ t) ht₁).trans run₁
  -- the second up to where it reads the dictionary again
  obtain ⟨k₂, ha₂, hk₂⟩ : ∃ k₂ : TD F → BuildProg F (Res (EModel F)),
      Adv td ((ModelElem.tree d₂).buildProg [n j] dd) (td ++ [f₂]) (.read k₂) ∧
      ∃ err, (k₂ (td ++ [f₁])).run (td ++ [f₁]) = (fail err, td ++ [f₁]) := by
    rw [ModelElem.buildProg, TreeDoc.buildProg, if_neg (sup h₂)]
    have h := adv_bind (fieldsProg [n j] d₂.miningFields) (d₂.compileProg [n j] dd) td
    rw [fieldsProg_run, TreeDoc.compileProg, l₂] at h
    refine ⟨_, h.trans (.read (.write .refl)), ?_⟩
    have hbad : ¬ ∃ cn, newNode (buildTypes dd (td ++ [f₁])) d₂.node = .ok cn := by
      rw [newNode_ok_iff]
      intro hok
      obtain ⟨dt, hdt, -⟩ := hok r hr q hq p hp
      rw [buildTypes_getElem?, declaredType, hf] at hdt
      have e1 : (td ++ [f₁]).filter (fun f => decide (f.name = f₂.name)) = [] := by
        rw [List.filter_eq_nil_iff]
        intro f hf
        rcases List.mem_append.mp hf with hf | hf
        · simpa using hnt f hf
        · rw [List.mem_singleton.mp hf]; simpa using hne
      have e2 : dd.filter (fun f => decide (f.name = f₂.name)) = [] := by
        rw [List.filter_eq_nil_iff]
        intro f hf
        simpa using hnd f hf
      rw [e1, e2] at hdt
      simp at hdt
    rw [run_andThen, nodeProg_run]
    have hnp := fun q => newNode_no_panic (types := buildTypes dd (td ++ [f₁])) (q := q) d₂.node
    cases hc : newNode (buildTypes dd (td ++ [f₁])) d₂.node with
    | ok cn => exact absurd ⟨cn, hc⟩ hbad
    | error er =>
      cases er with
      | err er => exact ⟨er, rfl⟩
      | panic q => exact absurd hc (hnp q)
  obtain ⟨err, hk₂⟩ := hk₂
  -- the schedule
  have s1 := adv_reach ha₁ i (building dd td n e) rfl (by simp only [building, BuildSys.init, hi])
  have s2 := adv_reach ha₂ j ((building dd td n e).at_ td i (.between (.write (td ++ [f₁]) k₁))) rfl
    (by simp only [BuildSys.at_]; rw [Function.update_of_ne hij.symm]; simp only [building, BuildSys.init, hj])
  have a3 := BuildProg.Adv.write (td := td ++ [f₂]) (BuildProg.adv_run k₁ (td ++ [f₁]))
  rw [hk₁] at a3
  have s3 := adv_reach a3 i (((building dd td n e).at_ td i (.between (.write (td ++ [f₁]) k₁))).at_ (td ++ [f₂]) j
    (.between (.read k₂))) rfl
    (by simp only [BuildSys.at_]; rw [Function.update_of_ne hij, Function.update_self])
  have a4 := BuildProg.Adv.read (BuildProg.adv_run (k₂ (td ++ [f₁])) (td ++ [f₁]))
  rw [hk₂] at a4
  have s4 := adv_reach a4 j ((((building dd td n e).at_ td i (.between (.write (td ++ [f₁]) k₁))).at_ (td ++ [f₂]) j
    (.between (.read k₂))).at_ (td ++ [f₁]) i (.between (.done (.ok m₁)))) rfl
    (by simp only [BuildSys.at_]; rw [Function.update_of_ne hij.symm, Function.update_self])
  refine ⟨_, s1.trans (s2.trans (s3.trans s4)), rfl, ?_, err, ?_⟩
  · simp only [BuildSys.at_]
    rw [Function.update_of_ne hij, Function.update_self]
  · simp only [BuildSys.at_]
    rw [Function.update_self]

/-! Examples. -/
namespace BuildExample
open Samples Replay

/-- A tree with a local transformation `z` := 7 that it tests. -/
def derived (z : String) : TreeDoc F64 :=
  { regTree "1" "2" with
    localTransformations := [⟨z, .double, .continuous, .const .double "7"⟩]
    node := .mk "" "" "0" (num "0") [] [
      .mk "" "" "1" (num "0") [] [] (some (sp z .lessThan "5"))] (some .true_) }

/-- Two ensembles and a tree without local transformations; goroutine 2 even finds no supported model. -/
def three : Fin 3 → ModelElem F64
  | 0 => ensemble .sum
  | 1 => .tree (regTree "1" "10")
  | 2 => .other "Scorecard"

example : ∀ i, (newModel Samples.dd (three i) []).2 = [] := by
  intro i; match i with
  | 0 => decide +kernel
  | 1 => decide +kernel
  | 2 => decide +kernel

example {s} (hs : BuildReach (building Samples.dd [] (fun i : Fin 3 => i.val) three) s) : ¬ s.Race :=
  (C78_separate Fin.val_injective (by
    intro i; match i with
    | 0 => decide +kernel
    | 1 => decide +kernel
    | 2 => decide +kernel) hs).1

example : (newModel Samples.dd (.tree (derived "z1")) []).1.isOk ∧
    (newModel Samples.dd (.tree (derived "z2")) (newModel Samples.dd (.tree (derived "z1")) []).2).1.isOk := by
  decide +kernel

/-- The hypotheses of `C78_lost` are met by the trees that derive z1 and z2. -/
example {m₁ m₂ : EModel F64} {td₁ td₂ : TD F64} (h₁ : newModel Samples.dd (.tree (derived "z1")) [] = (.ok m₁, td₁))
    (h₂ : newModel Samples.dd (.tree (derived "z2")) td₁ = (.ok m₂, td₂)) :
    ∃ s, BuildReach (building Samples.dd [] (fun b : Bool => b.toNat)
        fun b => if b then .tree (derived "z1") else .tree (derived "z2")) s ∧
      ∃ err, s.threads false = .between (.done (fail err)) := by
  obtain ⟨s, hs, -, -, h⟩ := C78_lost h₁ h₂ (f₁ := ⟨"z1", .double, .continuous, .const .double "7"⟩)
    (f₂ := ⟨"z2", .double, .continuous, .const .double "7"⟩) rfl rfl
    (r := .mk "" "" "1" (num "0") [] [] (some (sp "z2" .lessThan "5")))
    (.child (by simp [derived, Node.nodes]) .refl) (q := sp "z2" .lessThan "5") rfl
    (p := ⟨"z2", .lessThan, "5", .nil⟩) (by simp [sp, simples]) rfl (by decide) (by simp) (by decide)
    (n := fun b : Bool => b.toNat) (e := fun b => if b then .tree (derived "z1") else .tree (derived "z2"))
    (i := true) (j := false) (by decide) rfl rfl
  exact ⟨s, hs, h⟩

/-- A regression model may be built twice at the same time, the tree of the samples may not. -/
example : NothingToFill (F := F64) (.mining { head .sum with miningFields := [] } []) ∧
    ¬ NothingToFill (F := F64) (.tree (regTree "1" "2")) :=
  ⟨.mining (by decide) rfl .nil, by rintro ⟨h, -, -⟩; exact absurd h (by decide)⟩

end BuildExample
end Props
end Gopmml
