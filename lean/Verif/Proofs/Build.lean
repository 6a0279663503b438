import Verif.Model.Build
import Verif.Proofs.Conc
import Verif.Props.Ensemble

/-!
# Calls of `NewModel` as programs over shared memory
-/

namespace Gopmml

variable {F α β ι : Type}

namespace BuildProg

theorem build_bind (p : BuildProg F α) (f : α → BuildProg F β) (td : TD F) :
    (p.bind f).run td = (f (p.run td).1).run (p.run td).2 := by
  induction p generalizing td with
  | done a => rfl
  | read k ih => exact ih _ td
  | write td' k ih => exact ih _
  | store c k ih => exact ih _

theorem run_andThen (p : BuildProg F (Res α)) (f : α → BuildProg F (Res β)) (td : TD F) :
    (p.andThen f).run td =
      match p.run td with
      | (.error e, td') => (.error e, td')
      | (.ok a, td') => (f a).run td' := by
  rw [andThen, build_bind]
  rcases p.run td with ⟨_ | a, td'⟩ <;> rfl

/-- Run alone, starting with the dictionary `td`, the program only ever extends the dictionary, and stores
only into the element at `c` and those inside it. -/
def Alone (c : Cell) : TD F → BuildProg F α → Prop
  | _, .done _ => True
  | td, .read k => Alone c td (k td)
  | td, .write td' k => td.length < td'.length ∧ Alone c td' k
  | td, .store c' k => c <:+ c' ∧ Alone c td k

theorem Alone.bind {c : Cell} {p : BuildProg F α} {f : α → BuildProg F β} {td : TD F} (h : Alone c td p)
    (h' : Alone c (p.run td).2 (f (p.run td).1)) : Alone c td (p.bind f) := by
  induction p generalizing td with
  | done a => exact h'
  | read k ih => exact ih _ h h'
  | write td' k ih => exact ⟨h.1, ih h.2 h'⟩
  | store c' k ih => exact ⟨h.1, ih h.2 h'⟩

theorem Alone.andThen {c : Cell} {p : BuildProg F (Res α)} {f : α → BuildProg F (Res β)} {td : TD F}
    (h : Alone c td p) (h' : ∀ a, Alone c (p.run td).2 (f a)) : Alone c td (p.andThen f) := by
  refine h.bind ?_
  cases (p.run td).1 with
  | error e => trivial
  | ok a => exact h' a

theorem Alone.weaken {c c' : Cell} (hc : c <:+ c') {p : BuildProg F α} {td : TD F} (h : Alone c' td p) :
    Alone c td p := by
  induction p generalizing td with
  | done a => trivial
  | read k ih => exact ih _ h
  | write td' k ih => exact ⟨h.1, ih h.2⟩
  | store c' k ih => exact ⟨hc.trans h.1, ih h.2⟩

theorem Alone.le {c : Cell} {p : BuildProg F α} {td : TD F} (h : Alone c td p) :
    td.length ≤ (p.run td).2.length := by
  induction p generalizing td with
  | done a => exact le_refl _
  | read k ih => exact ih _ h
  | write td' k ih => exact (le_of_lt h.1).trans (ih h.2)
  | store c' k ih => exact ih h.2

/-- As long as the dictionary is `td`, the program does not write it; it stores only into the element at
`c` and those inside it, and returns `a`. -/
inductive Quiet (td : TD F) (c : Cell) (a : α) : BuildProg F α → Prop
  | done : Quiet td c a (.done a)
  | read {k} : Quiet td c a (k td) → Quiet td c a (.read k)
  | store {c' k} : c <:+ c' → Quiet td c a k → Quiet td c a (.store c' k)

theorem Alone.quiet {c : Cell} {p : BuildProg F α} {td : TD F} (h : Alone c td p) (hr : (p.run td).2 = td) :
    Quiet td c (p.run td).1 p := by
  induction p generalizing td with
  | done a => exact .done
  | read k ih => exact .read (ih _ h hr)
  | write td' k ih =>
    have := h.2.le
    have h1 := h.1
    rw [run] at hr
    rw [hr] at this
    omega
  | store c' k ih => exact .store h.1 (ih h.2 hr)

/-- The program writes the dictionary, and finds `td` in it until then. -/
inductive Writes (td : TD F) : BuildProg F α → Prop
  | write {td' k} : Writes td (.write td' k)
  | read {k} : Writes td (k td) → Writes td (.read k)
  | store {c k} : Writes td k → Writes td (.store c k)

theorem writes_of_ne {p : BuildProg F α} {td : TD F} (hr : (p.run td).2 ≠ td) : Writes td p := by
  induction p generalizing td with
  | done a => exact absurd rfl hr
  | read k ih => exact .read (ih _ hr)
  | write td' k ih => exact .write
  | store c' k ih => exact .store (ih hr)

/-- The program reads the dictionary before it writes it. -/
inductive Reads : BuildProg F α → Prop
  | read {k} : Reads (.read k)
  | store {c k} : Reads k → Reads (.store c k)

/-- What a goroutine can do on its own. -/
inductive Adv : TD F → BuildProg F α → TD F → BuildProg F α → Prop
  | refl {td p} : Adv td p td p
  | read {td k td' p} : Adv td (k td) td' p → Adv td (.read k) td' p
  | write {td td1 k td' p} : Adv td1 k td' p → Adv td (.write td1 k) td' p
  | store {td c k td' p} : Adv td k td' p → Adv td (.store c k) td' p

theorem adv_run (p : BuildProg F α) (td : TD F) : Adv td p (p.run td).2 (.done (p.run td).1) := by
  induction p generalizing td with
  | done a => exact .refl
  | read k ih => exact .read (ih _ td)
  | write td' k ih => exact .write (ih td')
  | store c k ih => exact .store (ih td)

theorem Adv.trans {td td1 td2 : TD F} {p q r : BuildProg F α} (h : Adv td p td1 q) (h' : Adv td1 q td2 r) :
    Adv td p td2 r := by
  induction h with
  | refl => exact h'
  | read _ ih => exact .read (ih h')
  | write _ ih => exact .write (ih h')
  | store _ ih => exact .store (ih h')

theorem Adv.bind {td td' : TD F} {p q : BuildProg F α} (f : α → BuildProg F β) (h : Adv td p td' q) :
    Adv td (p.bind f) td' (q.bind f) := by
  induction h with
  | refl => exact .refl
  | read _ ih => exact .read ih
  | write _ ih => exact .write ih
  | store _ ih => exact .store ih

theorem adv_bind (p : BuildProg F α) (f : α → BuildProg F β) (td : TD F) :
    Adv td (p.bind f) (p.run td).2 (f (p.run td).1) := (adv_run p td).bind f

theorem Writes.adv {td : TD F} {p : BuildProg F α} (h : Writes td p) :
    ∃ td' k, Adv td p td (.write td' k) := by
  induction h with
  | write => exact ⟨_, _, .refl⟩
  | read _ ih => obtain ⟨td', k, h⟩ := ih; exact ⟨td', k, .read h⟩
  | store _ ih => obtain ⟨td', k, h⟩ := ih; exact ⟨td', k, .store h⟩

theorem Reads.adv {p : BuildProg F α} (h : Reads p) (td : TD F) : ∃ k, Adv td p td (.read k) := by
  induction h with
  | read => exact ⟨_, .refl⟩
  | store _ ih => obtain ⟨k, h⟩ := ih; exact ⟨k, .store h⟩

end BuildProg

open BuildProg

/-! ## Schedules -/

section
variable [DecidableEq ι]

theorem BuildReach.trans {s t u : BuildSys F ι α} (h : BuildReach s t) (h' : BuildReach t u) :
    BuildReach s u := by
  induction h' with
  | refl => exact h
  | step _ hs ih => exact .step ih hs

/-- The system with goroutine `i` at `p`. -/
def BuildSys.at_ (s : BuildSys F ι α) (td : TD F) (i : ι) (g : Builder F α) : BuildSys F ι α :=
  ⟨td, Function.update s.threads i g⟩

theorem adv_reach {td td' : TD F} {p p' : BuildProg F α} (h : Adv td p td' p') (i : ι) :
    ∀ s : BuildSys F ι α, s.dict = td → s.threads i = .between p → BuildReach s (s.at_ td' i (.between p')) := by
  induction h with
  | @refl td p =>
    intro s hd hi
    have : s.at_ td i (.between p) = s := by
      cases s
      subst hd
      simp only [BuildSys.at_, BuildSys.mk.injEq, true_and]
      rw [← hi]
      exact Function.update_eq_self i _
    rw [this]
    exact .refl
  | @read td k td' p h ih =>
    intro s hd hi
    have h1 := BuildStep.enter hi (by intro a; nofun)
    have h2 := BuildStep.read (s := ⟨s.dict, Function.update s.threads i (.inside (.read k))⟩) (i := i)
      (Function.update_self ..)
    have h3 := ih ⟨s.dict, Function.update s.threads i (.between (k s.dict))⟩ hd
      (by subst hd; exact Function.update_self ..)
    refine ((BuildReach.refl.step h1).step h2).trans ?_
    simpa [BuildSys.at_, Function.update_idem] using h3
  | @write td td1 k td' p h ih =>
    intro s hd hi
    have h1 := BuildStep.enter hi (by intro a; nofun)
    have h2 := BuildStep.write (s := ⟨s.dict, Function.update s.threads i (.inside (.write td1 k))⟩) (i := i)
      (Function.update_self ..)
    have h3 := ih ⟨td1, Function.update s.threads i (.between k)⟩ rfl (Function.update_self ..)
    refine ((BuildReach.refl.step h1).step h2).trans ?_
    simpa [BuildSys.at_, Function.update_idem] using h3
  | @store td c k td' p h ih =>
    intro s hd hi
    have h1 := BuildStep.enter hi (by intro a; nofun)
    have h2 := BuildStep.store (s := ⟨s.dict, Function.update s.threads i (.inside (.store c k))⟩) (i := i)
      (Function.update_self ..)
    have h3 := ih ⟨s.dict, Function.update s.threads i (.between k)⟩ hd (Function.update_self ..)
    refine ((BuildReach.refl.step h1).step h2).trans ?_
    simpa [BuildSys.at_, Function.update_idem] using h3

/-- A goroutine advances and enters the access it has come to. -/
theorem adv_enter {td td' : TD F} {p p' : BuildProg F α} (h : Adv td p td' p') (hp : ∀ a, p' ≠ .done a) (i : ι)
    (s : BuildSys F ι α) (hd : s.dict = td) (hi : s.threads i = .between p) :
    BuildReach s (s.at_ td' i (.inside p')) := by
  refine (adv_reach h i s hd hi).trans (.step .refl ?_)
  have := BuildStep.enter (s := s.at_ td' i (.between p')) (i := i) (p := p') (Function.update_self ..) hp
  simpa [BuildSys.at_, Function.update_idem] using this

/-- One goroutine is about to write the dictionary, another about to read it. -/
theorem dict_race {s : BuildSys F ι α} {i j : ι} (hij : i ≠ j) {p q : BuildProg F α} (hi : s.threads i = .between p)
    (hj : s.threads j = .between q) (hp : Writes s.dict p) (hq : Reads q) : ∃ t, BuildReach s t ∧ t.Race := by
  obtain ⟨td', k, hp⟩ := hp.adv
  obtain ⟨k', hq⟩ := hq.adv s.dict
  have h1 := adv_enter hp (by intro a; nofun) i s rfl hi
  have h2 := adv_enter hq (by intro a; nofun) j (s.at_ s.dict i (.inside (.write td' k))) rfl
    ((Function.update_of_ne hij.symm _ _).trans hj)
  refine ⟨_, h1.trans h2, i, j, none, hij, ?_, ?_⟩
  · simp only [BuildSys.at_]
    rw [Function.update_of_ne hij, Function.update_self]
    rfl
  · simp only [BuildSys.at_]
    rw [Function.update_self]
    rfl

/-- The programs of a goroutine, whether inside an access or not. -/
def Builder.prog : Builder F α → BuildProg F α
  | .between p => p
  | .inside p => p

/-- Goroutines none of which writes the dictionary. -/
theorem build_quiet_reach {td : TD F} {c : ι → Cell} {a : ι → α} {ps : ι → BuildProg F α}
    (h : ∀ i, Quiet td (c i) (a i) (ps i)) {s : BuildSys F ι α} (hs : BuildReach (.init td ps) s) :
    s.dict = td ∧ ∀ i, Quiet td (c i) (a i) (s.threads i).prog := by
  induction hs with
  | refl => exact ⟨rfl, h⟩
  | @step s u _ hstep ih =>
    obtain ⟨hd, hq⟩ := ih
    have upd : ∀ {i : ι} {g : Builder F α}, Quiet td (c i) (a i) g.prog →
        ∀ j, Quiet td (c j) (a j) (Function.update s.threads i g j).prog := by
      intro i g hg j
      by_cases hji : j = i
      · subst hji; rw [Function.update_self]; exact hg
      · rw [Function.update_of_ne hji]; exact hq j
    cases hstep with
    | @enter i p hi hp =>
      refine ⟨hd, upd ?_⟩
      have := hq i; rw [hi] at this; exact this
    | @read i k hi =>
      refine ⟨hd, upd ?_⟩
      have := hq i; rw [hi] at this
      cases this with | read hk => rw [hd]; exact hk
    | @write i td' k hi =>
      have := hq i; rw [hi] at this
      cases this
    | @store i c' k hi =>
      refine ⟨hd, upd ?_⟩
      have := hq i; rw [hi] at this
      cases this with | store _ hk => exact hk

omit [DecidableEq ι] in
/-- Such goroutines do not race when they store into different elements. -/
theorem build_quiet_no_race {td : TD F} {c : ι → Cell} {a : ι → α} {s : BuildSys F ι α}
    (hc : ∀ i j, i ≠ j → ∀ c', c i <:+ c' → ¬ c j <:+ c')
    (h : ∀ i, Quiet td (c i) (a i) (s.threads i).prog) : ¬ s.Race := by
  rintro ⟨i, j, l, hij, hw, ha⟩
  have hi := h i
  have hj := h j
  generalize s.threads i = g at hi hw
  generalize s.threads j = g' at hj ha
  cases g with
  | between p => cases hw
  | inside p =>
    cases p with
    | done a => cases hw
    | read k => cases hw
    | write td' k => cases hi
    | store c1 k =>
      cases hw
      cases g' with
      | between p => cases ha
      | inside p =>
        cases p with
        | done a => cases ha
        | read k => cases ha
        | write td' k => cases ha
        | store c2 k =>
          cases ha
          cases hi with
          | store h1 _ =>
          cases hj with
          | store h2 _ =>
          exact hc i j hij _ h1 h2

end

/-! ## Run alone, a program is the constructor -/

theorem appendProg_run (l : List (DerivedField F)) (td : TD F) : (appendProg l).run td = ((), td ++ l) := by
  induction l generalizing td with
  | nil => simp [appendProg, BuildProg.run]
  | cons tf l ih => simp [appendProg, BuildProg.run, ih]

theorem appendProg_alone (c : Cell) (l : List (DerivedField F)) (td : TD F) : Alone c td (appendProg l) := by
  induction l generalizing td with
  | nil => trivial
  | cons tf l ih => exact ⟨by simp, ih _⟩

theorem fieldsProg_run (c : Cell) (fs : List MiningField) (td : TD F) :
    (fieldsProg c fs).run td = (fs.map MiningField.withDefaults, td) := by
  induction fs generalizing td with
  | nil => rfl
  | cons f fs ih =>
    rw [fieldsProg, BuildProg.run, build_bind, ih]
    rfl

theorem fieldsProg_alone (c : Cell) (fs : List MiningField) (td : TD F) :
    Alone c td (fieldsProg (F := F) c fs) := by
  induction fs generalizing td with
  | nil => trivial
  | cons f fs ih => exact ⟨List.suffix_refl c, (ih td).bind trivial⟩

section
variable [Lib F]

mutual
theorem predProg_run (c : Cell) (types : FieldTypes) (td : TD F) : (p : Pred F) →
    (predProg c types p).run td = (compilePredicate types p, td)
  | .simple p => by
    rw [predProg, compilePredicate]
    cases types[p.field]? with
    | none => rfl
    | some dt =>
      simp only
      cases getRawValue dt p.value (F := F) <;> rfl
  | .compound op ps => by
    rw [predProg, compilePredicate, run_andThen, predsProg_run c types td ps]
    cases compilePredicates types ps <;> rfl
  | .true_ => by rw [predProg, compilePredicate]; rfl
  | .false_ => by rw [predProg, compilePredicate]; rfl
  | .set fld => by rw [predProg, compilePredicate]; rfl
theorem predsProg_run (c : Cell) (types : FieldTypes) (td : TD F) : (ps : List (Pred F)) →
    (predsProg c types ps).run td = (compilePredicates types ps, td)
  | [] => by rw [predsProg, compilePredicates]; rfl
  | p :: ps => by
    rw [predsProg, compilePredicates, run_andThen, predProg_run c types td p]
    cases compilePredicate types p with
    | error e => rfl
    | ok p' =>
      simp only
      rw [run_andThen, predsProg_run c types td ps]
      cases compilePredicates types ps <;> rfl
end

mutual
theorem predProg_alone (c : Cell) (types : FieldTypes) (td : TD F) : (p : Pred F) →
    Alone c td (predProg c types p)
  | .simple p => by
    rw [predProg]
    cases types[p.field]? with
    | none => trivial
    | some dt =>
      simp only
      cases getRawValue dt p.value (F := F) with
      | error e => trivial
      | ok v => exact ⟨List.suffix_refl c, trivial⟩
  | .compound op ps => by
    rw [predProg]
    exact (predsProg_alone c types td ps).andThen fun _ => trivial
  | .true_ => by rw [predProg]; trivial
  | .false_ => by rw [predProg]; trivial
  | .set fld => by rw [predProg]; trivial
theorem predsProg_alone (c : Cell) (types : FieldTypes) (td : TD F) : (ps : List (Pred F)) →
    Alone c td (predsProg c types ps)
  | [] => by rw [predsProg]; trivial
  | p :: ps => by
    rw [predsProg]
    refine (predProg_alone c types td p).andThen fun _ => ?_
    rw [predProg_run]
    exact (predsProg_alone c types td ps).andThen fun _ => trivial
end

variable [Arith F]

mutual
theorem nodeProg_run (c : Cell) (types : FieldTypes) (td : TD F) : (n : Node F) →
    (nodeProg c types n).run td = (newNode types n, td)
  | .mk id dc score rc dists nodes pred => by
    rw [nodeProg, newNode, run_andThen, nodesProg_run c types td nodes]
    cases newNodes types nodes with
    | error e => rfl
    | ok cs =>
      cases pred with
      | none => rfl
      | some p =>
        simp only
        rw [run_andThen, predProg_run]
        cases compilePredicate types p <;> rfl
theorem nodesProg_run (c : Cell) (types : FieldTypes) (td : TD F) : (ns : List (Node F)) →
    (nodesProg c types ns).run td = (newNodes types ns, td)
  | [] => by rw [nodesProg, newNodes]; rfl
  | n :: ns => by
    rw [nodesProg, newNodes, run_andThen, nodeProg_run c types td n]
    cases newNode types n with
    | error e => rfl
    | ok n' =>
      simp only
      rw [run_andThen, nodesProg_run c types td ns]
      cases newNodes types ns <;> rfl
end

mutual
theorem nodeProg_alone (c : Cell) (types : FieldTypes) (td : TD F) : (n : Node F) →
    Alone c td (nodeProg c types n)
  | .mk id dc score rc dists nodes pred => by
    rw [nodeProg]
    refine (nodesProg_alone c types td nodes).andThen fun cs => ?_
    rw [nodesProg_run]
    cases pred with
    | none => trivial
    | some p => exact (predProg_alone c types td p).andThen fun _ => trivial
theorem nodesProg_alone (c : Cell) (types : FieldTypes) (td : TD F) : (ns : List (Node F)) →
    Alone c td (nodesProg c types ns)
  | [] => by rw [nodesProg]; trivial
  | n :: ns => by
    rw [nodesProg]
    refine (nodeProg_alone c types td n).andThen fun _ => ?_
    rw [nodeProg_run]
    exact (nodesProg_alone c types td ns).andThen fun _ => trivial
end

theorem treeProg_run (c : Cell) (dd : List DataField) (d : TreeDoc F) (td : TD F) :
    (d.buildProg c dd).run td = newModel dd (.tree d) td := by
  rw [newModel, newTreeModel, TreeDoc.buildProg, TreeModel.validate, TreeModel.init]
  by_cases hf : d.functionName ≠ .classification ∧ d.functionName ≠ .regression
  · rw [if_pos hf, if_pos hf]; rfl
  · rw [if_neg hf, if_neg hf]
    simp only [TreeModel.compile, TreeDoc.compileProg, build_bind, fieldsProg_run, appendProg_run, BuildProg.run, run_andThen, nodeProg_run]
    cases newNode (buildTypes dd (td ++ d.localTransformations)) d.node <;> rfl

theorem treeProg_alone (c : Cell) (dd : List DataField) (d : TreeDoc F) (td : TD F) :
    Alone c td (d.buildProg c dd) := by
  rw [TreeDoc.buildProg]
  split
  · trivial
  · refine (fieldsProg_alone c _ td).bind ?_
    rw [fieldsProg_run]
    refine (appendProg_alone c _ td).bind ?_
    exact (nodeProg_alone c _ _ _).andThen fun _ => trivial

mutual
theorem buildProg_run (dd : List DataField) : (e : ModelElem F) → (c : Cell) → (td : TD F) →
    (e.buildProg c dd).run td = newModel dd e td
  | .tree d, c, td => by rw [ModelElem.buildProg]; exact treeProg_run c dd d td
  | .regression d, c, td => by rw [ModelElem.buildProg, newModel]; rfl
  | .other k, c, td => by rw [ModelElem.buildProg, newModel]; rfl
  | .mining h segs, c, td => by
    have key : (miningProg c dd h segs).run td = newModel dd (.mining h segs) td := by
      rw [miningProg, newModel]
      rcases (MiningState.init dd h segs).validate with ⟨e | ⟨⟨⟩⟩, s⟩
      · rfl
      · simp only [build_bind, appendProg_run, BuildProg.run, run_andThen]
        rw [segsProg_run dd segs c 0]
        rcases compileSegments dd segs (td ++ s.head.localTransformations) with ⟨e | ⟨⟨⟩⟩, ms, td'⟩ <;> rfl
    rw [ModelElem.buildProg]
    split
    · rw [BuildProg.run]; exact key
    · exact key
theorem segsProg_run (dd : List DataField) : (segs : List (SegDoc F)) → (c : Cell) → (i : Nat) → (td : TD F) →
    (segsProg c dd i segs).run td =
      match compileSegments dd segs td with
      | (.error e, _, td') => (.error e, td')
      | (.ok (), ms, td') => (.ok ms, td')
  | [], c, i, td => by rw [segsProg, compileSegments]; rfl
  | .mk id ps [e] :: segs, c, i, td => by
    rw [segsProg, compileSegments, run_andThen, buildProg_run dd e (i :: c) td]
    rcases newModel dd e td with ⟨er | m, td'⟩
    · rfl
    · simp only
      rw [run_andThen, segsProg_run dd segs c (i + 1) td']
      rcases compileSegments dd segs td' with ⟨er | ⟨⟨⟩⟩, ms, td'⟩ <;> rfl
  | .mk id ps [] :: segs, c, i, td => by rw [segsProg, compileSegments] <;> first | rfl | nofun
  | .mk id ps (e1 :: e2 :: es) :: segs, c, i, td => by
    rw [segsProg, compileSegments] <;> first | rfl | (intro e h; simp at h)
end

mutual
theorem buildProg_alone (dd : List DataField) : (e : ModelElem F) → (c : Cell) → (td : TD F) →
    Alone c td (e.buildProg c dd)
  | .tree d, c, td => by rw [ModelElem.buildProg]; exact treeProg_alone c dd d td
  | .regression d, c, td => by rw [ModelElem.buildProg]; trivial
  | .other k, c, td => by rw [ModelElem.buildProg]; trivial
  | .mining h segs, c, td => by
    have key : Alone c td (miningProg c dd h segs) := by
      rw [miningProg]
      rcases (MiningState.init dd h segs).validate with ⟨e | ⟨⟨⟩⟩, s⟩
      · trivial
      · refine (appendProg_alone c _ td).bind ?_
        exact (segsProg_alone dd segs c 0 _).andThen fun _ => trivial
    rw [ModelElem.buildProg]
    split
    · exact ⟨List.suffix_refl c, key⟩
    · exact key
theorem segsProg_alone (dd : List DataField) : (segs : List (SegDoc F)) → (c : Cell) → (i : Nat) → (td : TD F) →
    Alone c td (segsProg c dd i segs)
  | [], c, i, td => by rw [segsProg]; trivial
  | .mk id ps [e] :: segs, c, i, td => by
    rw [segsProg]
    refine ((buildProg_alone dd e (i :: c) td).weaken (List.suffix_cons i c)).andThen fun _ => ?_
    exact (segsProg_alone dd segs c (i + 1) _).andThen fun _ => trivial
  | .mk id ps [] :: segs, c, i, td => by rw [segsProg] <;> first | trivial | nofun
  | .mk id ps (e1 :: e2 :: es) :: segs, c, i, td => by
    rw [segsProg] <;> first | trivial | (intro e h; simp at h)
end

/-! ## The first accesses of a call -/

omit [Lib F] [Arith F] in
theorem fieldsProg_reads (c : Cell) (fs : List MiningField) {f : List MiningField → BuildProg F α}
    (hf : ∀ fs, Reads (f fs)) : Reads ((fieldsProg c fs).bind f) := by
  induction fs generalizing f with
  | nil => exact hf _
  | cons g fs ih =>
    refine .store ?_
    have hb : ∀ (p : BuildProg F (List MiningField)) (q : List MiningField → BuildProg F (List MiningField)),
        (p.bind q).bind f = p.bind fun x => (q x).bind f := by
      intro p q
      induction p with
      | done a => rfl
      | read k ih => simp only [BuildProg.bind, ih]
      | write td k ih => simp only [BuildProg.bind, ih]
      | store c k ih => simp only [BuildProg.bind, ih]
    rw [hb]
    exact ih fun fs' => hf _

omit [Lib F] [Arith F] in
theorem appendProg_reads (l : List (DerivedField F)) {f : Unit → BuildProg F α} (hf : Reads (f ())) :
    Reads ((appendProg l).bind f) := by
  cases l with
  | nil => exact hf
  | cons tf l => exact .read

/-- A tree or an ensemble that is accepted is compiled, and reads the dictionary. -/
theorem buildProg_reads {dd : List DataField} {e : ModelElem F} {td td' : TD F} {m : EModel F}
    (hm : newModel dd e td = (.ok m, td')) (hr : ∀ d, e ≠ .regression d) (c : Cell) : Reads (e.buildProg c dd) := by
  cases e with
  | tree d =>
    rw [ModelElem.buildProg, TreeDoc.buildProg]
    split
    · rename_i hf
      rw [newModel, newTreeModel, TreeModel.validate, TreeModel.init, if_pos hf] at hm
      simp at hm
    · exact fieldsProg_reads c _ fun fs => appendProg_reads _ .read
  | regression d => exact absurd rfl (hr d)
  | other k => rw [newModel] at hm; simp at hm
  | mining h segs =>
    have key : Reads (miningProg c dd h segs) := by
      rw [newModel] at hm
      rw [miningProg]
      revert hm
      rcases (MiningState.init dd h segs).validate with ⟨e | ⟨⟨⟩⟩, s⟩
      · intro hm; simp at hm
      · intro _; exact appendProg_reads _ .read
    rw [ModelElem.buildProg]
    split
    · exact .store key
    · exact key

end
end Gopmml
