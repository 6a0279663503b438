import Verif.Proofs.Conc

/-!
# Property C27: concurrent calls of Evaluate
-/

namespace Gopmml.Props
open Gopmml Spec

section
variable {F : Type} [Arith F] [Lib F] [Trans F]

/-- The caches after the calls `hist`, made one after the other. -/
def cachesAfter (m : EModel F) (σ : Store) (hist : List (MapOrd × Row F)) : Store :=
  hist.foldl (fun σ c => ((EModel.prog [] c.1 m c.2).run σ).2) σ

/-- **C27** (the programs): calls made one after the other through `EModel.prog` and a store do
what `EModel.evaluate` does to the model; the next call returns the same, does the same to its row
and leaves the same caches behind. -/
theorem C27_program {dd : List DataField} {e : ModelElem F} {td td' : TD F} {m : EModel F}
    (h : newModel dd e td = (.ok m, td')) {σ : Store} (hσ : Agrees σ [] m) (hist : List (MapOrd × Row F))
    (o : MapOrd) (row : Row F) :
    Agrees (cachesAfter m σ hist) [] (afterCalls m hist) ∧
    ((EModel.prog [] o m row).run (cachesAfter m σ hist)).1 =
      ((EModel.evaluate o (afterCalls m hist) row).res, (EModel.evaluate o (afterCalls m hist) row).row) ∧
    Agrees ((EModel.prog [] o m row).run (cachesAfter m σ hist)).2 []
      (EModel.evaluate o (afterCalls m hist) row).model := by
  have key : ∀ hist m' σ, SameModel m m' → Agrees σ [] m' →
      SameModel m (afterCalls m' hist) ∧ Agrees (cachesAfter m σ hist) [] (afterCalls m' hist) := by
    intro hist
    induction hist with
    | nil => intro m' σ h h'; exact ⟨h, h'⟩
    | cons c hist ih =>
      intro m' σ h h'
      refine ih _ _ (evaluate_stable m m' c.1 c.2 h).2.2 ?_
      obtain ⟨σ', h1, h2, -⟩ := prog_run m' [] c.1 c.2 σ h'
      rw [prog_congr m m' [] c.1 c.2 h] at h1
      show Agrees ((EModel.prog [] c.1 m c.2).run σ).2 [] (EModel.evaluate c.1 m' c.2).model
      rw [h1]
      exact h2
  obtain ⟨h1, h2⟩ := key hist m σ (newModel_same dd e h) hσ
  obtain ⟨σ', g1, g2, -⟩ := prog_run _ [] o row _ h2
  rw [prog_congr m _ [] o row h1] at g1
  rw [g1]
  exact ⟨h2, rfl, g2⟩

theorem cachesAfter_ok {m : EModel F} (hm : SameModel m m) {σ : Store} (hσ : StoreOk σ)
    (hist : List (MapOrd × Row F)) :
    StoreOk (cachesAfter m σ hist) ∧
    ∀ c ∈ hist, ∀ x ∈ (EModel.prog [] c.1 m c.2).lookups, ((cachesAfter m σ hist) x.1)[x.2]? ≠ none := by
  have mono : ∀ hist σ, StoreOk σ → StoreOk (cachesAfter m σ hist) ∧
      ∀ (c : Cell) (v k : String), (σ c)[v]? = some k → (cachesAfter m σ hist c)[v]? = some k := by
    intro hist
    induction hist with
    | nil => exact fun σ hσ => ⟨hσ, fun _ _ _ h => h⟩
    | cons c hist ih =>
      intro σ hσ
      obtain ⟨l, hl⟩ := prog_call m hm [] c.1 c.2
      obtain ⟨-, g2, g3, -⟩ := hl.run hσ
      obtain ⟨i1, i2⟩ := ih _ g2
      exact ⟨i1, fun c v k h => i2 c v k (g3 c v k h)⟩
  refine ⟨(mono hist σ hσ).1, ?_⟩
  induction hist generalizing σ with
  | nil => simp
  | cons c hist ih =>
    obtain ⟨l, hl⟩ := prog_call m hm [] c.1 c.2
    obtain ⟨-, g2, g3, g4⟩ := hl.run hσ
    intro d hd x hx
    rcases List.mem_cons.mp hd with rfl | hd
    · rw [hl.lookups] at hx
      obtain ⟨k, hk⟩ := Option.ne_none_iff_exists'.mp (g4 x hx)
      have := (mono hist _ g2).2 x.1 x.2 k hk
      intro hn
      have hn := this.symm.trans hn
      cases hn
    · exact ih g2 d hd x hx

variable {ι : Type} [DecidableEq ι]

/-- **C27** (right answers under atomic accesses): any number of calls on one constructed model,
made concurrently after any history of calls.  Whatever the interleaving of their accesses to the
caches, a call that has finished has returned what the fresh model returns when it is called alone,
and has done the same to its row. -/
theorem C27_right {dd : List DataField} {e : ModelElem F} {td td' : TD F} {m : EModel F}
    (h : newModel dd e td = (.ok m, td')) {σ : Store} (hσ : StoreOk σ) (hist : List (MapOrd × Row F))
    (calls : ι → MapOrd × Row F) {s : Sys ι (Res (Out F) × Row F)}
    (hr : Reach (Sys.init (cachesAfter m σ hist) fun i => EModel.prog [] (calls i).1 m (calls i).2) s)
    {i : ι} {r : Res (Out F) × Row F} (hi : s.threads i = .between (.done r)) :
    r = ((EModel.evaluate (calls i).1 m (calls i).2).res, (EModel.evaluate (calls i).1 m (calls i).2).row) := by
  have hm := newModel_same dd e h
  obtain ⟨-, -, h3⟩ := reach_inv (cachesAfter_ok hm hσ hist).1
    (fun i => (prog_call m hm [] (calls i).1 (calls i).2).choose_spec) hr
  obtain ⟨l', hl', -⟩ := h3 i
  rw [hi] at hl'
  cases hl' with
  | call hc => cases hc; rfl

/-- **C27** (warm models): if every label the calls look up was looked up by a call made before,
then no goroutine is ever inside a write, under any schedule: the caches stay as they are and there
is no race. -/
theorem C27_warm {dd : List DataField} {e : ModelElem F} {td td' : TD F} {m : EModel F}
    (h : newModel dd e td = (.ok m, td')) {σ : Store} (hσ : StoreOk σ) (hist : List (MapOrd × Row F))
    (calls : ι → MapOrd × Row F)
    (hw : ∀ i, ∀ x ∈ (EModel.prog [] (calls i).1 m (calls i).2).lookups,
      ∃ c ∈ hist, x ∈ (EModel.prog [] c.1 m c.2).lookups)
    {s : Sys ι (Res (Out F) × Row F)}
    (hr : Reach (Sys.init (cachesAfter m σ hist) fun i => EModel.prog [] (calls i).1 m (calls i).2) s) :
    s.store = cachesAfter m σ hist ∧ (∀ i, (s.threads i).writing = none) ∧ ¬ s.Race := by
  have hm := newModel_same dd e h
  obtain ⟨h1, h2⟩ := reach_quiet (cachesAfter_ok hm hσ hist).1
    (fun i => (prog_call m hm [] (calls i).1 (calls i).2).choose_spec) (by
      intro i x hx
      rw [← (prog_call m hm [] (calls i).1 (calls i).2).choose_spec.lookups] at hx
      obtain ⟨c, hc, hcx⟩ := hw i x hx
      exact (cachesAfter_ok hm hσ hist).2 c hc x hcx) hr
  have h3 : ∀ i, (s.threads i).writing = none := by
    intro i
    obtain ⟨l', hc, -⟩ := h2 i
    cases hg : s.threads i with
    | between p => rfl
    | inside p =>
      rw [hg] at hc
      cases hc with
      | done => rfl
      | read => rfl
  refine ⟨h1, h3, ?_⟩
  rintro ⟨i, j, c, -, hi, -⟩
  rw [h3 i] at hi
  cases hi

/-- **C27** (cold models): two calls whose first look-up in vain is in the same tree can be inside
a write to its cache at the same time. -/
theorem C27_cold {dd : List DataField} {e : ModelElem F} {td td' : TD F} {m : EModel F}
    (h : newModel dd e td = (.ok m, td')) {σ : Store} (hσ : StoreOk σ) (calls : ι → MapOrd × Row F)
    {i j : ι} (hij : i ≠ j) {c : Cell} {v w : String}
    (hi : (EModel.prog [] (calls i).1 m (calls i).2).lookups.find? (fun x => (σ x.1)[x.2]? = none) = some (c, v))
    (hj : (EModel.prog [] (calls j).1 m (calls j).2).lookups.find? (fun x => (σ x.1)[x.2]? = none) = some (c, w)) :
    ∃ s, Reach (Sys.init σ fun i => EModel.prog [] (calls i).1 m (calls i).2) s ∧ s.Race := by
  have hm := newModel_same dd e h
  obtain ⟨li, hli⟩ := prog_call m hm [] (calls i).1 (calls i).2
  obtain ⟨lj, hlj⟩ := prog_call m hm [] (calls j).1 (calls j).2
  rw [hli.lookups] at hi
  rw [hlj.lookups] at hj
  obtain ⟨p, hp⟩ := to_write hσ hli hi (Sys.init σ fun i => EModel.prog [] (calls i).1 m (calls i).2) i rfl rfl
  obtain ⟨q, hq⟩ := to_write hσ hlj hj
    ((Sys.init σ fun i => EModel.prog [] (calls i).1 m (calls i).2).setThread i
      (.inside (.write c v (probabilityKey v) p))) j rfl (by rw [setThread_threads, if_neg (Ne.symm hij)]; rfl)
  refine ⟨_, reach_trans hp hq, i, j, c, hij, ?_, ?_⟩
  · rw [setThread_threads, if_neg hij, setThread_threads, if_pos rfl]; rfl
  · rw [setThread_threads, if_pos rfl]; rfl

omit [Trans F] in
/-- **C27**: the stores of the theorems above exist for every constructed model. -/
theorem C27_store {dd : List DataField} {e : ModelElem F} {td td' : TD F} {m : EModel F}
    (h : newModel dd e td = (.ok m, td')) : ∃ σ, Agrees σ [] m ∧ StoreOk σ :=
  exists_store m (newModel_same dd e h) []

/-- How many steps a goroutine still needs at most: four for every label, for the look-up and the
write of its key. -/
def left {α : Type} : Goroutine α → Nat
  | .between (.done _) => 0
  | .between (.read c v k) => 4 * (Prog.read c v k).lookups.length
  | .inside (.read c v k) => 4 * (Prog.read c v k).lookups.length - 1
  | .between (.write _ _ _ k) => 4 * k.lookups.length + 2
  | .inside (.write _ _ _ k) => 4 * k.lookups.length + 1
  | .inside (.done _) => 0

/-- **C27** (no blocking, termination): in every reachable state every unfinished call can go on,
and every step brings exactly one call closer to its end; so a call ends after at most four of its
own steps for every label it looks up, under every schedule. -/
theorem C27_progress {dd : List DataField} {e : ModelElem F} {td td' : TD F} {m : EModel F}
    (h : newModel dd e td = (.ok m, td')) {σ : Store} (hσ : StoreOk σ) (calls : ι → MapOrd × Row F)
    {s : Sys ι (Res (Out F) × Row F)}
    (hr : Reach (Sys.init σ fun i => EModel.prog [] (calls i).1 m (calls i).2) s) :
    (∀ i, (∃ r, s.threads i = .between (.done r)) ∨ ∃ t, Step s t ∧ left (t.threads i) < left (s.threads i)) ∧
    ∀ t, Step s t → ∃ i, left (t.threads i) < left (s.threads i) ∧ ∀ j, j ≠ i → t.threads j = s.threads j := by
  have hm := newModel_same dd e h
  obtain ⟨h1, -, h3⟩ := reach_inv hσ (fun i => (prog_call m hm [] (calls i).1 (calls i).2).choose_spec) hr
  have hin : ∀ i r, s.threads i ≠ .inside (.done r) := by
    have : ∀ s, Reach (Sys.init σ fun i => EModel.prog [] (calls i).1 m (calls i).2) s →
        ∀ i r, s.threads i ≠ .inside (.done r) := by
      intro s hr
      induction hr with
      | refl => intro i r h; cases h
      | step hr hs ih =>
        intro i r
        cases hs <;> (
          show (Sys.setThread _ _ _).threads i ≠ _
          rw [setThread_threads]
          split_ifs
          · intro h; cases h
          · exact ih i r)
    exact this s hr
  have dec : ∀ t, Step s t → ∃ i, left (t.threads i) < left (s.threads i) ∧
      ∀ j, j ≠ i → t.threads j = s.threads j := by
    intro t ht
    cases ht with
    | @enterRead i c v k ht =>
      refine ⟨i, ?_, fun j hj => by rw [setThread_threads, if_neg hj]⟩
      rw [setThread_threads, if_pos rfl, ht]
      simp only [left, Prog.lookups, List.length_cons]
      omega
    | @enterWrite i c v key k ht =>
      refine ⟨i, ?_, fun j hj => by rw [setThread_threads, if_neg hj]⟩
      rw [setThread_threads, if_pos rfl, ht]
      simp only [left]
      omega
    | @leaveRead i c v k ht =>
      refine ⟨i, ?_, fun j hj => by rw [setThread_threads, if_neg hj]⟩
      rw [setThread_threads, if_pos rfl, ht]
      obtain ⟨l', hl', -⟩ := h3 i
      rw [ht] at hl'
      cases hl' with
      | call hc =>
        cases hc with
        | @read _ _ _ p l'' c1 c2 c3 =>
          cases hg : (s.store c)[v]? with
          | some key =>
            rw [h1 c v key hg]
            have e : (k (some ("probability(" ++ v ++ ")"))).lookups = l'' := c1.lookups
            have b : left (.between (k (some ("probability(" ++ v ++ ")")))) ≤
                4 * (k (some ("probability(" ++ v ++ ")"))).lookups.length := by
              have c1 : Call _ (k (some ("probability(" ++ v ++ ")"))) l'' := c1
              revert c1
              cases k (some ("probability(" ++ v ++ ")")) with
              | done => exact fun _ => by simp [left]
              | read => exact fun _ => by simp [left]
              | write => intro c; cases c
            have e' : (Prog.read c v k).lookups = (c, v) :: l'' := by rw [Prog.lookups, ← e]; rfl
            show _ < 4 * (Prog.read c v k).lookups.length - 1
            rw [e', List.length_cons]
            rw [e] at b
            omega
          | none =>
            rw [c2]
            show 4 * p.lookups.length + 2 < 4 * (Prog.read c v k).lookups.length - 1
            rw [Prog.lookups, c1.lookups, c3.lookups, List.length_cons]
            omega
    | @leaveWrite i c v key k ht =>
      refine ⟨i, ?_, fun j hj => by
        show (s.setThread i (.between k)).threads j = _
        rw [setThread_threads, if_neg hj]⟩
      show left ((s.setThread i (.between k)).threads i) < _
      rw [setThread_threads, if_pos rfl, ht]
      obtain ⟨l', hl', -⟩ := h3 i
      rw [ht] at hl'
      cases hl' with
      | call hc => cases hc
      | write hc =>
        cases k with
        | done => simp [left]
        | read => simp [left]
        | write => cases hc
  refine ⟨fun i => ?_, dec⟩
  have go : ∀ t, Step s t → t.threads i ≠ s.threads i → left (t.threads i) < left (s.threads i) := by
    intro t ht hne
    obtain ⟨j, hj, ho⟩ := dec t ht
    by_cases hij : i = j
    · subst hij; exact hj
    · exact absurd (ho i hij) hne
  cases hg : s.threads i with
  | between p =>
    cases p with
    | done r => exact .inl ⟨r, rfl⟩
    | read c v k =>
      refine .inr ⟨_, .enterRead hg, ?_⟩
      rw [← hg]
      exact go _ (.enterRead hg) (by rw [setThread_threads, if_pos rfl, hg]; intro h; cases h)
    | write c v key k =>
      refine .inr ⟨_, .enterWrite hg, ?_⟩
      rw [← hg]
      exact go _ (.enterWrite hg) (by rw [setThread_threads, if_pos rfl, hg]; intro h; cases h)
  | inside p =>
    cases p with
    | done r => exact absurd hg (hin i r)
    | read c v k =>
      refine .inr ⟨_, .leaveRead hg, ?_⟩
      rw [← hg]
      exact go _ (.leaveRead hg) (by rw [setThread_threads, if_pos rfl, hg]; intro h; cases h)
    | write c v key k =>
      refine .inr ⟨_, .leaveWrite hg, ?_⟩
      rw [← hg]
      exact go _ (.leaveWrite hg) (by
        show (s.setThread i (.between k)).threads i ≠ _
        rw [setThread_threads, if_pos rfl, hg]; intro h; cases h)

/-! ## Trees, in terms of the returned rows -/

/-- The row returned by the call contains a probability for the label `v`. -/
def Reports (m : EModel F) (o : MapOrd) (row : Row F) (v : String) : Prop :=
  ∃ out x, (EModel.evaluate o m row).res = .ok (some out) ∧ out["probability(" ++ v ++ ")"]? = some x

omit [Arith F] [Lib F] [Trans F] in
theorem probabilityKey_inj {v w : String} (h : probabilityKey v = probabilityKey w) : v = w := by
  unfold probabilityKey at h
  have := congrArg String.toList h
  simp only [String.toList_append, List.append_assoc, List.append_cancel_left_eq, List.append_cancel_right_eq] at this
  exact String.ext this

omit [Arith F] [Lib F] [Trans F] in
theorem score_ne_key (v : String) : "score" ≠ probabilityKey v := by
  intro h
  have := congrArg (fun s => s.toList.head?) h
  simp [probabilityKey, String.toList_append] at this

omit [Arith F] [Lib F] [Trans F] in
theorem foldl_key {l : List (ScoreDist F)} {out : GoMap (GoVal F)} {v : String}
    (hn : out[probabilityKey v]? = none) :
    (l.foldl (fun m s => m.insert (probabilityKey s.value) (.f64 s.probability)) out)[probabilityKey v]? ≠ none ↔
      ∃ s ∈ l, s.value = v := by
  have gen : ∀ (l : List (ScoreDist F)) (out : GoMap (GoVal F)),
      (l.foldl (fun m s => m.insert (probabilityKey s.value) (.f64 s.probability)) out)[probabilityKey v]? ≠ none ↔
      (∃ s ∈ l, s.value = v) ∨ out[probabilityKey v]? ≠ none := by
    intro l
    induction l with
    | nil => intro out; simp
    | cons s l ih =>
      intro out
      rw [List.foldl_cons, ih, GoMap.getElem?_insert]
      by_cases hs : s.value = v
      · subst hs; simp
      · have : ¬ probabilityKey s.value = probabilityKey v := fun h => hs (probabilityKey_inj h)
        simp only [this, if_false, List.mem_cons, exists_eq_or_imp, hs, false_or]
  rw [gen]
  simp [hn]

omit [Trans F] in
/-- The labels a call on a tree looks up are those of the returned row. -/
theorem tree_lookups {m : TreeModel F} (hk : KeysOk m.outKeys) {v : String}
    (ht : m.targetField ≠ probabilityKey v) (c : Cell) (o : MapOrd) (row : Row F) :
    (c, v) ∈ (m.prog c o row).lookups ↔
      ∃ out x, (m.evaluate o row).res = .ok (some out) ∧ out["probability(" ++ v ++ ")"]? = some x := by
  have nil : ∀ {a : Res (Out F) × Row F} {r : Res (Out F)}, (∀ out x, r = .ok (some out) →
      out["probability(" ++ v ++ ")"]? = some x → False) →
      ((c, v) ∈ (Prog.done a).lookups ↔
        ∃ out x, r = .ok (some out) ∧ out["probability(" ++ v ++ ")"]? = some x) := by
    intro a r h
    simp only [Prog.lookups, List.not_mem_nil, false_iff]
    rintro ⟨out, x, h1, h2⟩
    exact h out x h1 h2
  unfold TreeModel.prog TreeModel.evaluate
  by_cases hv : m.validated = true
  swap
  · rw [if_pos hv, if_pos hv]; exact nil (by rintro _ _ ⟨⟩)
  by_cases hc : m.compiled = true
  swap
  · rw [if_neg (not_not.mpr hv), if_pos hc, if_neg (not_not.mpr hv), if_pos hc]; exact nil (by rintro _ _ ⟨⟩)
  rw [if_neg (not_not.mpr hv), if_neg (not_not.mpr hc), if_neg (not_not.mpr hv), if_neg (not_not.mpr hc)]
  rcases handleInput m.model.localTransformations row with ⟨_ | ⟨⟨⟩⟩, row'⟩
  · exact nil (by rintro _ _ ⟨⟩)
  simp only
  cases evalNode m.ctx o row' m.root with
  | error e => exact nil (by rintro _ _ ⟨⟩)
  | ok a =>
    simp only
    unfold TreeModel.output TreeModel.outputProg
    split_ifs with hr
    · cases m.model.functionName with
      | classification =>
        simp only
        rw [(((outLoop_call c a.1 _).bind (f := fun out => Prog.done ((Except.ok (some out) : Res (Out F)))) .done).bind
            (f := fun r => Prog.done (r, row')) .done).lookups,
          (outLoop_eq a.1 _ _ hk).1]
        have := foldl_key (l := a.1) (v := v) (out := (∅ : GoMap (GoVal F)).insert m.targetField
          (.str (pickBest a.1).value)) (by rw [GoMap.getElem?_insert, if_neg ht]; simp)
        simp only [List.append_nil, List.mem_map, Prod.mk.injEq, true_and]
        rw [← this, Option.ne_none_iff_exists']
        constructor
        · rintro ⟨x, hx⟩; exact ⟨_, x, rfl, hx⟩
        · rintro ⟨out, x, ⟨⟩, hx⟩; exact ⟨x, hx⟩
      | regression =>
        cases a.1 with
        | nil => exact nil (by rintro _ _ ⟨⟩)
        | cons s l =>
          cases hp : Lib.parseFloat (F := F) s.value with
          | none => simp only [hp]; exact nil (by rintro _ _ ⟨⟩)
          | some x =>
            simp only [hp]
            refine nil ?_
            rintro _ y ⟨⟩ hy
            rw [GoMap.getElem?_insert, if_neg (show ¬ "score" = "probability(" ++ v ++ ")" from score_ne_key v)] at hy
            simp at hy
      | other s =>
        refine nil ?_
        rintro _ y ⟨⟩ hy
        simp at hy
    · exact nil (by rintro _ _ ⟨⟩)

omit [Trans F] in
/-- A call on a tree looks up nothing but in its own cache. -/
theorem tree_cells (m : TreeModel F) (c : Cell) (o : MapOrd) (row : Row F) :
    ∀ x ∈ (m.prog c o row).lookups, x.1 = c := by
  unfold TreeModel.prog
  split_ifs
  · rcases handleInput m.model.localTransformations row with ⟨_ | ⟨⟨⟩⟩, row'⟩
    · simp [Prog.lookups]
    · simp only
      cases evalNode m.ctx o row' m.root with
      | error e => simp [Prog.lookups]
      | ok a =>
        simp only
        unfold TreeModel.outputProg
        split_ifs
        · cases m.model.functionName with
          | classification =>
            simp only
            rw [(((outLoop_call c a.1 _).bind (f := fun out => Prog.done ((Except.ok (some out) : Res (Out F)))) .done).bind
              (f := fun r => Prog.done (r, row')) .done).lookups]
            intro x hx
            simp only [List.append_nil, List.mem_map] at hx
            obtain ⟨s, -, rfl⟩ := hx
            rfl
          | regression =>
            cases a.1 with
            | nil => simp [Prog.bind, Prog.lookups]
            | cons s l => cases hp : Lib.parseFloat (F := F) s.value <;> simp [hp, Prog.bind, Prog.lookups]
          | other s => simp [Prog.bind, Prog.lookups]
        · simp [Prog.bind, Prog.lookups]
  · simp [Prog.lookups]
  · simp [Prog.lookups]

omit [Trans F] in
theorem newModel_tree {dd : List DataField} {d : TreeDoc F} {td td' : TD F} {m : EModel F}
    (h : newModel dd (.tree d) td = (.ok m, td')) :
    ∃ t : TreeModel F, m = .tree t ∧ t.outKeys = ∅ ∧ t.targetField = targetOf d.miningFields := by
  rw [newModel] at h
  rcases ht : newTreeModel dd td d with ⟨_ | t, td1⟩ <;> rw [ht] at h
  · simp at h
  · simp at h; obtain ⟨rfl, -⟩ := h
    obtain ⟨-, -, -, -, hk, -, htf, -⟩ := newTreeModel_ok ht
    exact ⟨t, rfl, hk, htf⟩

theorem reports_iff {dd : List DataField} {d : TreeDoc F} {td td' : TD F} {m : EModel F}
    (h : newModel dd (.tree d) td = (.ok m, td'))
    (hn : ∀ v, targetOf d.miningFields ≠ "probability(" ++ v ++ ")") (o : MapOrd) (row : Row F) (x : Cell × String) :
    x ∈ (EModel.prog [] o m row).lookups ↔ x.1 = [] ∧ Reports m o row x.2 := by
  obtain ⟨t, rfl, hk, htf⟩ := newModel_tree h
  have hk' : KeysOk t.outKeys := by rw [hk]; exact keysOk_empty
  have key : ∀ v, ([], v) ∈ (t.prog [] o row).lookups ↔ Reports (.tree t) o row v := by
    intro v
    rw [tree_lookups hk' (v := v) (by rw [htf]; exact hn v) [] o row]
    unfold Reports
    rw [EModel.evaluate]
  obtain ⟨c, v⟩ := x
  rw [EModel.prog]
  constructor
  · intro hx
    have := tree_cells t [] o row _ hx
    simp only at this
    subst this
    exact ⟨rfl, (key v).mp hx⟩
  · rintro ⟨hc, hx⟩
    simp only at hc
    subst hc
    exact (key v).mpr hx

/-- **C27** (warm trees, in terms of returned rows): a tree whose target is not itself named like a
probability.  If every label that any of the concurrent calls reports was reported by a call made
before, no goroutine ever writes to the cache, the cache stays as it is, and there is no race. -/
theorem C27_warm_tree {dd : List DataField} {d : TreeDoc F} {td td' : TD F} {m : EModel F}
    (h : newModel dd (.tree d) td = (.ok m, td'))
    (hn : ∀ v, targetOf d.miningFields ≠ "probability(" ++ v ++ ")") {σ : Store} (hσ : StoreOk σ)
    (hist : List (MapOrd × Row F)) (calls : ι → MapOrd × Row F)
    (hw : ∀ i v, Reports m (calls i).1 (calls i).2 v → ∃ c ∈ hist, Reports m c.1 c.2 v)
    {s : Sys ι (Res (Out F) × Row F)}
    (hr : Reach (Sys.init (cachesAfter m σ hist) fun i => EModel.prog [] (calls i).1 m (calls i).2) s) :
    s.store = cachesAfter m σ hist ∧ (∀ i, (s.threads i).writing = none) ∧ ¬ s.Race := by
  refine C27_warm h hσ hist calls (fun i x hx => ?_) hr
  obtain ⟨h1, h2⟩ := (reports_iff h hn _ _ x).mp hx
  obtain ⟨c, hc, hcx⟩ := hw i x.2 h2
  exact ⟨c, hc, (reports_iff h hn _ _ x).mpr ⟨h1, hcx⟩⟩

/-- **C27** (cold trees): on a tree just constructed, any two concurrent calls that report a
probability can be inside a write to the cache at the same time.  So Evaluate is not safe for
concurrent use. -/
theorem C27_cold_tree {dd : List DataField} {d : TreeDoc F} {td td' : TD F} {m : EModel F}
    (h : newModel dd (.tree d) td = (.ok m, td'))
    (hn : ∀ v, targetOf d.miningFields ≠ "probability(" ++ v ++ ")") {σ : Store} (hσ : StoreOk σ)
    (ha : Agrees σ [] m) (calls : ι → MapOrd × Row F) {i j : ι} (hij : i ≠ j) {v w : String}
    (hi : Reports m (calls i).1 (calls i).2 v) (hj : Reports m (calls j).1 (calls j).2 w) :
    ∃ s, Reach (Sys.init σ fun i => EModel.prog [] (calls i).1 m (calls i).2) s ∧ s.Race := by
  have empty : ∀ u : String, (σ [])[u]? = none := by
    obtain ⟨t, rfl, hk, -⟩ := newModel_tree h
    rw [Agrees, hk] at ha
    intro u
    rw [ha]
    simp
  have find : ∀ o row v, Reports m o row v → ∃ u, (EModel.prog [] o m row).lookups.find?
      (fun x => (σ x.1)[x.2]? = none) = some ([], u) := by
    intro o row v hv
    have hmem := (reports_iff h hn o row ([], v)).mpr ⟨rfl, hv⟩
    cases hl : (EModel.prog [] o m row).lookups with
    | nil => rw [hl] at hmem; simp at hmem
    | cons x l =>
      obtain ⟨c, u⟩ := x
      have := ((reports_iff h hn o row (c, u)).mp (by rw [hl]; simp)).1
      simp only at this
      subst this
      exact ⟨u, by rw [List.find?_cons]; simp [empty]⟩
  obtain ⟨v', hv'⟩ := find _ _ _ hi
  obtain ⟨w', hw'⟩ := find _ _ _ hj
  exact C27_cold h hσ calls hij hv' hw'

end

section Examples
open Replay

/-- The golf tree with counts (tree_test.go:119-163). -/
abbrev golf : TreeDoc F64 := Replay.doc .weightedConfidence "1" Replay.golfCounts

-- C27: the golf tree is constructed, and a call with outlook = sunny reports three labels, as does
-- one with outlook = rain: two such calls race on the fresh tree (C27_cold_tree), and after one
-- call of either no call that reports only these labels writes (C27_warm_tree).
example : (newModel Replay.dd (.tree golf) []).1.isOk ∧
    (match newModel (F := F64) Replay.dd (.tree golf) [] with
      | (.ok (.tree t), _) =>
        decide (t.targetField = "whatIdo" ∧
          lookup (t.evaluate .sorted (some (mk [("outlook", .str "sunny")]))).res "probability(no play)" ≠ none ∧
          lookup (t.evaluate .sorted (some (mk [("outlook", .str "rain")]))).res "probability(no play)" ≠ none ∧
          (t.prog [] .sorted (some (mk [("outlook", .str "rain")]))).lookups =
            [([], "will play"), ([], "may play"), ([], "no play")])
      | _ => false) = true := by decide +kernel
example (v : String) : targetOf golf.miningFields ≠ "probability(" ++ v ++ ")" := by
  intro h
  have := congrArg (fun s => s.toList.head?) h
  rw [show targetOf golf.miningFields = "whatIdo" by decide +kernel] at this
  simp [String.toList_append] at this

end Examples

end Gopmml.Props
