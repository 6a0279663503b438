import Verif.Proofs.Cost
import Verif.Props.SharedDoc

/-!
# C90: every call ends after a bounded number of steps of its own
-/

namespace Gopmml
open Spec

section
variable {F α : Type}

/-- An access never leaves a program as it is. -/
theorem access_ne {p : DocProg F α} : ∀ {p' : DocProg F α} {td td' : TD F} {σ σ' : Consts F},
    Access p td σ p' td' σ' → p' ≠ p := by
  induction p with
  | done a => intro p' td td' σ σ' h; cases h
  | read k ih =>
    intro p' td td' σ σ' h e
    cases h
    have : Access (k td) td σ (k td) td σ := by
      have := Access.read (k := k) (td := td) (σ := σ)
      rwa [← e] at this
    exact ih td this rfl
  | write t k ih =>
    intro p' td td' σ σ' h e
    cases h
    have : Access k td σ k t σ := by
      have := Access.write (td' := t) (k := k) (td := td) (σ := σ)
      rwa [← e] at this
    exact ih this rfl
  | store c k ih =>
    intro p' td td' σ σ' h e
    cases h
    have : Access k td σ k td σ := by
      have := Access.store (c := c) (k := k) (td := td) (σ := σ)
      rwa [← e] at this
    exact ih this rfl
  | const l v k ih =>
    intro p' td td' σ σ' h e
    cases h
    have : Access k td σ k td (Function.update σ l v) := by
      have := Access.const (l := l) (v := v) (k := k) (td := td) (σ := σ)
      rwa [← e] at this
    exact ih this rfl
  | look l k ih =>
    intro p' td td' σ σ' h e
    cases h
    have : Access (k (σ l)) td σ (k (σ l)) td σ := by
      have := Access.look (l := l) (k := k) (td := td) (σ := σ)
      rwa [← e] at this
    exact ih _ this rfl

/-- A program is done or can go on, whatever is in memory. -/
theorem access_or_done (p : DocProg F α) (td : TD F) (σ : Consts F) :
    (∃ a, p = .done a) ∨ ∃ p' td' σ', Access p td σ p' td' σ' := by
  cases p with
  | done a => exact .inl ⟨a, rfl⟩
  | read k => exact .inr ⟨_, _, _, .read⟩
  | write t k => exact .inr ⟨_, _, _, .write⟩
  | store c k => exact .inr ⟨_, _, _, .store⟩
  | const l v k => exact .inr ⟨_, _, _, .const⟩
  | look l k => exact .inr ⟨_, _, _, .look⟩

/-- The accesses a program makes when it runs alone. -/
def DocProg.count : DocProg F α → TD F → Consts F → Nat
  | .done _, _, _ => 0
  | .read k, td, σ => (k td).count td σ + 1
  | .write td k, _, σ => k.count td σ + 1
  | .store _ k, td, σ => k.count td σ + 1
  | .const l v k, td, σ => k.count td (Function.update σ l v) + 1
  | .look l k, td, σ => (k (σ l)).count td σ + 1

theorem Lasts.count {Q : Nat → α → Prop} {p : DocProg F α} {n : Nat} (h : Lasts Q p n) (td : TD F) (σ : Consts F) :
    p.count td σ ≤ n := by
  induction p generalizing n td σ with
  | done a => exact Nat.zero_le _
  | read k ih => obtain ⟨m, rfl, h⟩ := h; exact Nat.succ_le_succ (ih td (h td) td σ)
  | write t k ih => obtain ⟨m, rfl, h⟩ := h; exact Nat.succ_le_succ (ih h _ _)
  | store c k ih => obtain ⟨m, rfl, h⟩ := h; exact Nat.succ_le_succ (ih h _ _)
  | const l v k ih => obtain ⟨m, rfl, h⟩ := h; exact Nat.succ_le_succ (ih h _ _)
  | look l k ih => obtain ⟨m, rfl, h⟩ := h; exact Nat.succ_le_succ (ih _ (h _) _ _)

theorem Lasts.run {Q : Nat → α → Prop} {p : DocProg F α} {n : Nat} (h : Lasts Q p n) (td : TD F) (σ : Consts F) :
    ∃ r, Q r (p.run td σ).1 := by
  induction p generalizing n td σ with
  | done a => exact ⟨n, h⟩
  | read k ih => obtain ⟨m, -, h⟩ := h; exact ih td (h td) td σ
  | write t k ih => obtain ⟨m, -, h⟩ := h; exact ih h _ _
  | store c k ih => obtain ⟨m, -, h⟩ := h; exact ih h _ _
  | const l v k ih => obtain ⟨m, -, h⟩ := h; exact ih h _ _
  | look l k ih => obtain ⟨m, -, h⟩ := h; exact ih _ (h _) _ _

mutual
theorem shaped_way {b k : Nat} : {d : Nat} → (n : Node F) → shaped b k d n = true → wayTests n ≤ k * b * d
  | d, .mk _ _ _ _ _ nodes pred, h => by
    rw [shaped, Bool.and_eq_true, Bool.and_eq_true, decide_eq_true_iff, decide_eq_true_iff] at h
    rw [wayTests]
    cases nodes with
    | nil => rw [childTests, deepestTests]; exact Nat.zero_le _
    | cons x xs =>
      cases d with
      | zero => rw [shapedAll] at h; exact absurd h.2 (by simp)
      | succ d =>
        obtain ⟨h1, h2⟩ := shapedAll_way (x :: xs) h.2
        have h3 : k * (x :: xs).length ≤ k * b := Nat.mul_le_mul_left k h.1.1
        rw [Nat.mul_succ]
        omega
theorem shapedAll_way {b k : Nat} : {d : Nat} → (ns : List (Node F)) → shapedAll b k (d + 1) ns = true →
    childTests ns ≤ k * ns.length ∧ deepestTests ns ≤ k * b * d
  | d, [], h => by rw [childTests, deepestTests]; exact ⟨Nat.zero_le _, Nat.zero_le _⟩
  | d, .mk id dc score rc dists nodes pred :: ns, h => by
    rw [shapedAll, Bool.and_eq_true] at h
    obtain ⟨h1, h2⟩ := shapedAll_way ns h.2
    have h3 := shaped_way _ h.1
    have h4 := h.1
    rw [shaped, Bool.and_eq_true, Bool.and_eq_true, decide_eq_true_iff, decide_eq_true_iff] at h4
    rw [childTests, deepestTests, List.length_cons, Nat.mul_succ]
    exact ⟨by omega, max_le h3 h2⟩
end

end

namespace Props
open Replay Samples

section
variable {F : Type} [Arith F] [Trans F] [Lib F] {ι : Type} [DecidableEq ι]

/-- **C90**: a call that runs alone: building a model takes at most `elemWork` accesses to the document, whatever
is in it, and a prediction at most two for each of the `elemTests` comparisons: a look whether there is a constant
and a look at it. -/
theorem C90_alone (dd : List DataField) (e : ModelElem F) (c : Cell) (td : TD F) (σ : Consts F) :
    (e.docProg c dd).count td σ ≤ elemWork e ∧
      ∀ {td0 td1 : TD F} {m : EModel F}, newModel dd e td0 = (.ok m, td1) → ∀ (o : MapOrd) (row : Row F),
        (EModel.lookProg c o m row).count td σ ≤ 2 * elemTests e := by
  refine ⟨(docProg_lasts dd e c 0 _ le_rfl).count td σ, ?_⟩
  intro td0 td1 m hm o row
  obtain ⟨r, -, h⟩ := (docProg_lasts dd e c 0 _ le_rfl).run td0 σ
  rw [(docProg_run dd e c td0 σ).1, hm] at h
  exact (lookProg_lasts m c o row 0 _ (by rw [h m rfl]; exact le_rfl)).count td σ

/-- **C90**: with the strategies that give up at an unknown test (and with none) a prediction goes down one way
only: a tree of depth `d` with at most `b` children to a node and at most `k` comparisons to a test needs at most
`k * (1 + b * d)` comparisons, however many nodes it has. -/
theorem C90_one_way {dd : List DataField} {t : TreeDoc F} {b k d : Nat} (hs : shaped b k d t.node = true)
    (hm : t.missingValueStrategy ≠ .lastPrediction ∧ t.missingValueStrategy ≠ .defaultChild ∧
      t.missingValueStrategy ≠ .weightedConfidence ∧ t.missingValueStrategy ≠ .aggregateNodes)
    {td0 td1 : TD F} {m : EModel F} (hb : newModel dd (.tree t) td0 = (.ok m, td1)) (c : Cell) (td : TD F)
    (σ : Consts F) (o : MapOrd) (row : Row F) :
    (EModel.lookProg c o m row).count td σ ≤ 2 * (k * (1 + b * d)) := by
  refine ((C90_alone dd (.tree t) c td σ).2 hb o row).trans (Nat.mul_le_mul_left 2 ?_)
  have h1 := shaped_way _ hs
  rw [elemTests, docTests]
  obtain ⟨fn, pen, strat, ntc, lt, mf, ver, node⟩ := t
  obtain ⟨id, dc, score, rc, dists, nodes, pred⟩ := node
  have h2 := hs
  rw [shaped, Bool.and_eq_true, Bool.and_eq_true, decide_eq_true_iff, decide_eq_true_iff] at h2
  rw [Nat.mul_add, Nat.mul_one, ← Nat.mul_assoc]
  obtain ⟨m1, m2, m3, m4⟩ := hm
  cases strat <;> first
    | exact absurd rfl m1
    | exact absurd rfl m2
    | exact absurd rfl m3
    | exact absurd rfl m4
    | exact Nat.add_le_add h2.1.2 h1

/-- What a call may need, counted on the document: building a model `elemWork`, evaluating it two accesses for
every comparison. -/
def limit (es : Nat → ModelElem F) : Worker F → Nat
  | .idle => 0
  | .building n _ => elemWork (es n)
  | .evaluating n _ _ _ => 2 * elemTests (es n)

/-- Goroutine `i` makes `k` accesses of one call, while the others do what they like. -/
inductive During (dd : List DataField) (es : Nat → ModelElem F) (i : ι) (w : World F ι) : Nat → World F ι → Prop
  | start : During dd es i w 0 w
  | other {k u v} : During dd es i w k u → WorldStep dd es u v → v.workers i = u.workers i → During dd es i w k v
  | own {k u v} : During dd es i w k u → WorldStep dd es u v → v.workers i ≠ u.workers i → v.workers i ≠ .idle →
      During dd es i w (k + 1) v

/-- What evaluators and calls in progress have in common with the document. -/
def Sized (es : Nat → ModelElem F) (w : World F ι) : Prop :=
  (∀ x ∈ w.built, mTests x.2 = elemTests (es x.1)) ∧
    ∀ i n p, w.workers i = .building n p →
      ∃ r, Lasts (fun _ a => ∀ m, a = .ok m → mTests m = elemTests (es n)) p r

omit [Trans F] [Arith F] [Lib F] in
theorem sized_update {es : Nat → ModelElem F} {ws : ι → Worker F} {i : ι} {g : Worker F}
    (h : ∀ i n p, ws i = .building n p →
      ∃ r, Lasts (fun _ a => ∀ m, a = .ok m → mTests m = elemTests (es n)) p r)
    (hg : ∀ n p, g = .building n p →
      ∃ r, Lasts (fun _ a => ∀ m, a = .ok m → mTests m = elemTests (es n)) p r) :
    ∀ j n p, Function.update ws i g j = .building n p →
      ∃ r, Lasts (fun _ a => ∀ m, a = .ok m → mTests m = elemTests (es n)) p r := by
  intro j n p hj
  by_cases e : j = i
  · rw [e, Function.update_self] at hj; exact hg n p hj
  · rw [Function.update_of_ne e] at hj; exact h j n p hj

theorem sized_step {dd : List DataField} {es : Nat → ModelElem F} {w w' : World F ι} (h : Sized es w)
    (hs : WorldStep dd es w w') : Sized es w' := by
  cases hs with
  | build n hi =>
    refine ⟨h.1, sized_update h.2 ?_⟩
    intro n p hg
    cases hg
    exact ⟨_, (docProg_lasts dd (es n) [n] 0 _ le_rfl).mono fun r a h => h.2⟩
  | evaluate o row hi hm => exact ⟨h.1, sized_update h.2 (by intro n p hg; cases hg)⟩
  | buildAccess hi ha =>
    refine ⟨h.1, sized_update h.2 ?_⟩
    intro n p hg
    cases hg
    obtain ⟨r, hr⟩ := h.2 _ _ _ hi
    obtain ⟨m, -, hm⟩ := hr.access ha
    exact ⟨m, hm⟩
  | evaluateAccess hi ha => exact ⟨h.1, sized_update h.2 (by intro n p hg; cases hg)⟩
  | built hi =>
    refine ⟨?_, sized_update h.2 (by intro n p hg; cases hg)⟩
    intro x hx
    rcases List.mem_cons.mp hx with rfl | hx
    · obtain ⟨r, hr⟩ := h.2 _ _ _ hi
      exact hr _ rfl
    · exact h.1 x hx
  | failed hi => exact ⟨h.1, sized_update h.2 (by intro n p hg; cases hg)⟩
  | answered hi => exact ⟨h.1, sized_update h.2 (by intro n p hg; cases hg)⟩

theorem sized_reach {dd : List DataField} {es : Nat → ModelElem F} {td : TD F} {σ : Consts F} {w : World F ι}
    (hw : WorldReach dd es (.init td σ) w) : Sized es w := by
  induction hw with
  | refl => exact ⟨by simp [World.init], by intro i n p h; cases h⟩
  | step _ hs ih => exact sized_step ih hs

/-- The call that `g` began goes on as `g'`, with at most `r` accesses to go. -/
inductive Goes (r : Nat) : Worker F → Worker F → Prop
  | building {n p p'} : Lasts (fun _ _ => True) p' r → Goes r (.building n p) (.building n p')
  | evaluating {n o row p p'} : Lasts (fun _ _ => True) p' r →
      Goes r (.evaluating n o row p) (.evaluating n o row p')

/-- **C90**: in every execution, whatever the other goroutines do in between and whatever constants and
dictionaries they leave behind, a call makes no more accesses to shared memory than `limit` says: the document
says how many. (Fields may have two types here.) -/
theorem C90_bounded {dd : List DataField} {es : Nat → ModelElem F} {td : TD F} {σ : Consts F} {w w' u : World F ι}
    (hr : WorldReach dd es (.init td σ) w) (hs : WorldStep dd es w w') {i : ι} (hi : w.workers i = .idle)
    (hi' : w'.workers i ≠ .idle) {k : Nat} (hd : During dd es i w' k u) : k ≤ limit es (w'.workers i) := by
  have h0 : Goes (limit es (w'.workers i)) (w'.workers i) (w'.workers i) := by
    have other : ∀ {j : ι} {g : Worker F}, (Function.update w.workers j g) i ≠ .idle → j = i := by
      intro j g h
      by_contra e
      rw [Function.update_of_ne (Ne.symm e)] at h
      exact h hi
    cases hs with
    | build n hj =>
      obtain rfl := other hi'
      simp only [Function.update_self]
      exact .building ((docProg_lasts dd (es n) [n] 0 _ le_rfl).mono fun _ _ _ => trivial)
    | @evaluate j n m o row hj hm =>
      obtain rfl := other hi'
      simp only [Function.update_self]
      have hb := (sized_reach hr).1 _ hm
      exact .evaluating ((lookProg_lasts m [n] o row 0 _ (by rw [hb]; exact le_rfl)).mono fun _ _ _ => trivial)
    | buildAccess hj ha => obtain rfl := other hi'; rw [hi] at hj; cases hj
    | evaluateAccess hj ha => obtain rfl := other hi'; rw [hi] at hj; cases hj
    | built hj => obtain rfl := other hi'; rw [hi] at hj; cases hj
    | failed hj => obtain rfl := other hi'; rw [hi] at hj; cases hj
    | answered hj => obtain rfl := other hi'; rw [hi] at hj; cases hj
  suffices h : ∃ r, k + r = limit es (w'.workers i) ∧ Goes r (w'.workers i) (u.workers i) by
    obtain ⟨r, h, -⟩ := h
    omega
  generalize hg : w'.workers i = g at h0 ⊢
  generalize limit es g = l at h0 ⊢
  induction hd with
  | start => rw [hg]; exact ⟨l, Nat.zero_add l, h0⟩
  | other _ _ h ih => rw [h]; exact ih
  | @own k u v _ hs hne hid ih =>
    obtain ⟨r, hk, hgo⟩ := ih
    have same : ∀ {j : ι} {x : Worker F}, (Function.update u.workers j x) i ≠ u.workers i → j = i := by
      intro j x h
      by_contra e
      rw [Function.update_of_ne (Ne.symm e)] at h
      exact h rfl
    cases hs with
    | build n hj => obtain rfl := same hne; rw [hj] at hgo; cases hgo
    | evaluate o row hj hm => obtain rfl := same hne; rw [hj] at hgo; cases hgo
    | buildAccess hj ha =>
      obtain rfl := same hne
      rw [hj] at hgo
      simp only [Function.update_self]
      cases hgo with
      | building hl =>
        obtain ⟨m, rfl, hm⟩ := hl.access ha
        exact ⟨m, by omega, .building hm⟩
    | evaluateAccess hj ha =>
      obtain rfl := same hne
      rw [hj] at hgo
      simp only [Function.update_self]
      cases hgo with
      | evaluating hl =>
        obtain ⟨m, rfl, hm⟩ := hl.access ha
        exact ⟨m, by omega, .evaluating hm⟩
    | built hj => obtain rfl := same hne; simp only [Function.update_self] at hid; exact absurd rfl hid
    | failed hj => obtain rfl := same hne; simp only [Function.update_self] at hid; exact absurd rfl hid
    | answered hj => obtain rfl := same hne; simp only [Function.update_self] at hid; exact absurd rfl hid

/-- **C90**: nothing another goroutine does keeps a call from going on: in every world, a goroutine inside a call
has a step of its own, an access or the return from the call. With `C90_bounded`, every call returns after a
bounded number of its own steps. -/
theorem C90_never_blocked (dd : List DataField) (es : Nat → ModelElem F) (w : World F ι) (i : ι)
    (hi : w.workers i ≠ .idle) : ∃ w', WorldStep dd es w w' ∧ w'.workers i ≠ w.workers i := by
  cases hg : w.workers i with
  | idle => exact absurd hg hi
  | building n p =>
    rcases access_or_done p w.dict w.consts with ⟨a, rfl⟩ | ⟨p', td', σ', ha⟩
    · cases a with
      | ok m => exact ⟨_, .built hg, by simp⟩
      | error f => exact ⟨_, .failed hg, by simp⟩
    · refine ⟨_, .buildAccess hg ha, ?_⟩
      simp only [Function.update_self, ne_eq, Worker.building.injEq, true_and]
      exact access_ne ha
  | evaluating n o row p =>
    rcases access_or_done p w.dict w.consts with ⟨a, rfl⟩ | ⟨p', td', σ', ha⟩
    · exact ⟨_, .answered hg, by simp⟩
    · refine ⟨_, .evaluateAccess hg ha, ?_⟩
      simp only [Function.update_self, ne_eq, Worker.evaluating.injEq, true_and]
      exact access_ne ha

end

/-! ## A tree of seven nodes -/

/-- Two comparisons at every node, on two levels. -/
def bushy (s : MissingValueStrategy) : ModelElem F64 :=
  .tree { regTree "1" "10" with
    missingValueStrategy := s
    node := .mk "" "" "0" (num "0") [] [
      .mk "" "" "1" (num "0") [] [
        .mk "" "" "2" (num "0") [] [] (some (sp "x" .lessThan "1")),
        .mk "" "" "3" (num "0") [] [] (some (sp "x" .greaterOrEqual "1"))] (some (sp "x" .lessThan "2")),
      .mk "" "" "4" (num "0") [] [
        .mk "" "" "5" (num "0") [] [] (some (sp "x" .lessThan "3")),
        .mk "" "" "6" (num "0") [] [] (some (sp "x" .greaterOrEqual "3"))] (some (sp "x" .greaterOrEqual "2"))]
      (some .true_) }

/-- The accesses of building it and of one prediction, alone. -/
def bushyCount (s : MissingValueStrategy) (x : String) : Option (Nat × Nat) :=
  let p := (bushy s).docProg [0] clashDD
  match p.run [] (fun _ => .nil) with
  | (.ok m, td, σ) =>
    some (p.count [] (fun _ => .nil), (EModel.lookProg [0] .sorted m (some (mk [("x", .f64 (num x))]))).count td σ)
  | _ => none

/-- The bounds are reached: of six comparisons only four are made, at two accesses each. -/
example : elemTests (bushy .none) = 4 ∧ elemTests (bushy .lastPrediction) = 6 ∧
    bushyCount .none "5" = some (elemWork (bushy .none), 2 * 4) ∧
    bushyCount .nullPrediction "1" = some (elemWork (bushy .none), 2 * 3) := by
  decide +kernel

example : shaped 2 1 2 (match bushy .none with | .tree t => t.node | _ => .mk "" "" "" (num "0") [] [] none) = true := by
  decide +kernel

/-- Goroutine 0 begins to build it; goroutine 1 begins too, and goroutine 0 makes its first access. -/
example : ∃ w w' u : World F64 Nat, WorldReach clashDD (fun _ => bushy .none) (.init [] fun _ => .nil) w ∧
    WorldStep clashDD (fun _ => bushy .none) w w' ∧ w.workers 0 = .idle ∧ w'.workers 0 ≠ .idle ∧
    During clashDD (fun _ => bushy .none) 0 w' 1 u ∧ u.workers 1 ≠ .idle := by
  refine ⟨_, _, _, .refl, .build (i := 0) 0 rfl, rfl, by simp,
    .own (.other .start (.build (i := 1) 0 rfl) (by simp))
      (.buildAccess (i := 0) (n := 0) (by simp; rfl) .store) ?_ ?_, ?_⟩
  · simp only [Function.update_self, ne_eq, Worker.building.injEq, true_and, Function.update_of_ne (show (0 : Nat) ≠ 1 by decide)]
    exact fun h => by cases h
  all_goals simp

end Props
end Gopmml
