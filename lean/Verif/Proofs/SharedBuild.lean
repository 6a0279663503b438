import Verif.Proofs.SharedDoc

/-!
# Building evaluators from a shared document
-/

namespace Gopmml
open Spec

variable {F α β : Type}

/-! ## No two predicates are at the same place -/

mutual
theorem sitesPred_at : (p : Pred F) → (l : Loc) → ∀ x ∈ sitesPred l p,
    x.1.cell = l.cell ∧ x.1.node = l.node ∧ l.pred <:+ x.1.pred
  | .simple p, l, x, h => by
    rw [sitesPred, List.mem_singleton] at h
    rw [h]
    exact ⟨rfl, rfl, List.suffix_refl _⟩
  | .compound _ ps, l, x, h => by
    rw [sitesPred] at h
    obtain ⟨h1, h2, j, -, h3⟩ := sitesPreds_at ps l 0 x h
    exact ⟨h1, h2, (List.suffix_cons j _).trans h3⟩
  | .true_, l, x, h => by rw [sitesPred] at h; cases h
  | .false_, l, x, h => by rw [sitesPred] at h; cases h
  | .set _, l, x, h => by rw [sitesPred] at h; cases h
theorem sitesPreds_at : (ps : List (Pred F)) → (l : Loc) → (i : Nat) → ∀ x ∈ sitesPreds l i ps,
    x.1.cell = l.cell ∧ x.1.node = l.node ∧ ∃ j, i ≤ j ∧ (j :: l.pred) <:+ x.1.pred
  | [], l, i, x, h => by rw [sitesPreds] at h; cases h
  | p :: ps, l, i, x, h => by
    rw [sitesPreds, List.mem_append] at h
    rcases h with h | h
    · obtain ⟨h1, h2, h3⟩ := sitesPred_at p _ x h
      exact ⟨h1, h2, i, le_refl _, h3⟩
    · obtain ⟨h1, h2, j, hj, h3⟩ := sitesPreds_at ps l (i + 1) x h
      exact ⟨h1, h2, j, by omega, h3⟩
end

mutual
theorem sitesPred_inj : (p : Pred F) → (l : Loc) → ∀ x ∈ sitesPred l p, ∀ y ∈ sitesPred l p, x.1 = y.1 → x = y
  | .simple p, l, x, h, y, h', _ => by
    rw [sitesPred, List.mem_singleton] at h h'
    rw [h, h']
  | .compound _ ps, l, x, h, y, h', e => by
    rw [sitesPred] at h h'
    exact sitesPreds_inj ps l 0 x h y h' e
  | .true_, l, x, h, _, _, _ => by rw [sitesPred] at h; cases h
  | .false_, l, x, h, _, _, _ => by rw [sitesPred] at h; cases h
  | .set _, l, x, h, _, _, _ => by rw [sitesPred] at h; cases h
theorem sitesPreds_inj : (ps : List (Pred F)) → (l : Loc) → (i : Nat) → ∀ x ∈ sitesPreds l i ps,
    ∀ y ∈ sitesPreds l i ps, x.1 = y.1 → x = y
  | [], l, i, x, h, _, _, _ => by rw [sitesPreds] at h; cases h
  | p :: ps, l, i, x, h, y, h', e => by
    rw [sitesPreds, List.mem_append] at h h'
    rcases h with h | h <;> rcases h' with h' | h'
    · exact sitesPred_inj p _ x h y h' e
    · obtain ⟨-, -, h3⟩ := sitesPred_at p _ x h
      obtain ⟨-, -, j, hj, h4⟩ := sitesPreds_at ps l (i + 1) y h'
      rw [e] at h3
      have := suffix_cons_inj h3 h4
      omega
    · obtain ⟨-, -, h3⟩ := sitesPred_at p _ y h'
      obtain ⟨-, -, j, hj, h4⟩ := sitesPreds_at ps l (i + 1) x h
      rw [e] at h4
      have := suffix_cons_inj h3 h4
      omega
    · exact sitesPreds_inj ps l (i + 1) x h y h' e
end

theorem sitesTest_at {p : Option (Pred F)} {l : Loc} {x : Loc × SimplePred F} (h : x ∈ sitesTest l p) :
    x.1.cell = l.cell ∧ x.1.node = l.node := by
  cases p with
  | none => rw [sitesTest] at h; cases h
  | some p =>
    obtain ⟨h1, h2, -⟩ := sitesPred_at p l x h
    exact ⟨h1, h2⟩

mutual
theorem sitesNode_at : (n : Node F) → (c : Cell) → (np : List Nat) → ∀ x ∈ sitesNode c np n,
    x.1.cell = c ∧ np <:+ x.1.node
  | .mk _ _ _ _ _ nodes pred, c, np, x, h => by
    rw [sitesNode, List.mem_append] at h
    rcases h with h | h
    · obtain ⟨h1, h2⟩ := sitesTest_at h
      exact ⟨h1, by rw [h2]⟩
    · obtain ⟨h1, j, -, h2⟩ := sitesNodes_at nodes c np 0 x h
      exact ⟨h1, (List.suffix_cons j _).trans h2⟩
theorem sitesNodes_at : (ns : List (Node F)) → (c : Cell) → (np : List Nat) → (i : Nat) →
    ∀ x ∈ sitesNodes c np i ns, x.1.cell = c ∧ ∃ j, i ≤ j ∧ (j :: np) <:+ x.1.node
  | [], c, np, i, x, h => by rw [sitesNodes] at h; cases h
  | n :: ns, c, np, i, x, h => by
    rw [sitesNodes, List.mem_append] at h
    rcases h with h | h
    · obtain ⟨h1, h2⟩ := sitesNode_at n c _ x h
      exact ⟨h1, i, le_refl _, h2⟩
    · obtain ⟨h1, j, hj, h2⟩ := sitesNodes_at ns c np (i + 1) x h
      exact ⟨h1, j, by omega, h2⟩
end

theorem not_cons_suffix {j : Nat} {l : List Nat} (h : (j :: l) <:+ l) : False := by
  have := h.length_le
  simp at this

mutual
theorem sitesNode_inj : (n : Node F) → (c : Cell) → (np : List Nat) → ∀ x ∈ sitesNode c np n,
    ∀ y ∈ sitesNode c np n, x.1 = y.1 → x = y
  | .mk _ _ _ _ _ nodes pred, c, np, x, h, y, h', e => by
    rw [sitesNode, List.mem_append] at h h'
    rcases h with h | h <;> rcases h' with h' | h'
    · cases pred with
      | none => rw [sitesTest] at h; cases h
      | some p => exact sitesPred_inj p _ x h y h' e
    · obtain ⟨-, h1⟩ := sitesTest_at h
      obtain ⟨-, j, -, h2⟩ := sitesNodes_at nodes c np 0 y h'
      rw [← e, h1] at h2
      exact (not_cons_suffix h2).elim
    · obtain ⟨-, h1⟩ := sitesTest_at h'
      obtain ⟨-, j, -, h2⟩ := sitesNodes_at nodes c np 0 x h
      rw [e, h1] at h2
      exact (not_cons_suffix h2).elim
    · exact sitesNodes_inj nodes c np 0 x h y h' e
theorem sitesNodes_inj : (ns : List (Node F)) → (c : Cell) → (np : List Nat) → (i : Nat) →
    ∀ x ∈ sitesNodes c np i ns, ∀ y ∈ sitesNodes c np i ns, x.1 = y.1 → x = y
  | [], c, np, i, x, h, _, _, _ => by rw [sitesNodes] at h; cases h
  | n :: ns, c, np, i, x, h, y, h', e => by
    rw [sitesNodes, List.mem_append] at h h'
    rcases h with h | h <;> rcases h' with h' | h'
    · exact sitesNode_inj n c _ x h y h' e
    · obtain ⟨-, h3⟩ := sitesNode_at n c _ x h
      obtain ⟨-, j, hj, h4⟩ := sitesNodes_at ns c np (i + 1) y h'
      rw [e] at h3
      have := suffix_cons_inj h3 h4
      omega
    · obtain ⟨-, h3⟩ := sitesNode_at n c _ y h'
      obtain ⟨-, j, hj, h4⟩ := sitesNodes_at ns c np (i + 1) x h
      rw [e] at h4
      have := suffix_cons_inj h3 h4
      omega
    · exact sitesNodes_inj ns c np (i + 1) x h y h' e
end

mutual
theorem sitesElem_at : (e : ModelElem F) → (c : Cell) → ∀ x ∈ sitesElem c e, c <:+ x.1.cell
  | .tree d, c, x, h => by
    rw [sitesElem] at h
    rw [(sitesNode_at d.node c [] x h).1]
  | .regression _, c, x, h => by rw [sitesElem] at h; cases h
  | .other _, c, x, h => by rw [sitesElem] at h; cases h
  | .mining _ segs, c, x, h => by
    rw [sitesElem] at h
    obtain ⟨j, -, h1⟩ := sitesSegs_at segs c 0 x h
    exact (List.suffix_cons j _).trans h1
theorem sitesSegs_at : (segs : List (SegDoc F)) → (c : Cell) → (i : Nat) → ∀ x ∈ sitesSegs c i segs,
    ∃ j, i ≤ j ∧ (j :: c) <:+ x.1.cell
  | [], c, i, x, h => by rw [sitesSegs] at h; cases h
  | .mk _ _ [] :: segs, c, i, x, h => by rw [sitesSegs] at h; cases h; simp
  | .mk _ _ (_ :: _ :: _) :: segs, c, i, x, h => by rw [sitesSegs] at h; cases h; simp
  | .mk _ _ [e] :: segs, c, i, x, h => by
    rw [sitesSegs, List.mem_append] at h
    rcases h with h | h
    · exact ⟨i, le_refl _, sitesElem_at e _ x h⟩
    · obtain ⟨j, hj, h1⟩ := sitesSegs_at segs c (i + 1) x h
      exact ⟨j, by omega, h1⟩
end

mutual
theorem sitesElem_inj : (e : ModelElem F) → (c : Cell) → ∀ x ∈ sitesElem c e, ∀ y ∈ sitesElem c e,
    x.1 = y.1 → x = y
  | .tree d, c, x, h, y, h', e => by
    rw [sitesElem] at h h'
    exact sitesNode_inj d.node c [] x h y h' e
  | .regression _, c, x, h, _, _, _ => by rw [sitesElem] at h; cases h
  | .other _, c, x, h, _, _, _ => by rw [sitesElem] at h; cases h
  | .mining _ segs, c, x, h, y, h', e => by
    rw [sitesElem] at h h'
    exact sitesSegs_inj segs c 0 x h y h' e
theorem sitesSegs_inj : (segs : List (SegDoc F)) → (c : Cell) → (i : Nat) → ∀ x ∈ sitesSegs c i segs,
    ∀ y ∈ sitesSegs c i segs, x.1 = y.1 → x = y
  | [], c, i, x, h, _, _, _ => by rw [sitesSegs] at h; cases h
  | .mk _ _ [] :: segs, c, i, x, h, _, _, _ => by rw [sitesSegs] at h; cases h; simp
  | .mk _ _ (_ :: _ :: _) :: segs, c, i, x, h, _, _, _ => by rw [sitesSegs] at h; cases h; simp
  | .mk _ _ [e] :: segs, c, i, x, h, y, h', hxy => by
    rw [sitesSegs, List.mem_append] at h h'
    rcases h with h | h <;> rcases h' with h' | h'
    · exact sitesElem_inj e _ x h y h' hxy
    · have h3 := sitesElem_at e _ x h
      obtain ⟨j, hj, h4⟩ := sitesSegs_at segs c (i + 1) y h'
      rw [hxy] at h3
      have := suffix_cons_inj h3 h4
      omega
    · have h3 := sitesElem_at e _ y h'
      obtain ⟨j, hj, h4⟩ := sitesSegs_at segs c (i + 1) x h
      rw [hxy] at h4
      have := suffix_cons_inj h3 h4
      omega
    · exact sitesSegs_inj segs c (i + 1) x h y h' hxy
end

/-! ## Programs that store only what belongs there -/

/-- Started when the constants at `S` are in place, whatever others do in the meantime as long as they keep the
dictionary within `T` and store only values allowed by `C`: the program does the same, reads only constants
that are in place, and ends with `Q` of what it returns and the places of constants it then knows to be in
place. -/
def Safe (T : TD F → Prop) (C : Loc → GoVal F → Prop) (Q : α → Set Loc → Prop) : Set Loc → DocProg F α → Prop
  | S, .done a => Q a S
  | S, .read k => ∀ td, T td → Safe T C Q S (k td)
  | S, .write td k => T td ∧ Safe T C Q S k
  | S, .store _ k => Safe T C Q S k
  | S, .const l v k => C l v ∧ Safe T C Q (insert l S) k
  | S, .look l k => l ∈ S ∧ ∀ v, C l v → Safe T C Q S (k v)

section
variable {T : TD F → Prop} {C : Loc → GoVal F → Prop}

theorem Safe.bind {Q : α → Set Loc → Prop} {R : β → Set Loc → Prop} {p : DocProg F α} {f : α → DocProg F β}
    {S : Set Loc} (h : Safe T C Q S p) (h' : ∀ a S', S ⊆ S' → Q a S' → Safe T C R S' (f a)) :
    Safe T C R S (p.bind f) := by
  induction p generalizing S with
  | done a => exact h' a S (fun _ h => h) h
  | read k ih => exact fun td ht => ih td (h td ht) h'
  | write td k ih => exact ⟨h.1, ih h.2 h'⟩
  | store c k ih => exact ih h h'
  | const l v k ih =>
    exact ⟨h.1, ih h.2 fun a S' hs => h' a S' ((Set.subset_insert _ _).trans hs)⟩
  | look l k ih => exact ⟨h.1, fun v hv => ih v (h.2 v hv) h'⟩

theorem Safe.andThen {Q : Res α → Set Loc → Prop} {R : Res β → Set Loc → Prop} {p : DocProg F (Res α)}
    {f : α → DocProg F (Res β)} {S : Set Loc} (h : Safe T C Q S p) (he : ∀ e S', R (.error e) S')
    (h' : ∀ a S', S ⊆ S' → Q (.ok a) S' → Safe T C R S' (f a)) : Safe T C R S (p.andThen f) := by
  refine h.bind fun a S' hs hq => ?_
  cases a with
  | error e => exact he e S'
  | ok a => exact h' a S' hs hq

theorem Safe.weaken {Q R : α → Set Loc → Prop} {p : DocProg F α} {S : Set Loc} (h : Safe T C Q S p)
    (h' : ∀ a S', S ⊆ S' → Q a S' → R a S') : Safe T C R S p := by
  induction p generalizing S with
  | done a => exact h' a S (fun _ h => h) h
  | read k ih => exact fun td ht => ih td (h td ht) h'
  | write td k ih => exact ⟨h.1, ih h.2 h'⟩
  | store c k ih => exact ih h h'
  | const l v k ih =>
    exact ⟨h.1, ih h.2 fun a S' hs => h' a S' ((Set.subset_insert _ _).trans hs)⟩
  | look l k ih => exact ⟨h.1, fun v hv => ih v (h.2 v hv) h'⟩

theorem Settles.safe {S : Set Loc} {p : DocProg F α} {a : α} (h : Settles S C p a) :
    Safe T C (fun b _ => b = a) S p := by
  induction h with
  | done => rfl
  | look hl _ ih => exact ⟨hl, ih⟩

/-- The constants at `S` are in place. -/
def InPlace (C : Loc → GoVal F → Prop) (S : Set Loc) (σ : Consts F) : Prop := ∀ l ∈ S, C l (σ l)

/-- One access of such a program. -/
theorem Safe.access {Q : α → Set Loc → Prop} {S : Set Loc} {p p' : DocProg F α} {td td' : TD F} {σ σ' : Consts F}
    (h : Safe T C Q S p) (hT : T td) (hS : InPlace C S σ) (ha : Access p td σ p' td' σ') :
    T td' ∧ (∀ S', InPlace C S' σ → InPlace C S' σ') ∧ ∃ S', InPlace C S' σ' ∧ Safe T C Q S' p' := by
  cases ha with
  | read => exact ⟨hT, fun _ h => h, S, hS, h td hT⟩
  | write => exact ⟨h.1, fun _ h => h, S, hS, h.2⟩
  | store => exact ⟨hT, fun _ h => h, S, hS, h⟩
  | @const l v =>
    have keep : ∀ S', InPlace C S' σ → InPlace C S' (Function.update σ l v) := by
      intro S' hS' l' hl'
      by_cases he : l' = l
      · rw [he, Function.update_self]; exact h.1
      · rw [Function.update_of_ne he]; exact hS' l' hl'
    refine ⟨hT, keep, insert l S, ?_, h.2⟩
    intro l' hl'
    rcases hl' with rfl | hl'
    · rw [Function.update_self]; exact h.1
    · exact keep S hS l' hl'
  | @look l => exact ⟨hT, fun _ h => h, S, hS, h.2 _ (hS l h.1)⟩

/-- Such a program run alone. -/
theorem Safe.run {Q : α → Set Loc → Prop} {S : Set Loc} {p : DocProg F α} {td : TD F} {σ : Consts F}
    (h : Safe T C Q S p) (hT : T td) (hS : InPlace C S σ) :
    T (p.run td σ).2.1 ∧ ∃ S', InPlace C S' (p.run td σ).2.2 ∧ Q (p.run td σ).1 S' := by
  induction p generalizing S td σ with
  | done a => exact ⟨hT, S, hS, h⟩
  | read k ih => exact ih td (h td hT) hT hS
  | write td' k ih => exact ih h.2 h.1 hS
  | store c k ih => exact ih h hT hS
  | const l v k ih =>
    obtain ⟨-, -, S', h1, h2⟩ := h.access hT hS Access.const
    exact ih h2 hT h1
  | look l k ih => exact ih _ (h.2 _ (hS l h.1)) hT hS

end

/-! ## `NewModel` -/

section
variable [Lib F]

/-- What may be stored at a place of the document: the constant of the predicate there, parsed with the type
its field has. -/
def Belongs (ty : String → DataType) (es : Nat → ModelElem F) (l : Loc) (v : GoVal F) : Prop :=
  ∃ n p, (l, p) ∈ sitesElem [n] (es n) ∧ getRawValue (ty p.field) p.value = .ok v

/-- The dictionary gives every field its type. -/
def Typed (ty : String → DataType) (td : TD F) : Prop := ∀ f ∈ td, f.dataType = ty f.name

variable {ty : String → DataType} {es : Nat → ModelElem F}

/-- All of these predicates are predicates of the document. -/
def Within (es : Nat → ModelElem F) (sites : List (Loc × SimplePred F)) : Prop :=
  ∀ x ∈ sites, ∃ n, x ∈ sitesElem [n] (es n)

omit [Lib F] in
theorem within_append {a b : List (Loc × SimplePred F)} (h : Within es (a ++ b)) : Within es a ∧ Within es b :=
  ⟨fun x hx => h x (List.mem_append_left _ hx), fun x hx => h x (List.mem_append_right _ hx)⟩

/-- What a call has achieved that was to give `r`: the same as `c`, and all constants are in place. -/
def Made (c : Res α) (sites : List (Loc × SimplePred F)) (r : Res α) (S : Set Loc) : Prop :=
  ∀ a, r = .ok a → c = .ok a ∧ ∀ x ∈ sites, x.1 ∈ S

mutual
theorem predDoc_safe {types : FieldTypes} (ht : ∀ x dt, types[x]? = some dt → dt = ty x) : (p : Pred F) → (l : Loc) →
    (S : Set Loc) → Within es (sitesPred l p) →
    Safe (Typed ty) (Belongs ty es) (Made (compilePredicate types p) (sitesPred l p)) S (predDoc l types p)
  | .simple p, l, S, hw => by
    rw [predDoc, compilePredicate]
    rw [sitesPred] at hw ⊢
    cases hd : types[p.field]? with
    | none => intro a h; cases h
    | some dt =>
      simp only
      cases hr : getRawValue dt p.value (F := F) with
      | error e => intro a h; cases h
      | ok pv =>
        obtain ⟨n, hn⟩ := hw (l, p) (by simp)
        refine ⟨⟨n, p, hn, ?_⟩, ?_⟩
        · rw [← ht _ _ hd]; exact hr
        · intro a h
          cases h
          exact ⟨rfl, by simp⟩
  | .compound op ps, l, S, hw => by
    rw [predDoc, compilePredicate]
    rw [sitesPred] at hw ⊢
    refine (predsDoc_safe ht ps l 0 S hw).andThen (fun e S' a h => by cases h) fun ps' S' hs hq => ?_
    obtain ⟨h1, h2⟩ := hq ps' rfl
    intro a h
    cases h
    exact ⟨by rw [h1]; rfl, h2⟩
  | .true_, l, S, hw => by
    rw [predDoc, compilePredicate, sitesPred]; intro a h; cases h; exact ⟨rfl, by simp⟩
  | .false_, l, S, hw => by
    rw [predDoc, compilePredicate, sitesPred]; intro a h; cases h; exact ⟨rfl, by simp⟩
  | .set _, l, S, hw => by
    rw [predDoc, compilePredicate, sitesPred]; intro a h; cases h; exact ⟨rfl, by simp⟩
theorem predsDoc_safe {types : FieldTypes} (ht : ∀ x dt, types[x]? = some dt → dt = ty x) :
    (ps : List (Pred F)) → (l : Loc) → (i : Nat) → (S : Set Loc) → Within es (sitesPreds l i ps) →
    Safe (Typed ty) (Belongs ty es) (Made (compilePredicates types ps) (sitesPreds l i ps)) S
      (predsDoc l types i ps)
  | [], l, i, S, hw => by
    rw [predsDoc, compilePredicates, sitesPreds]; intro a h; cases h; exact ⟨rfl, by simp⟩
  | p :: ps, l, i, S, hw => by
    rw [sitesPreds] at hw ⊢
    obtain ⟨hw1, hw2⟩ := within_append hw
    rw [predsDoc, compilePredicates]
    refine (predDoc_safe ht p _ S hw1).andThen (fun e S' a h => by cases h) fun p' S' hs hq => ?_
    obtain ⟨h1, h2⟩ := hq p' rfl
    refine (predsDoc_safe ht ps l (i + 1) S' hw2).andThen (fun e S' a h => by cases h) fun ps' S'' hs' hq' => ?_
    obtain ⟨h3, h4⟩ := hq' ps' rfl
    intro a h
    cases h
    refine ⟨by rw [h1, h3]; rfl, fun x hx => ?_⟩
    rcases List.mem_append.mp hx with hx | hx
    · exact hs' (h2 x hx)
    · exact h4 x hx
end

variable [Arith F]

mutual
theorem nodeDoc_safe {types : FieldTypes} (ht : ∀ x dt, types[x]? = some dt → dt = ty x) : (n : Node F) → (c : Cell) →
    (np : List Nat) → (S : Set Loc) → Within es (sitesNode c np n) →
    Safe (Typed ty) (Belongs ty es) (Made (newNode types n) (sitesNode c np n)) S (nodeDoc c np types n)
  | .mk id dc score rc dists nodes pred, c, np, S, hw => by
    rw [sitesNode] at hw ⊢
    obtain ⟨hw1, hw2⟩ := within_append hw
    rw [nodeDoc, newNode]
    refine (nodesDoc_safe ht nodes c np 0 S hw2).andThen (fun e S' a h => by cases h) fun cs S' hs hq => ?_
    obtain ⟨h1, h2⟩ := hq cs rfl
    cases pred with
    | none =>
      intro a h
      cases h
      exact ⟨by rw [h1]; rfl, fun x hx => h2 x (by simpa [sitesTest] using hx)⟩
    | some p =>
      refine (predDoc_safe ht p _ S' hw1).andThen (fun e S' a h => by cases h) fun p' S'' hs' hq' => ?_
      obtain ⟨h3, h4⟩ := hq' p' rfl
      intro a h
      cases h
      refine ⟨by simp only [h1, h3]; rfl, fun x hx => ?_⟩
      rcases List.mem_append.mp hx with hx | hx
      · exact h4 x hx
      · exact hs' (h2 x hx)
theorem nodesDoc_safe {types : FieldTypes} (ht : ∀ x dt, types[x]? = some dt → dt = ty x) :
    (ns : List (Node F)) → (c : Cell) → (np : List Nat) → (i : Nat) → (S : Set Loc) →
    Within es (sitesNodes c np i ns) →
    Safe (Typed ty) (Belongs ty es) (Made (newNodes types ns) (sitesNodes c np i ns)) S
      (nodesDoc c np types i ns)
  | [], c, np, i, S, hw => by
    rw [nodesDoc, newNodes, sitesNodes]; intro a h; cases h; exact ⟨rfl, by simp⟩
  | n :: ns, c, np, i, S, hw => by
    rw [sitesNodes] at hw ⊢
    obtain ⟨hw1, hw2⟩ := within_append hw
    rw [nodesDoc, newNodes]
    refine (nodeDoc_safe ht n c _ S hw1).andThen (fun e S' a h => by cases h) fun n' S' hs hq => ?_
    obtain ⟨h1, h2⟩ := hq n' rfl
    refine (nodesDoc_safe ht ns c np (i + 1) S' hw2).andThen (fun e S' a h => by cases h) fun ns' S'' hs' hq' => ?_
    obtain ⟨h3, h4⟩ := hq' ns' rfl
    intro a h
    cases h
    refine ⟨by rw [h1, h3]; rfl, fun x hx => ?_⟩
    rcases List.mem_append.mp hx with hx | hx
    · exact hs' (h2 x hx)
    · exact h4 x hx
end

mutual
/-- The evaluator was built from the element, with dictionaries that may have been different for different
trees. -/
inductive BuiltFrom (ty : String → DataType) (dd : List DataField) : ModelElem F → EModel F → Prop
  | tree {d : TreeDoc F} {td : TD F} {root} : Typed ty td → newNode (buildTypes dd td) d.node = .ok root →
      BuiltFrom ty dd (.tree d) (.tree
        { validated := true
          compiled := true
          dd := dd
          model := { d with miningFields := d.miningFields.map MiningField.withDefaults }
          fieldTypes := buildTypes dd td
          root := root
          outKeys := ∅
          targetField := findTarget "" (d.miningFields.map MiningField.withDefaults) })
  | regression {d : RegressionDoc F} : BuiltFrom ty dd (.regression d) (.regression d)
  | mining {h : MiningHead F} {segs s ms} : (MiningState.init dd h segs).validate = (.ok (), s) →
      BuiltFroms ty dd segs ms → BuiltFrom ty dd (.mining h segs) (.mining { s.prepare with compiled := true } ms)
inductive BuiltFroms (ty : String → DataType) (dd : List DataField) : List (SegDoc F) → List (EModel F) → Prop
  | nil : BuiltFroms ty dd [] []
  | cons {id ps e segs m ms} : BuiltFrom ty dd e m → BuiltFroms ty dd segs ms →
      BuiltFroms ty dd (.mk id ps [e] :: segs) (m :: ms)
end

omit [Lib F] [Arith F] in
theorem appendDoc_safe {C : Loc → GoVal F → Prop} (l : List (DerivedField F)) (hl : Typed ty l) (S : Set Loc) :
    Safe (Typed ty) C (fun _ S' => S ⊆ S') S (appendDoc l) := by
  induction l with
  | nil => exact fun _ h => h
  | cons f l ih =>
    refine fun td ht => ⟨?_, ih fun g hg => hl g (by simp [hg])⟩
    intro g hg
    rcases List.mem_append.mp hg with h | h
    · exact ht g h
    · exact hl g (by simp at h; simp [h])

omit [Lib F] [Arith F] in
theorem fieldsDoc_safe {T : TD F → Prop} {C : Loc → GoVal F → Prop} (c : Cell) (fs : List MiningField) (S : Set Loc) :
    Safe T C (fun fs' _ => fs' = fs.map MiningField.withDefaults) S (fieldsDoc c fs) := by
  induction fs with
  | nil => rfl
  | cons f fs ih =>
    rw [fieldsDoc]
    refine Safe.bind (p := fieldsDoc c fs) ih fun fs' S' _ h => ?_
    rw [h]
    rfl

omit [Lib F] [Arith F] in
theorem buildTypes_ty {dd : List DataField} {td : TD F} (hd : ∀ f ∈ dd, f.dataType = ty f.name) (ht : Typed ty td)
    (x : String) (dt : DataType) (h : (buildTypes dd td)[x]? = some dt) : dt = ty x :=
  ((buildTypes_typed hd ht x dt).mp h).1

theorem treeDoc_safe {dd : List DataField} (hd : ∀ f ∈ dd, f.dataType = ty f.name) (d : TreeDoc F) (c : Cell)
    (S : Set Loc) (hl : Typed ty d.localTransformations) (hw : Within es (sitesNode c [] d.node)) :
    Safe (Typed ty) (Belongs ty es)
      (fun r S' => ∀ m, r = .ok m → BuiltFrom ty dd (.tree d) m ∧ ∀ x ∈ sitesNode c [] d.node, x.1 ∈ S')
      S (d.docProg c dd) := by
  unfold TreeDoc.docProg
  split_ifs
  · intro m h; cases h
  · refine (fieldsDoc_safe c _ S).bind fun fs S1 _ hfs => ?_
    rw [hfs]
    refine (appendDoc_safe _ hl S1).bind fun _ S2 _ _ => fun td ht => ?_
    refine (nodeDoc_safe (buildTypes_ty hd ht) d.node c [] S2 hw).andThen (fun e S' a h => by cases h)
      fun root S3 _ hq => ?_
    obtain ⟨h1, h2⟩ := hq root rfl
    intro m h
    cases h
    exact ⟨.tree ht h1, h2⟩

omit [Lib F] [Arith F] in
theorem validate_locals {dd : List DataField} {h : MiningHead F} {segs : List (SegDoc F)} {s : MiningState F}
    (hv : (MiningState.init dd h segs).validate = (.ok (), s)) :
    s.head.localTransformations = h.localTransformations := by
  unfold MiningState.validate at hv
  simp only at hv
  split_ifs at hv <;> simp [MiningState.init] at hv <;> subst hv <;> rfl

mutual
theorem docProg_safe {dd : List DataField} (hd : ∀ f ∈ dd, f.dataType = ty f.name) : (e : ModelElem F) → (c : Cell) →
    (S : Set Loc) → (∀ f, DerivedIn f e → f.dataType = ty f.name) → Within es (sitesElem c e) →
    Safe (Typed ty) (Belongs ty es)
      (fun r S' => ∀ m, r = .ok m → BuiltFrom ty dd e m ∧ ∀ x ∈ sitesElem c e, x.1 ∈ S') S (e.docProg c dd)
  | .tree d, c, S, hl, hw => by
    rw [ModelElem.docProg]
    rw [sitesElem] at hw ⊢
    exact treeDoc_safe hd d c S (fun f hf => hl f (.tree hf)) hw
  | .regression d, c, S, hl, hw => by
    rw [ModelElem.docProg, sitesElem]
    intro m h
    cases h
    exact ⟨.regression, by simp⟩
  | .other k, c, S, hl, hw => by
    rw [ModelElem.docProg]
    intro m h
    cases h
  | .mining h segs, c, S, hl, hw => by
    rw [sitesElem] at hw ⊢
    have key : Safe (Typed ty) (Belongs ty es)
        (fun r S' => ∀ m, r = .ok m → BuiltFrom ty dd (.mining h segs) m ∧ ∀ x ∈ sitesSegs c 0 segs, x.1 ∈ S') S
        (miningDoc dd h segs (segsDoc c dd 0 segs)) := by
      rw [miningDoc]
      rcases hv : (MiningState.init dd h segs).validate with ⟨_ | ⟨⟨⟩⟩, s⟩
      · intro m hm; cases hm
      · simp only
        rw [validate_locals hv]
        refine (appendDoc_safe _ (fun f hf => hl f (.mining hf)) S).bind fun _ S1 _ _ => fun td ht => ?_
        refine (segsDoc_safe hd segs c 0 S1 (fun id ps es e hs he f hf => hl f (.segment hs he hf)) hw).andThen
          (fun e S' a h => by cases h) fun ms S2 _ hq => ?_
        obtain ⟨h1, h2⟩ := hq ms rfl
        intro m hm
        cases hm
        exact ⟨.mining hv h1, h2⟩
    rw [ModelElem.docProg]
    split_ifs
    · exact key
    · exact key
theorem segsDoc_safe {dd : List DataField} (hd : ∀ f ∈ dd, f.dataType = ty f.name) : (segs : List (SegDoc F)) →
    (c : Cell) → (i : Nat) → (S : Set Loc) →
    (∀ id ps es e, SegDoc.mk id ps es ∈ segs → e ∈ es → ∀ f, DerivedIn f e → f.dataType = ty f.name) →
    Within es (sitesSegs c i segs) →
    Safe (Typed ty) (Belongs ty es)
      (fun r S' => ∀ ms, r = .ok ms → BuiltFroms ty dd segs ms ∧ ∀ x ∈ sitesSegs c i segs, x.1 ∈ S') S
      (segsDoc c dd i segs)
  | [], c, i, S, hl, hw => by
    rw [segsDoc, sitesSegs]
    intro ms h
    cases h
    exact ⟨.nil, by simp⟩
  | .mk _ _ [] :: segs, c, i, S, hl, hw => by rw [segsDoc]; intro ms h; cases h; simp
  | .mk _ _ (_ :: _ :: _) :: segs, c, i, S, hl, hw => by rw [segsDoc]; intro ms h; cases h; simp
  | .mk id ps [e] :: segs, c, i, S, hl, hw => by
    rw [sitesSegs] at hw ⊢
    obtain ⟨hw1, hw2⟩ := within_append hw
    rw [segsDoc]
    refine (docProg_safe hd e (i :: c) S (hl id ps [e] e (by simp) (by simp)) hw1).andThen
      (fun e S' a h => by cases h) fun m S1 _ hq => ?_
    obtain ⟨h1, h2⟩ := hq m rfl
    refine (segsDoc_safe hd segs c (i + 1) S1 (fun id ps es e hs => hl id ps es e (by simp [hs])) hw2).andThen
      (fun e S' a h => by cases h) fun ms S2 hs hq' => ?_
    obtain ⟨h3, h4⟩ := hq' ms rfl
    intro ms' h
    cases h
    refine ⟨.cons h1 h3, fun x hx => ?_⟩
    rcases List.mem_append.mp hx with hx | hx
    · exact hs (h2 x hx)
    · exact h4 x hx
end

end

end Gopmml
