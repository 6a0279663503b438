import Verif.Model.Conc
import Verif.Props.History

/-!
# Calls as programs over the shared caches
-/

namespace Gopmml

variable {α β F : Type}

/-- The call looks up the labels `l` in this order, writes a key only right after looking it up in
vain, only the right key, and returns `a` whatever the lookups find. -/
inductive Call (a : α) : Prog α → List (Cell × String) → Prop
  | done : Call a (.done a) []
  | read {c v k p l} : Call a (k (some (probabilityKey v))) l →
      k none = .write c v (probabilityKey v) p → Call a p l → Call a (.read c v k) ((c, v) :: l)

theorem Call.bind {a : α} {p : Prog α} {l} (h : Call a p l) {b : β} {f : α → Prog β} {l'}
    (h' : Call b (f a) l') : Call b (p.bind f) (l ++ l') := by
  induction h with
  | done => exact h'
  | read h1 h2 h3 ih1 ih3 =>
    exact .read ih1 (by simp only [h2]; rfl) ih3

/-- The labels the call looks up if it finds all of them. -/
def Prog.lookups : Prog α → List (Cell × String)
  | .done _ => []
  | .read c v k => (c, v) :: (k (some (probabilityKey v))).lookups
  | .write _ _ _ k => k.lookups

theorem Call.lookups {a : α} {p : Prog α} {l} (h : Call a p l) : p.lookups = l := by
  induction h with
  | done => rfl
  | read h1 h2 h3 ih1 ih3 => rw [Prog.lookups, ih1]

theorem outLoop_call (c : Cell) (scores : List (ScoreDist F)) (out : GoMap (GoVal F)) :
    Call (scores.foldl (fun m s => m.insert (probabilityKey s.value) (.f64 s.probability)) out)
      (outLoop c scores out) (scores.map fun s => (c, s.value)) := by
  induction scores generalizing out with
  | nil => exact .done
  | cons s l ih => exact .read (ih _) rfl (ih _)

/-! ## Run alone, a program is the evaluation function -/

/-- The store holds the caches of the trees of `m`, which is found at `c`. -/
def Agrees (σ : Store) (c : Cell) : EModel F → Prop
  | .tree m => σ c = m.outKeys
  | .regression _ => True
  | .mining _ ms => AgreesAll σ c 0 ms
where
  /-- the same for the segments from number `i` on -/
  AgreesAll (σ : Store) (c : Cell) (i : Nat) : List (EModel F) → Prop
  | [] => True
  | m :: ms => Agrees σ (i :: c) m ∧ AgreesAll σ c (i + 1) ms

open Agrees

mutual
theorem agrees_congr {σ σ' : Store} {c : Cell} (h : ∀ c', c <:+ c' → σ' c' = σ c') :
    (m : EModel F) → Agrees σ c m → Agrees σ' c m
  | .tree m, hm => by rw [Agrees] at hm ⊢; rw [h c (List.suffix_refl c), hm]
  | .regression _, _ => by rw [Agrees]; trivial
  | .mining _ ms, hm => by
    rw [Agrees] at hm ⊢
    exact agreesAll_congr (fun j c' _ hc => h c' ((List.suffix_cons j c).trans hc)) ms hm
theorem agreesAll_congr {σ σ' : Store} {c : Cell} {i : Nat}
    (h : ∀ j c', i ≤ j → (j :: c) <:+ c' → σ' c' = σ c') :
    (ms : List (EModel F)) → AgreesAll σ c i ms → AgreesAll σ' c i ms
  | [], _ => by rw [AgreesAll]; trivial
  | m :: ms, hm => by
    rw [AgreesAll] at hm ⊢
    exact ⟨agrees_congr (fun c' hc => h i c' (le_refl i) hc) m hm.1,
      agreesAll_congr (fun j c' hj hc => h j c' (by omega) hc) ms hm.2⟩
end

theorem run_bind (p : Prog α) (f : α → Prog β) (σ : Store) :
    (p.bind f).run σ = (f (p.run σ).1).run (p.run σ).2 := by
  induction p generalizing σ with
  | done a => rfl
  | read c v k ih => exact ih _ σ
  | write c v key k ih => exact ih _

theorem suffix_cons_inj {i j : Nat} {c c' : Cell} (h : (i :: c) <:+ c') (h' : (j :: c) <:+ c') : i = j := by
  have := (List.suffix_of_suffix_length_le h h' (by simp)).eq_of_length (by simp)
  exact (List.cons.inj this).1

theorem outLoop_run (c : Cell) (scores : List (ScoreDist F)) (out : GoMap (GoVal F)) (σ : Store) :
    (outLoop c scores out).run σ =
      ((scores.foldl outStep (out, σ c)).1, Function.update σ c (scores.foldl outStep (out, σ c)).2) := by
  induction scores generalizing out σ with
  | nil => simp [outLoop, Prog.run]
  | cons s l ih =>
    rw [outLoop, Prog.run, List.foldl_cons]
    cases hs : (σ c)[s.value]? with
    | some key =>
      have hst : outStep (out, σ c) s = (out.insert key (.f64 s.probability), σ c) := by
        simp [outStep, hs]
      rw [hst]; exact ih _ _
    | none =>
      have hst : outStep (out, σ c) s = (out.insert (probabilityKey s.value) (.f64 s.probability),
          (σ c).insert s.value (probabilityKey s.value)) := by
        simp [outStep, hs]
      simp only [Prog.run]
      rw [hst, ih, Store.put]
      simp [Function.update_self, Function.update_idem]

section
variable [Arith F] [Lib F]

theorem outputProg_run (c : Cell) (m : TreeModel F) (scores : List (ScoreDist F)) (r : PredRes)
    {σ : Store} (h : σ c = m.outKeys) :
    (m.outputProg c scores r).run σ =
      ((m.output scores r).1, Function.update σ c (m.output scores r).2) := by
  unfold TreeModel.outputProg TreeModel.output
  split_ifs with hr
  · cases m.model.functionName with
    | classification => simp only; rw [run_bind, outLoop_run, h]; rfl
    | regression =>
      cases scores with
      | nil => simp [Prog.run, ← h]
      | cons s l => cases hp : Lib.parseFloat (F := F) s.value <;> simp [hp, Prog.run, ← h]
    | other s => simp [Prog.run, ← h]
  · simp [Prog.run, ← h]

theorem tree_run (c : Cell) (m : TreeModel F) (o : MapOrd) (row : Row F) {σ : Store} (h : σ c = m.outKeys) :
    (m.prog c o row).run σ = (((m.evaluate o row).res, (m.evaluate o row).row),
      Function.update σ c (m.evaluate o row).model.outKeys) := by
  unfold TreeModel.prog TreeModel.evaluate
  by_cases hv : m.validated = true
  swap
  · rw [if_pos hv, if_pos hv]; simp [Prog.run, ← h]
  by_cases hc : m.compiled = true
  swap
  · rw [if_neg (not_not.mpr hv), if_pos hc, if_neg (not_not.mpr hv), if_pos hc]; simp [Prog.run, ← h]
  · rw [if_neg (not_not.mpr hv), if_neg (not_not.mpr hc), if_neg (not_not.mpr hv), if_neg (not_not.mpr hc)]
    rcases handleInput m.model.localTransformations row with ⟨_ | ⟨⟨⟩⟩, row'⟩
    · simp [Prog.run, ← h]
    · simp only
      cases evalNode m.ctx o row' m.root with
      | error e => simp [Prog.run, ← h]
      | ok a => simp only; rw [run_bind, outputProg_run c m _ _ h]; rfl

variable [Trans F]

/-- What running a program alone must do. -/
def RunsAs (e : Ev F (Out F) (EModel F)) (c : Cell) (p : Prog (Res (Out F) × Row F)) (σ : Store) : Prop :=
  ∃ σ', p.run σ = ((e.res, e.row), σ') ∧ Agrees σ' c e.model ∧ ∀ c', ¬ c <:+ c' → σ' c' = σ c'

/-- The same for the segments from number `i` on. -/
def RunAs {γ : Type} (e : Ev F γ (List (EModel F))) (c : Cell) (i : Nat) (p : Prog (Res γ × Row F))
    (σ : Store) : Prop :=
  ∃ σ', p.run σ = ((e.res, e.row), σ') ∧ AgreesAll σ' c i e.model ∧
    ∀ c', (∀ j, i ≤ j → ¬ (j :: c) <:+ c') → σ' c' = σ c'

theorem sum_run (ms : List (EModel F))
    (ih : ∀ m ∈ ms, ∀ c o row σ, Agrees σ c m → RunsAs (EModel.evaluate o m row) c (EModel.prog c o m row) σ) :
    ∀ c o fn i sm row σ, AgreesAll σ c i ms →
      RunAs (sumSegments o fn i sm ms row) c i (sumProg c o fn i sm ms row) σ := by
  induction ms with
  | nil =>
    intro c o fn i sm row σ _
    exact ⟨σ, by simp [sumProg, sumSegments, Prog.run], by simp [sumSegments, AgreesAll], fun _ _ => rfl⟩
  | cons m ms ihs =>
    intro c o fn i sm row σ h
    rw [AgreesAll] at h
    obtain ⟨σ1, h1, h2, h3⟩ := ih m (by simp) (i :: c) (o.at_ (2 * i)) row σ h.1
    have hms : AgreesAll σ1 c (i + 1) ms := agreesAll_congr (fun j c' hj hc => by
      refine h3 c' fun hi => ?_
      have := suffix_cons_inj hi hc; omega) ms h.2
    unfold RunAs
    rw [sumProg, run_bind, h1, sumSegments]
    simp only
    cases he : (EModel.evaluate (o.at_ (2 * i)) m row).res with
    | error err =>
      refine ⟨σ1, rfl, ?_, fun c' hc => h3 c' (hc i (le_refl i))⟩
      rw [AgreesAll]; exact ⟨h2, hms⟩
    | ok segout =>
      obtain ⟨σ2, g1, g2, g3⟩ := ihs (fun a ha => ih a (by simp [ha])) c o fn (i + 1)
        (((o.at_ (2 * i + 1)).range sm).foldl (addScore fn segout) sm) (EModel.evaluate (o.at_ (2 * i)) m row).row
        σ1 hms
      refine ⟨σ2, g1, ?_, fun c' hc => (g3 c' fun j hj => hc j (by omega)).trans (h3 c' (hc i (le_refl i)))⟩
      rw [AgreesAll]
      refine ⟨agrees_congr (fun c' hc => g3 c' fun j hj hjc => ?_) _ h2, g2⟩
      have := suffix_cons_inj hc hjc; omega

theorem chain_run (ms : List (EModel F))
    (ih : ∀ m ∈ ms, ∀ c o row σ, Agrees σ c m → RunsAs (EModel.evaluate o m row) c (EModel.prog c o m row) σ) :
    ∀ c o i out row σ, AgreesAll σ c i ms →
      RunAs (chainSegments o i out ms row) c i (chainProg c o i out ms row) σ := by
  induction ms with
  | nil =>
    intro c o i out row σ _
    exact ⟨σ, by simp [chainProg, chainSegments, Prog.run], by simp [chainSegments, AgreesAll], fun _ _ => rfl⟩
  | cons m ms ihs =>
    intro c o i out row σ h
    unfold RunAs
    rw [chainProg, chainSegments]
    rcases writeAll ((o.at_ (2 * i)).range (out.getD ∅)) row with ⟨e | ⟨⟨⟩⟩, row1⟩
    · exact ⟨σ, rfl, h, fun _ _ => rfl⟩
    rw [AgreesAll] at h
    obtain ⟨σ1, h1, h2, h3⟩ := ih m (by simp) (i :: c) (o.at_ (2 * i + 1)) row1 σ h.1
    have hms : AgreesAll σ1 c (i + 1) ms := agreesAll_congr (fun j c' hj hc => by
      refine h3 c' fun hi => ?_
      have := suffix_cons_inj hi hc; omega) ms h.2
    simp only
    rw [run_bind, h1]
    simp only
    cases he : (EModel.evaluate (o.at_ (2 * i + 1)) m row1).res with
    | error err =>
      refine ⟨σ1, rfl, ?_, fun c' hc => h3 c' (hc i (le_refl i))⟩
      rw [AgreesAll]; exact ⟨h2, hms⟩
    | ok segout =>
      obtain ⟨σ2, g1, g2, g3⟩ := ihs (fun a ha => ih a (by simp [ha])) c o (i + 1) segout
        (EModel.evaluate (o.at_ (2 * i + 1)) m row1).row σ1 hms
      refine ⟨σ2, g1, ?_, fun c' hc => (g3 c' fun j hj => hc j (by omega)).trans (h3 c' (hc i (le_refl i)))⟩
      rw [AgreesAll]
      refine ⟨agrees_congr (fun c' hc => g3 c' fun j hj hjc => ?_) _ h2, g2⟩
      have := suffix_cons_inj hc hjc; omega

theorem first_run (ms : List (EModel F))
    (ih : ∀ m ∈ ms, ∀ c o row σ, Agrees σ c m → RunsAs (EModel.evaluate o m row) c (EModel.prog c o m row) σ)
    (c : Cell) (o : MapOrd) (row : Row F) (σ : Store) (h : AgreesAll σ c 0 ms) :
    RunAs (selectFirst o ms row) c 0 (firstProg c o ms row) σ := by
  cases ms with
  | nil => exact ⟨σ, by simp [firstProg, selectFirst, Prog.run], by simp [selectFirst, AgreesAll], fun _ _ => rfl⟩
  | cons m ms =>
    rw [AgreesAll] at h
    obtain ⟨σ1, h1, h2, h3⟩ := ih m (by simp) (0 :: c) o row σ h.1
    unfold RunAs
    rw [firstProg, selectFirst]
    refine ⟨σ1, h1, ?_, fun c' hc => h3 c' (hc 0 (le_refl 0))⟩
    rw [AgreesAll]
    refine ⟨h2, agreesAll_congr (fun j c' hj hc => h3 c' fun hi => ?_) ms h.2⟩
    have := suffix_cons_inj hi hc; omega

omit [Arith F] [Lib F] [Trans F] in
theorem runsAs_mining {γ : Type} {e : Ev F γ (List (EModel F))} {c : Cell} {p : Prog (Res γ × Row F)} {σ : Store}
    (h : RunAs e c 0 p σ) (s : MiningState F) (f : Res γ → Res (Out F)) :
    RunsAs ⟨f e.res, e.row, .mining s e.model⟩ c (p.bind fun r => .done (f r.1, r.2)) σ := by
  obtain ⟨σ1, h1, h2, h3⟩ := h
  refine ⟨σ1, by rw [run_bind, h1]; rfl, by rw [Agrees]; exact h2, fun c' hc => h3 c' fun j _ hj => ?_⟩
  exact hc ((List.suffix_cons j c).trans hj)

theorem bind_done (p : Prog (α × β)) : (p.bind fun r => .done (r.1, r.2)) = p := by
  induction p with
  | done a => rfl
  | read c v k ih => simp only [Prog.bind]; congr 1; funext r; exact ih r
  | write c v key k ih => simp only [Prog.bind, ih]

/-- Run alone from a store that holds the caches of the model, the program of a call returns what
Evaluate returns, does the same to the row, leaves the caches of the model that Evaluate leaves
behind, and touches no other caches. -/
theorem prog_run (m : EModel F) : ∀ c o row σ, Agrees σ c m →
    RunsAs (EModel.evaluate o m row) c (EModel.prog c o m row) σ := by
  induction m using EModel.ind with
  | ht m =>
    intro c o row σ h
    rw [Agrees] at h
    rw [EModel.evaluate, EModel.prog]
    refine ⟨_, tree_run c m o row h, by rw [Agrees]; simp, fun c' hc => ?_⟩
    rw [Function.update_of_ne]
    rintro rfl
    exact hc (List.suffix_refl _)
  | hr d =>
    intro c o row σ _
    rw [EModel.evaluate, EModel.prog]
    exact ⟨σ, rfl, by rw [Agrees]; trivial, fun _ _ => rfl⟩
  | hm s ms ih =>
    intro c o row σ h
    have hs := h
    rw [Agrees] at hs
    rw [EModel.evaluate, EModel.prog]
    by_cases hv : s.validated = true
    swap
    · rw [if_pos hv, if_pos hv]; exact ⟨σ, rfl, h, fun _ _ => rfl⟩
    by_cases hc : s.compiled = true
    swap
    · rw [if_neg (not_not.mpr hv), if_pos hc, if_neg (not_not.mpr hv), if_pos hc]
      exact ⟨σ, rfl, h, fun _ _ => rfl⟩
    rw [if_neg (not_not.mpr hv), if_neg (not_not.mpr hc), if_neg (not_not.mpr hv), if_neg (not_not.mpr hc)]
    rcases imputeLoop ((o.at_ 0).range s.defaultValues) row with ⟨e | ⟨⟨⟩⟩, row1⟩
    · exact ⟨σ, rfl, h, fun _ _ => rfl⟩
    simp only
    rcases handleInput s.head.localTransformations row1 with ⟨e | ⟨⟨⟩⟩, row2⟩
    · exact ⟨σ, rfl, h, fun _ _ => rfl⟩
    simp only
    cases s.head.method with
    | average =>
      exact runsAs_mining (sum_run ms ih c (o.at_ 1) s.head.functionName 0 (initScores s) row2 σ hs) s _
    | sum =>
      exact runsAs_mining (sum_run ms ih c (o.at_ 1) s.head.functionName 0 (initScores s) row2 σ hs) s _
    | modelChain =>
      have := runsAs_mining (chain_run ms ih c (o.at_ 1) 0 (some ∅) row2 σ hs) s id
      simp only [id, bind_done] at this
      exact this
    | selectFirst =>
      have := runsAs_mining (first_run ms ih c (o.at_ 1) row2 σ hs) s id
      simp only [id, bind_done] at this
      exact this
    | empty => exact ⟨σ, rfl, h, fun _ _ => rfl⟩
    | other t => exact ⟨σ, rfl, h, fun _ _ => rfl⟩

/-- The program does not depend on the caches in the model. -/
theorem prog_congr (m : EModel F) : ∀ m' c o row, SameModel m m' →
    EModel.prog c o m' row = EModel.prog c o m row := by
  induction m using EModel.ind with
  | ht m =>
    rintro _ c o row (⟨_, _, hm⟩)
    rename_i m' _ _
    rw [EModel.prog, EModel.prog, hm]
    rfl
  | hr d => rintro _ c o row ⟨⟩; rfl
  | hm s ms ih =>
    rintro _ c o row (_ | _ | hs)
    rename_i ms'
    have h1 : ∀ (l l' : List (EModel F)), List.Forall₂ SameModel l l' → (∀ m ∈ l, m ∈ ms) →
        (∀ o i out row, chainProg c o i out l' row = chainProg c o i out l row) ∧
        (∀ o fn i sm row, sumProg c o fn i sm l' row = sumProg c o fn i sm l row) ∧
        (∀ o row, firstProg c o l' row = firstProg c o l row) := by
      intro l l' h
      induction h with
      | nil => exact fun _ => ⟨fun _ _ _ _ => rfl, fun _ _ _ _ _ => rfl, fun _ _ => rfl⟩
      | cons h hs ihs =>
        intro hsub
        have ihs := ihs (fun m hm => hsub m (by simp [hm]))
        have ih := fun c o row => ih _ (hsub _ (by simp)) _ c o row h
        refine ⟨fun o i out row => ?_, fun o fn i sm row => ?_, fun o row => ?_⟩
        · simp only [chainProg, ih, ihs.1]
        · simp only [sumProg, ih, ihs.2.1]
        · simp only [firstProg, ih]
    obtain ⟨g1, g2, g3⟩ := h1 ms ms' hs (fun _ h => h)
    simp only [EModel.prog, g1, g2, g3]

omit [Arith F] [Lib F] [Trans F] in
/-- There is a store that holds the caches of a model. -/
theorem exists_store (m : EModel F) : SameModel m m → ∀ c, ∃ σ, Agrees σ c m ∧ ∀ c, KeysOk (σ c) := by
  induction m using EModel.ind with
  | ht m =>
    rintro (⟨hk, -, -⟩) c
    exact ⟨fun _ => m.outKeys, by rw [Agrees], fun _ => hk⟩
  | hr d => rintro - c; exact ⟨fun _ => ∅, by rw [Agrees]; trivial, fun _ => keysOk_empty⟩
  | hm s ms ih =>
    rintro (_ | _ | hs) c
    have h1 : ∀ (l : List (EModel F)), (∀ m ∈ l, m ∈ ms) → ∀ i, ∃ σ, AgreesAll σ c i l ∧ ∀ c, KeysOk (σ c) := by
      intro l
      induction l with
      | nil => exact fun _ i => ⟨fun _ => ∅, by rw [AgreesAll]; trivial, fun _ => keysOk_empty⟩
      | cons m l ihl =>
        intro hsub i
        obtain ⟨σ2, a2, k2⟩ := ihl (fun m hm => hsub m (by simp [hm])) (i + 1)
        obtain ⟨σ1, a1, k1⟩ := ih m (hsub m (by simp)) (List.forall₂_same.mp hs m (hsub m (by simp))) (i :: c)
        refine ⟨fun x => if (i :: c) <:+ x then σ1 x else σ2 x, ?_, fun x => ?_⟩
        · rw [AgreesAll]
          refine ⟨agrees_congr (fun x hx => if_pos hx) m a1, agreesAll_congr (fun j x hj hx => if_neg fun hi => ?_) l a2⟩
          have := suffix_cons_inj hi hx; omega
        · show KeysOk (if (i :: c) <:+ x then σ1 x else σ2 x)
          split_ifs
          · exact k1 x
          · exact k2 x
    obtain ⟨σ, a, k⟩ := h1 ms (fun _ h => h) 0
    exact ⟨σ, by rw [Agrees]; exact a, k⟩

/-! ## The shape of the programs -/

omit [Trans F] in
theorem tree_call {m : TreeModel F} (hk : KeysOk m.outKeys) (c : Cell) (o : MapOrd) (row : Row F) :
    ∃ l, Call ((m.evaluate o row).res, (m.evaluate o row).row) (m.prog c o row) l := by
  unfold TreeModel.prog TreeModel.evaluate
  by_cases hv : m.validated = true
  swap
  · rw [if_pos hv, if_pos hv]; exact ⟨[], .done⟩
  by_cases hc : m.compiled = true
  swap
  · rw [if_neg (not_not.mpr hv), if_pos hc, if_neg (not_not.mpr hv), if_pos hc]; exact ⟨[], .done⟩
  · rw [if_neg (not_not.mpr hv), if_neg (not_not.mpr hc), if_neg (not_not.mpr hv), if_neg (not_not.mpr hc)]
    rcases handleInput m.model.localTransformations row with ⟨_ | ⟨⟨⟩⟩, row'⟩
    · exact ⟨[], .done⟩
    · simp only
      cases evalNode m.ctx o row' m.root with
      | error e => exact ⟨[], .done⟩
      | ok a =>
        simp only
        suffices h : ∃ l, Call (m.output a.1 a.2).1 (m.outputProg c a.1 a.2) l by
          obtain ⟨l, h⟩ := h
          exact ⟨l ++ [], h.bind .done⟩
        unfold TreeModel.output TreeModel.outputProg
        split_ifs with hr
        · cases m.model.functionName with
          | classification =>
            simp only
            rw [(outLoop_eq a.1 _ _ hk).1]
            exact ⟨_, (outLoop_call c a.1 _).bind .done⟩
          | regression =>
            cases a.1 with
            | nil => exact ⟨[], .done⟩
            | cons s l => cases hp : Lib.parseFloat (F := F) s.value <;> simp only [hp] <;> exact ⟨[], .done⟩
          | other s => exact ⟨[], .done⟩
        · exact ⟨[], .done⟩

/-- What the program of a call on `m` looks like. -/
def Calls (m : EModel F) : Prop := ∀ c o row,
  ∃ l, Call ((EModel.evaluate o m row).res, (EModel.evaluate o m row).row) (EModel.prog c o m row) l

theorem sum_call (ms : List (EModel F)) (ih : ∀ m ∈ ms, Calls m) :
    ∀ c o fn i sm row, ∃ l, Call ((sumSegments o fn i sm ms row).res, (sumSegments o fn i sm ms row).row)
      (sumProg c o fn i sm ms row) l := by
  induction ms with
  | nil => intro c o fn i sm row; rw [sumProg, sumSegments]; exact ⟨[], .done⟩
  | cons m ms ihs =>
    intro c o fn i sm row
    obtain ⟨l, hl⟩ := ih m (by simp) (i :: c) (o.at_ (2 * i)) row
    rw [sumProg, sumSegments]
    simp only
    cases he : (EModel.evaluate (o.at_ (2 * i)) m row).res with
    | error err =>
      rw [he] at hl
      exact ⟨l ++ [], hl.bind .done⟩
    | ok segout =>
      rw [he] at hl
      obtain ⟨l', hl'⟩ := ihs (fun a ha => ih a (by simp [ha])) c o fn (i + 1)
        (((o.at_ (2 * i + 1)).range sm).foldl (addScore fn segout) sm) (EModel.evaluate (o.at_ (2 * i)) m row).row
      exact ⟨l ++ l', hl.bind hl'⟩

theorem chain_call (ms : List (EModel F)) (ih : ∀ m ∈ ms, Calls m) :
    ∀ c o i out row, ∃ l, Call ((chainSegments o i out ms row).res, (chainSegments o i out ms row).row)
      (chainProg c o i out ms row) l := by
  induction ms with
  | nil => intro c o i out row; rw [chainProg, chainSegments]; exact ⟨[], .done⟩
  | cons m ms ihs =>
    intro c o i out row
    rw [chainProg, chainSegments]
    rcases writeAll ((o.at_ (2 * i)).range (out.getD ∅)) row with ⟨e | ⟨⟨⟩⟩, row1⟩
    · exact ⟨[], .done⟩
    obtain ⟨l, hl⟩ := ih m (by simp) (i :: c) (o.at_ (2 * i + 1)) row1
    simp only
    cases he : (EModel.evaluate (o.at_ (2 * i + 1)) m row1).res with
    | error err =>
      rw [he] at hl
      exact ⟨l ++ [], hl.bind .done⟩
    | ok segout =>
      rw [he] at hl
      obtain ⟨l', hl'⟩ := ihs (fun a ha => ih a (by simp [ha])) c o (i + 1) segout
        (EModel.evaluate (o.at_ (2 * i + 1)) m row1).row
      exact ⟨l ++ l', hl.bind hl'⟩

/-- The program of a call on a model with correct caches returns what Evaluate returns, whatever
the lookups find. -/
theorem prog_call (m : EModel F) : SameModel m m → Calls m := by
  induction m using EModel.ind with
  | ht m =>
    rintro (⟨hk, -, -⟩) c o row
    rw [EModel.evaluate, EModel.prog]
    exact tree_call hk c o row
  | hr d => rintro - c o row; rw [EModel.evaluate, EModel.prog]; exact ⟨[], .done⟩
  | hm s ms ih =>
    rintro (_ | _ | hs) c o row
    have ih : ∀ m ∈ ms, Calls m := fun m hm => ih m hm (List.forall₂_same.mp hs m hm)
    rw [EModel.evaluate, EModel.prog]
    by_cases hv : s.validated = true
    swap
    · rw [if_pos hv, if_pos hv]; exact ⟨[], .done⟩
    by_cases hc : s.compiled = true
    swap
    · rw [if_neg (not_not.mpr hv), if_pos hc, if_neg (not_not.mpr hv), if_pos hc]
      exact ⟨[], .done⟩
    rw [if_neg (not_not.mpr hv), if_neg (not_not.mpr hc), if_neg (not_not.mpr hv), if_neg (not_not.mpr hc)]
    rcases imputeLoop ((o.at_ 0).range s.defaultValues) row with ⟨e | ⟨⟨⟩⟩, row1⟩
    · exact ⟨[], .done⟩
    simp only
    rcases handleInput s.head.localTransformations row1 with ⟨e | ⟨⟨⟩⟩, row2⟩
    · exact ⟨[], .done⟩
    simp only
    cases s.head.method with
    | average =>
      obtain ⟨l, hl⟩ := sum_call ms ih c (o.at_ 1) s.head.functionName 0 (initScores s) row2
      exact ⟨l ++ [], hl.bind .done⟩
    | sum =>
      obtain ⟨l, hl⟩ := sum_call ms ih c (o.at_ 1) s.head.functionName 0 (initScores s) row2
      exact ⟨l ++ [], hl.bind .done⟩
    | modelChain => exact chain_call ms ih c (o.at_ 1) 0 (some ∅) row2
    | selectFirst =>
      cases ms with
      | nil => simp only [selectFirst, firstProg]; exact ⟨[], .done⟩
      | cons m ms => simp only [selectFirst, firstProg]; exact ih m (by simp) _ _ _
    | empty => exact ⟨[], .done⟩
    | other t => exact ⟨[], .done⟩

end

/-! ## Many goroutines -/

/-- All caches hold right keys only. -/
def StoreOk (σ : Store) : Prop := ∀ c, KeysOk (σ c)

theorem storeOk_put {σ : Store} (h : StoreOk σ) (c : Cell) (v : String) :
    StoreOk (σ.put c v (probabilityKey v)) := by
  intro c'
  unfold Store.put
  by_cases hc : c' = c
  · subst hc
    rw [Function.update_self]
    intro w k hw
    rw [GoMap.getElem?_insert] at hw
    split_ifs at hw with he
    · subst he; simp at hw; exact hw.symm
    · exact h c' w k hw
  · rw [Function.update_of_ne hc]; exact h c'

theorem put_mono {σ : Store} (h : StoreOk σ) {c c' : Cell} {v v' k : String} (hk : (σ c')[v']? = some k) :
    ((σ.put c v (probabilityKey v)) c')[v']? = some k := by
  unfold Store.put
  by_cases hc : c' = c
  · subst hc
    rw [Function.update_self, GoMap.getElem?_insert]
    split_ifs with he
    · subst he; rw [h c' v k hk]; rfl
    · exact hk
  · rw [Function.update_of_ne hc]; exact hk

/-- A call run alone returns its result and leaves all labels it looked up in the caches. -/
theorem Call.run {a : α} {p : Prog α} {l} (h : Call a p l) {σ : Store} (hσ : StoreOk σ) :
    (p.run σ).1 = a ∧ StoreOk (p.run σ).2 ∧
    (∀ (c : Cell) (v k : String), (σ c)[v]? = some k → ((p.run σ).2 c)[v]? = some k) ∧
    ∀ x ∈ l, ((p.run σ).2 x.1)[x.2]? ≠ none := by
  induction h generalizing σ with
  | done => exact ⟨rfl, hσ, fun _ _ _ h => h, by simp⟩
  | @read c v k p l h1 h2 h3 ih1 ih3 =>
    rw [Prog.run]
    cases hg : (σ c)[v]? with
    | some key =>
      have hkey := hσ c v key hg
      subst hkey
      obtain ⟨g1, g2, g3, g4⟩ := ih1 hσ
      refine ⟨g1, g2, g3, fun x hx => ?_⟩
      rcases List.mem_cons.mp hx with rfl | hx
      · intro hn
        have := g3 c v _ hg
        have hn := this.symm.trans hn
        cases hn
      · exact g4 x hx
    | none =>
      rw [h2, Prog.run]
      obtain ⟨g1, g2, g3, g4⟩ := ih3 (storeOk_put hσ c v)
      refine ⟨g1, g2, fun c' v' k' hk' => g3 c' v' k' (put_mono hσ hk'), fun x hx => ?_⟩
      rcases List.mem_cons.mp hx with rfl | hx
      · intro hn
        have := g3 c v (probabilityKey v) (by
          unfold Store.put; rw [Function.update_self, GoMap.getElem?_insert]; simp)
        have hn := this.symm.trans hn
        cases hn
      · exact g4 x hx

/-- What is left of a call: before a lookup, or between a lookup in vain and the write. -/
inductive Rest (a : α) : Prog α → List (Cell × String) → Prop
  | call {p l} : Call a p l → Rest a p l
  | write {c v p l} : Call a p l → Rest a (.write c v (probabilityKey v) p) l

/-- The program of a goroutine. -/
def Goroutine.prog : Goroutine α → Prog α
  | .between p => p
  | .inside p => p

/-- The lookups still to come of a goroutine are among `l`. -/
def Going (a : α) (l : List (Cell × String)) (g : Goroutine α) : Prop :=
  ∃ l', Rest a g.prog l' ∧ ∀ x ∈ l', x ∈ l

section
variable {ι : Type} [DecidableEq ι]

theorem setThread_threads (s : Sys ι α) (i j : ι) (g : Goroutine α) :
    (s.setThread i g).threads j = if j = i then g else s.threads j := by
  unfold Sys.setThread
  simp only [Function.update_apply]

/-- The invariant of any number of calls under any schedule. -/
theorem reach_inv {σ : Store} {ps : ι → Prog α} {a : ι → α} {l : ι → List (Cell × String)}
    (hσ : StoreOk σ) (h : ∀ i, Call (a i) (ps i) (l i)) {s : Sys ι α} (hr : Reach (Sys.init σ ps) s) :
    StoreOk s.store ∧ (∀ (c : Cell) (v k : String), (σ c)[v]? = some k → (s.store c)[v]? = some k) ∧
    ∀ i, Going (a i) (l i) (s.threads i) := by
  induction hr with
  | refl => exact ⟨hσ, fun _ _ _ h => h, fun i => ⟨l i, .call (h i), fun _ h => h⟩⟩
  | @step t u hr hs ih =>
    obtain ⟨h1, h2, h3⟩ := ih
    cases hs with
    | @enterRead i c v k ht =>
      refine ⟨h1, h2, fun j => ?_⟩
      rw [setThread_threads]
      split_ifs with hj
      · subst hj; have := h3 j; rw [ht] at this; exact this
      · exact h3 j
    | @enterWrite i c v key k ht =>
      refine ⟨h1, h2, fun j => ?_⟩
      rw [setThread_threads]
      split_ifs with hj
      · subst hj; have := h3 j; rw [ht] at this; exact this
      · exact h3 j
    | @leaveRead i c v k ht =>
      refine ⟨h1, h2, fun j => ?_⟩
      rw [setThread_threads]
      split_ifs with hj
      · subst hj
        obtain ⟨l', hl', hsub⟩ := h3 j
        rw [ht] at hl'
        cases hl' with
        | call hc =>
          cases hc with
          | @read _ _ _ p l'' c1 c2 c3 =>
            cases hg : (t.store c)[v]? with
            | some key =>
              refine ⟨l'', ?_, fun x hx => hsub x (by simp [hx])⟩
              rw [h1 c v key hg]; exact .call c1
            | none =>
              refine ⟨l'', ?_, fun x hx => hsub x (by simp [hx])⟩
              show Rest (a j) (k none) l''
              rw [c2]; exact .write c3
      · exact h3 j
    | @leaveWrite i c v key k ht =>
      obtain ⟨l', hl', hsub⟩ := h3 i
      rw [ht] at hl'
      cases hl' with
      | call hc => cases hc
      | write hc =>
        refine ⟨storeOk_put h1 c v, fun c' v' k' hk' => ?_, fun j => ?_⟩
        · have := h2 c' v' k' hk'
          exact put_mono h1 this
        · show Going _ _ ((t.setThread i (.between k)).threads j)
          rw [setThread_threads]
          split_ifs with hj
          · subst hj; exact ⟨l', .call hc, hsub⟩
          · exact h3 j

/-- If every label that is going to be looked up is cached, no goroutine is ever about to write. -/
theorem reach_quiet {σ : Store} {ps : ι → Prog α} {a : ι → α} {l : ι → List (Cell × String)}
    (hσ : StoreOk σ) (h : ∀ i, Call (a i) (ps i) (l i))
    (hw : ∀ i, ∀ x ∈ l i, (σ x.1)[x.2]? ≠ none) {s : Sys ι α} (hr : Reach (Sys.init σ ps) s) :
    s.store = σ ∧ ∀ i, ∃ l', Call (a i) (s.threads i).prog l' ∧ ∀ x ∈ l', x ∈ l i := by
  induction hr with
  | refl => exact ⟨rfl, fun i => ⟨l i, h i, fun _ h => h⟩⟩
  | @step t u hr hs ih =>
    obtain ⟨h2, h3⟩ := ih
    cases hs with
    | @enterRead i c v k ht =>
      refine ⟨h2, fun j => ?_⟩
      rw [setThread_threads]
      split_ifs with hj
      · subst hj; have := h3 j; rw [ht] at this; exact this
      · exact h3 j
    | @enterWrite i c v key k ht =>
      obtain ⟨l', hc, -⟩ := h3 i
      rw [ht] at hc
      cases hc
    | @leaveRead i c v k ht =>
      refine ⟨h2, fun j => ?_⟩
      rw [setThread_threads]
      split_ifs with hj
      · subst hj
        obtain ⟨l', hl', hsub⟩ := h3 j
        rw [ht] at hl'
        cases hl' with
        | @read _ _ _ p l'' c1 c2 c3 =>
          refine ⟨l'', ?_, fun x hx => hsub x (by simp [hx])⟩
          cases hg : (t.store c)[v]? with
          | some key =>
            rw [h2] at hg
            rw [hσ c v key hg]; exact c1
          | none =>
            rw [h2] at hg
            exact absurd hg (hw j (c, v) (hsub _ (by simp)))
      · exact h3 j
    | @leaveWrite i c v key k ht =>
      obtain ⟨l', hc, -⟩ := h3 i
      rw [ht] at hc
      cases hc

theorem reach_trans {s t u : Sys ι α} (h : Reach s t) (h' : Reach t u) : Reach s u := by
  induction h' with
  | refl => exact h
  | step _ hs ih => exact .step ih hs

/-- A call left to itself reaches its first write, if it looks up a label that is not cached. -/
theorem to_write {σ : Store} (hσ : StoreOk σ) {a : α} {p : Prog α} {l} (h : Call a p l)
    {c : Cell} {v : String} (hf : l.find? (fun x => (σ x.1)[x.2]? = none) = some (c, v)) (s : Sys ι α) (i : ι)
    (hs : s.store = σ) (ht : s.threads i = .between p) :
    ∃ p', Reach s (s.setThread i (.inside (.write c v (probabilityKey v) p'))) := by
  induction h generalizing s with
  | done => simp at hf
  | @read c' v' k p l' h1 h2 h3 ih1 ih3 =>
    have e1 : Step s (s.setThread i (.inside (.read c' v' k))) := .enterRead ht
    have e2 : Step (s.setThread i (.inside (.read c' v' k)))
        ((s.setThread i (.inside (.read c' v' k))).setThread i (.between (k ((σ c')[v']?)))) := by
      rw [← hs]
      exact .leaveRead (s := s.setThread i (.inside (.read c' v' k))) (by rw [setThread_threads, if_pos rfl])
    have e3 : (s.setThread i (.inside (.read c' v' k))).setThread i (.between (k ((σ c')[v']?))) =
        s.setThread i (.between (k ((σ c')[v']?))) := by
      unfold Sys.setThread; simp [Function.update_idem]
    rw [e3] at e2
    have r := Reach.step (.step .refl e1) e2
    rw [List.find?_cons] at hf
    cases hg : (σ c')[v']? with
    | none =>
      simp only [hg, decide_true] at hf
      cases hf
      rw [hg, h2] at r
      refine ⟨p, .step r ?_⟩
      have : Step (s.setThread i (.between (.write c v (probabilityKey v) p))) _ :=
        .enterWrite (i := i) (by rw [setThread_threads, if_pos rfl])
      have e4 : (s.setThread i (.between (.write c v (probabilityKey v) p))).setThread i
          (.inside (.write c v (probabilityKey v) p)) = s.setThread i (.inside (.write c v (probabilityKey v) p)) := by
        unfold Sys.setThread; simp [Function.update_idem]
      rw [e4] at this
      exact this
    | some key =>
      simp only [hg, reduceCtorEq, decide_false] at hf
      rw [hg, hσ c' v' key hg] at r
      obtain ⟨p', hp'⟩ := ih1 hf (s.setThread i (.between (k (some (probabilityKey v'))))) hs
        (by rw [setThread_threads, if_pos rfl])
      refine ⟨p', reach_trans r ?_⟩
      have e5 : (s.setThread i (.between (k (some (probabilityKey v'))))).setThread i
          (.inside (.write c v (probabilityKey v) p')) = s.setThread i (.inside (.write c v (probabilityKey v) p')) := by
        unfold Sys.setThread; simp [Function.update_idem]
      rw [e5] at hp'
      exact hp'

end

end Gopmml
