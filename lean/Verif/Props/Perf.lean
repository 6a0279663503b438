import Verif.Spec.Perf
import Verif.Props.Walk
import Verif.Props.Safe
import Verif.Props.Bounds

/-!
# C107 — The performance test
-/

namespace Gopmml.Props

open Gopmml Spec WalkProof

section

variable {F : Type} [Arith F] [Lib F] [Trans F]

/-! ## Rows -/

omit [Arith F] [Lib F] [Trans F] in
theorem perfCalls_eq (rand : Nat → F) (ord : Nat → MapOrd) : ∀ n start,
    perfCalls rand ord start n = (List.range n).map fun i => (ord (start + i), perfRow rand (start + i))
  | 0, _ => rfl
  | n + 1, start => by
    rw [perfCalls, perfCalls_eq rand ord n, List.range_succ_eq_map, List.map_cons, List.map_map]
    congr 1
    refine List.map_congr_left fun i _ => ?_
    show _ = (ord (start + (i + 1)), perfRow rand (start + (i + 1)))
    rw [Nat.add_assoc, Nat.add_comm 1 i]

omit [Arith F] [Lib F] [Trans F] in
/-- **C107**: row `i` holds the six fields and nothing else, each a float64 and the next number drawn. -/
theorem C107_rows (rand : Nat → F) (i : Nat) (k : String) (v : GoVal F) :
    (perfRow rand i).get k = some v ↔ ∃ j, perfFields[j]? = some k ∧ v = .f64 (rand (6 * i + j)) := by
  have hget : (perfRow rand i).get k =
      if k = "emails_per_device" then some (.f64 (rand (6 * i + 5)))
      else if k = "amount" then some (.f64 (rand (6 * i + 4)))
      else if k = "dollars_in_out_1h" then some (.f64 (rand (6 * i + 3)))
      else if k = "dollars_out_by_email" then some (.f64 (rand (6 * i + 2)))
      else if k = "emails_per_bank" then some (.f64 (rand (6 * i + 1)))
      else if k = "is_email_domain_free" then some (.f64 (rand (6 * i)))
      else none := by
    simp only [@eq_comm _ k]
    simp [perfRow, Row.get, GoMap.getElem?_insert]
  rw [hget]
  constructor
  · intro h
    split_ifs at h <;> cases h <;> subst k
    · exact ⟨5, rfl, rfl⟩
    · exact ⟨4, rfl, rfl⟩
    · exact ⟨3, rfl, rfl⟩
    · exact ⟨2, rfl, rfl⟩
    · exact ⟨1, rfl, rfl⟩
    · exact ⟨0, rfl, rfl⟩
  · rintro ⟨j, hj, rfl⟩
    match j, hj with
    | 0, hj => cases hj; rfl
    | 1, hj => cases hj; rfl
    | 2, hj => cases hj; rfl
    | 3, hj => cases hj; rfl
    | 4, hj => cases hj; rfl
    | 5, hj => cases hj; rfl
    | n + 6, hj => simp [perfFields] at hj

omit [Arith F] [Lib F] [Trans F] in
theorem perfRow_isSome (rand : Nat → F) (i : Nat) (k : String) :
    ((perfRow rand i).get k).isSome ↔ k ∈ perfFields := by
  rw [Option.isSome_iff_exists, List.mem_iff_getElem?]
  constructor
  · rintro ⟨v, h⟩
    obtain ⟨j, hj, -⟩ := (C107_rows rand i k v).1 h
    exact ⟨j, hj⟩
  · rintro ⟨j, hj⟩
    exact ⟨_, (C107_rows rand i k _).2 ⟨j, hj, rfl⟩⟩

/-! ## One file -/

omit [Arith F] [Lib F] [Trans F] in
theorem answer_of_row {R : MapOrd × Row F → Out F → Prop} : ∀ {l l'}, List.Forall₂ R l l' → ∀ a ∈ l, ∃ b ∈ l', R a b := by
  intro l l' h
  induction h with
  | nil => simp
  | cons h _ ih =>
    intro a ha
    rcases List.mem_cons.1 ha with rfl | ha
    · exact ⟨_, List.mem_cons_self, h⟩
    · obtain ⟨b, hb, hR⟩ := ih a ha
      exact ⟨b, List.mem_cons_of_mem _ hb, hR⟩

omit [Arith F] [Lib F] [Trans F] in
theorem row_of_answer {R : MapOrd × Row F → Out F → Prop} : ∀ {l l'}, List.Forall₂ R l l' → ∀ b ∈ l', ∃ a ∈ l, R a b := by
  intro l l' h
  induction h with
  | nil => simp
  | cons h _ ih =>
    intro b hb
    rcases List.mem_cons.1 hb with rfl | hb
    · exact ⟨_, List.mem_cons_self, h⟩
    · obtain ⟨a, ha, hR⟩ := ih b hb
      exact ⟨a, List.mem_cons_of_mem _ ha, hR⟩

section
variable [NameTables] [Reflect]

/-- A file is answered exactly if it has a first model that can be built, and this model, fresh, answers every row. -/
theorem runText_ok (s : String) (calls : List (MapOrd × Row F)) (outs : List (Out F)) :
    runText s calls = .ok outs ↔ ∃ dd td e m, FirstModel s dd td e ∧ (newModel dd e td).1 = .ok m ∧
      List.Forall₂ (fun c out => (EModel.evaluate c.1 m c.2).res = .ok out) calls outs := by
  constructor
  · intro h
    rw [runText] at h
    split at h
    · rename_i n as ch hx
      rw [runFile, loadFile] at h
      split at h
      · cases h
      rename_i m hm
      split at hm
      · cases hm
      rename_i p hp
      split at hm
      · cases hm
      rename_i e es he
      split at hm
      · cases hm
      rename_i m' hm'
      cases hm
      refine ⟨_, _, e, m, ⟨n, as, ch, p, es, hx, hp, he, rfl, rfl⟩, hm', ?_⟩
      have hn : newModel p.dataDictionary e p.transformations = (.ok m, (newModel p.dataDictionary e p.transformations).2) :=
        Prod.ext hm' rfl
      exact ((callAll_eq hn calls []).1 outs).1 h
    · cases h
  · rintro ⟨dd, td, e, m, ⟨n, as, ch, p, es, hx, hp, he, rfl, rfl⟩, hm, h⟩
    have hn : newModel p.dataDictionary e p.transformations = (.ok m, (newModel p.dataDictionary e p.transformations).2) :=
      Prod.ext hm rfl
    have := ((callAll_eq hn calls []).1 outs).2 h
    rw [runText, hx]
    show runFile as ch calls = _
    simp only [runFile, loadFile, hp, he, hm]
    exact this

omit [Trans F] in
theorem firstModel_unique {s : String} {dd dd' : List DataField} {td td' : TD F} {e e' : ModelElem F}
    (h : FirstModel s dd td e) (h' : FirstModel s dd' td' e') : dd = dd' ∧ td = td' ∧ e = e' := by
  obtain ⟨n, as, ch, p, es, hx, hp, he, rfl, rfl⟩ := h
  obtain ⟨n', as', ch', p', es', hx', hp', he', rfl, rfl⟩ := h'
  rw [hx] at hx'
  cases hx'
  rw [hp] at hp'
  cases hp'
  rw [he] at he'
  cases he'
  exact ⟨rfl, rfl, rfl⟩

/-! ## Which rows a file gets -/

theorem runFiles_congr {calls calls' : List String → List (MapOrd × Row F)} :
    ∀ (l : List (String × List String × Option String)), (∀ f ∈ l, calls f.2.1 = calls' f.2.1) →
      runFiles calls l = runFiles calls' l
  | [], _ => rfl
  | (k, path, none) :: l, _ => by rw [runFiles, runFiles]
  | (k, path, some s) :: l, h => by
    rw [runFiles, runFiles, h _ List.mem_cons_self,
      runFiles_congr l fun f hf => h f (List.mem_cons_of_mem _ hf)]

/-- The place of a path in a list of files. -/
def placeOf (path : List String) (l : List (String × List String × Option String)) : Nat :=
  l.findIdx fun f => f.2.1 == path

theorem perfFiles_eq (rand : Nat → F) (ord : Nat → MapOrd) (n : Nat) :
    ∀ (l : List (String × List String × Option String)) (start : Nat), (l.map fun f => f.2.1).Nodup →
      perfFiles rand ord n start l =
        runFiles (fun path => perfCalls rand ord (start + placeOf path l * n) n) l
  | [], _, _ => rfl
  | (k, path, text) :: l, start, hnd => by
    rw [List.map_cons, List.nodup_cons] at hnd
    have h0 : placeOf path ((k, path, text) :: l) = 0 := by simp [placeOf, List.findIdx_cons]
    have h1 : ∀ f ∈ l, placeOf f.2.1 ((k, path, text) :: l) = placeOf f.2.1 l + 1 := by
      intro f hf
      have : ¬ path = f.2.1 := fun h => hnd.1 (List.mem_map.2 ⟨f, hf, h.symm⟩)
      have : (path == f.2.1) = false := beq_false_of_ne this
      simp [placeOf, List.findIdx_cons, this]
    cases text with
    | none => rw [perfFiles, runFiles]
    | some s =>
      rw [perfFiles, runFiles, h0, Nat.zero_mul, Nat.add_zero, perfFiles_eq rand ord n l (start + n) hnd.2]
      have : runFiles (fun p => perfCalls rand ord (start + n + placeOf p l * n) n) l =
          runFiles (fun p => perfCalls rand ord (start + placeOf p ((k, path, some s) :: l) * n) n) l := by
        refine runFiles_congr l fun f hf => ?_
        rw [h1 f hf, Nat.succ_mul]
        congr 1
        omega
      rw [this]
      rfl

omit [NameTables] [Reflect] in
theorem paths_nodup {o : MapOrd} {pre : List String} {root : FsEntry} (hl : LegalTree root)
    {m : GoMap (List String × Option String)} (hm : modelFiles pre root = .ok m) :
    ((o.range m).map fun f => f.2.1).Nodup := by
  have hk := o.nodup_range m
  unfold List.Nodup at hk ⊢
  rw [List.pairwise_map] at hk ⊢
  refine hk.imp_of_mem fun {a b} ha hb hne heq => hne ?_
  have h1 := ((mem_files hl hm).1 ha).2.1
  have h2 := ((mem_files hl hm).1 hb).2.1
  unfold NamedXml at h1 h2
  rw [heq, h2] at h1
  have := congrArg String.toList (Option.some.inj h1)
  rw [String.toList_append, String.toList_append] at this
  exact (String.ext_iff.2 (List.append_cancel_right this)).symm

/-- **C107**: the files take their turns; the file with `j` others before it gets the rows from `j * n` to
`(j + 1) * n`, so no number is used twice and none is left out. -/
theorem C107_turns (o : MapOrd) (rand : Nat → F) (ord : Nat → MapOrd) (n : Nat) (pre : List String) {root : FsEntry}
    (hl : LegalTree root) : ∃ place : List String → Nat,
    perfMain o rand ord n pre root = runMain o pre root (fun path =>
      (List.range n).map fun i => (ord (place path * n + i), perfRow rand (place path * n + i))) ∧
    ((∀ p, ¬ Blocked root p) → Turns root place) := by
  rcases hm : modelFiles pre root with e | m
  · refine ⟨fun _ => 0, by rw [perfMain, runMain, hm], fun hb => ?_⟩
    obtain ⟨m, hm'⟩ := (C105_files pre hl).2 hb
    rw [hm] at hm'
    cases hm'
  have hnd := paths_nodup (o := o) hl hm
  have hlt : ∀ p, Chosen root p → ∃ h : placeOf p (o.range m) < (o.range m).length,
      ((o.range m)[placeOf p (o.range m)]).2.1 = p := by
    rintro p ⟨stem, text, h⟩
    have hf := (mem_files (o := o) hl hm (f := (stem, p, text))).2 h
    have h1 : placeOf p (o.range m) < (o.range m).length :=
      List.findIdx_lt_length_of_exists ⟨_, hf, by simp⟩
    refine ⟨h1, ?_⟩
    exact beq_iff_eq.1 (List.findIdx_getElem (p := fun f : String × List String × Option String => f.2.1 == p) (w := h1))
  refine ⟨fun p => placeOf p (o.range m), ?_, fun _ => ⟨fun p q hp hq h => ?_, fun p hp j hj => ?_⟩⟩
  · rw [perfMain, runMain, hm]
    dsimp only
    rw [perfFiles_eq rand ord n _ 0 hnd]
    simp only [perfCalls_eq, Nat.zero_add]
  · obtain ⟨h1, h2⟩ := hlt p hp
    obtain ⟨h3, h4⟩ := hlt q hq
    dsimp only at h
    rw [← h2, ← h4]
    simp only [h]
  · obtain ⟨h1, h2⟩ := hlt p hp
    have hj' : j < (o.range m).length := Nat.lt_trans hj h1
    have hq : Chosen root ((o.range m)[j]).2.1 :=
      ⟨_, _, (mem_files (o := o) hl hm).1 (List.getElem_mem hj')⟩
    refine ⟨_, hq, ?_⟩
    obtain ⟨h3, h4⟩ := hlt _ hq
    have := (List.Nodup.getElem_inj_iff hnd (i := placeOf ((o.range m)[j]).2.1 (o.range m)) (j := j)
      (hi := by simpa using h3) (hj := by simpa using hj')).1 (by simpa using h4)
    exact this

/-! ## Whether it finishes -/

/-- **C107**: the test finishes exactly if the directory can be read, every file has a first model that can be built,
and this model answers each of its rows when asked that row alone. -/
theorem C107_finishes (o : MapOrd) (rand : Nat → F) (ord : Nat → MapOrd) (n : Nat) (pre : List String) {root : FsEntry}
    (hl : LegalTree root) : ∃ place : List String → Nat, ((∀ p, ¬ Blocked root p) → Turns root place) ∧
    ((∃ outs, perfMain o rand ord n pre root = .ok outs) ↔
      (∀ p, ¬ Blocked root p) ∧ ∀ stem path text, LastNamed root stem path text →
        ∃ s dd td e m, text = some s ∧ FirstModel s dd td e ∧ (newModel dd e td).1 = .ok m ∧
          ∀ i < n, ∃ out, (EModel.evaluate (ord (place path * n + i)) m (perfRow rand (place path * n + i))).res = .ok out) := by
  obtain ⟨place, h, ht⟩ := C107_turns o rand ord n pre hl
  refine ⟨place, ht, ?_⟩
  rw [h, C105_finishes o pre hl]
  refine and_congr_right fun _ => forall_congr' fun stem => forall_congr' fun path => forall_congr' fun text =>
    imp_congr_right fun _ => ?_
  constructor
  · rintro ⟨outs, s, rfl, hr⟩
    obtain ⟨dd, td, e, m, h1, h2, h3⟩ := (runText_ok s _ outs).1 hr
    refine ⟨s, dd, td, e, m, rfl, h1, h2, fun i hi => ?_⟩
    obtain ⟨b, -, hb⟩ := answer_of_row h3 _ (List.mem_map_of_mem (List.mem_range.2 hi))
    exact ⟨b, hb⟩
  · rintro ⟨s, dd, td, e, m, rfl, h1, h2, h3⟩
    have : ∀ l : List Nat, (∀ i ∈ l, i < n) → ∃ outs, List.Forall₂
        (fun (c : MapOrd × Row F) out => (EModel.evaluate c.1 m c.2).res = .ok out)
        (l.map fun i => (ord (place path * n + i), perfRow rand (place path * n + i))) outs := by
      intro l
      induction l with
      | nil => exact fun _ => ⟨[], .nil⟩
      | cons i l ih =>
        intro hl
        obtain ⟨outs, ho⟩ := ih fun j hj => hl j (List.mem_cons_of_mem _ hj)
        obtain ⟨out, hout⟩ := h3 i (hl i List.mem_cons_self)
        exact ⟨out :: outs, .cons hout ho⟩
    obtain ⟨outs, ho⟩ := this (List.range n) fun i hi => List.mem_range.1 hi
    exact ⟨outs, s, rfl, (runText_ok s _ outs).2 ⟨dd, td, e, m, h1, h2, ho⟩⟩

/-- **C107** (answers): every file that is run has one answer for each of its rows, the one its model gives when asked
that row alone. -/
theorem C107_answers (o : MapOrd) (rand : Nat → F) (ord : Nat → MapOrd) (n : Nat) (pre : List String) {root : FsEntry}
    (hl : LegalTree root) {outs : List (List String × List (Out F))} (h : perfMain o rand ord n pre root = .ok outs) :
    (∀ path, Chosen root path ↔ path ∈ outs.map (·.1)) ∧
    ∃ place : List String → Nat, Turns root place ∧ ∀ path rs, (path, rs) ∈ outs → rs.length = n ∧ ∃ stem s dd td e m,
      LastNamed root stem path (some s) ∧ FirstModel s dd td e ∧ (newModel dd e td).1 = .ok m ∧
      ∀ i out, rs[i]? = some out →
        (EModel.evaluate (ord (place path * n + i)) m (perfRow rand (place path * n + i))).res = .ok out := by
  obtain ⟨place, h', ht⟩ := C107_turns o rand ord n pre hl
  rw [h'] at h
  obtain ⟨-, ha⟩ := C105_answers o pre hl _ h
  obtain ⟨hb, hf⟩ := (C105_finishes o pre hl _).1 ⟨outs, h⟩
  refine ⟨fun path => ⟨?_, ?_⟩, place, ht hb, fun path rs hin => ?_⟩
  · rintro ⟨stem, text, hln⟩
    obtain ⟨rs, hg⟩ := hf stem path text hln
    exact List.mem_map.2 ⟨(path, rs), (ha path rs).2 ⟨stem, text, hln, hg⟩, rfl⟩
  · intro hp
    obtain ⟨⟨p, rs⟩, hin, rfl⟩ := List.mem_map.1 hp
    obtain ⟨stem, text, hln, -⟩ := (ha _ rs).1 hin
    exact ⟨stem, text, hln⟩
  · obtain ⟨stem, text, hln, s, rfl, hr⟩ := (ha path rs).1 hin
    obtain ⟨dd, td, e, m, h1, h2, h3⟩ := (runText_ok s _ rs).1 hr
    refine ⟨?_, stem, s, dd, td, e, m, hln, h1, h2, fun i out hi => ?_⟩
    · have := h3.length_eq
      simpa using this.symm
    · rw [List.forall₂_iff_get] at h3
      obtain ⟨hi', rfl⟩ := List.getElem?_eq_some_iff.1 hi
      have hin : i < n := by
        have := h3.1
        simp at this
        omega
      have := h3.2 i (by simpa using hin) hi'
      simpa using this

/-- **C107** (a check in advance): if every file passes the check for the six fields, the test finishes, whatever is
drawn, however many rows, and whatever the order of the maps. -/
theorem C107_checked (pre : List String) {root : FsEntry} (hl : LegalTree root) (hb : ∀ p, ¬ Blocked root p)
    (hc : ∀ stem path text, LastNamed root stem path text → ∃ s, text = some s ∧ Checked F s)
    (o : MapOrd) (rand : Nat → F) (ord : Nat → MapOrd) (n : Nat) :
    ∃ outs, perfMain o rand ord n pre root = .ok outs := by
  obtain ⟨place, -, h⟩ := C107_finishes o rand ord n pre hl
  refine h.2 ⟨hb, fun stem path text hln => ?_⟩
  obtain ⟨s, rfl, dd, td, e, hf, ⟨m, hm⟩, hs⟩ := hc stem path text hln
  refine ⟨s, dd, td, e, m, rfl, hf, hm, fun i _ => ?_⟩
  have hn : newModel dd e td = (.ok m, (newModel dd e td).2) := Prod.ext hm rfl
  exact C94_never_fails hn hs [] _ _ fun k hk => (perfRow_isSome rand _ k).2 hk

omit [Trans F] in
/-- **C107**: the check can be computed. -/
theorem C107_check (s : String) : checkText F s = true ↔ Checked F s := by
  unfold checkText
  constructor
  · intro h
    split at h
    · rename_i n as ch hx
      split at h
      · rename_i p hp
        split at h
        · cases h
        · rename_i e es he
          rw [Bool.and_eq_true] at h
          refine ⟨_, _, e, ⟨n, as, ch, p, es, hx, hp, he, rfl, rfl⟩, ?_, h.2⟩
          cases hm : (newModel p.dataDictionary e p.transformations).1 with
          | error f => rw [hm] at h; cases h.1
          | ok m => exact ⟨m, rfl⟩
      · cases h
    · cases h
  · rintro ⟨dd, td, e, ⟨n, as, ch, p, es, hx, hp, he, rfl, rfl⟩, ⟨m, hm⟩, hs⟩
    simp only [hx, hp, he, hm, hs]
    rfl

/-- **C107** (regressions): if all first models are regressions, a single row decides: the test finishes exactly if
every file passes the check, so it finishes for all sequences of numbers or for none. -/
theorem C107_regressions (pre : List String) {root : FsEntry} (hl : LegalTree root)
    (hr : ∀ stem path s, LastNamed root stem path (some s) → ∀ (dd : List DataField) (td : TD F) (e : ModelElem F),
      FirstModel s dd td e → ∃ d, e = .regression d)
    (o : MapOrd) (rand : Nat → F) (ord : Nat → MapOrd) {n : Nat} (hn : 0 < n) :
    (∃ outs, perfMain o rand ord n pre root = .ok outs) ↔
      (∀ p, ¬ Blocked root p) ∧
      ∀ stem path text, LastNamed root stem path text → ∃ s, text = some s ∧ Checked F s := by
  refine ⟨fun h => ?_, fun h => C107_checked pre hl h.1 h.2 o rand ord n⟩
  obtain ⟨place, -, h'⟩ := C107_finishes o rand ord n pre hl
  obtain ⟨hb, hf⟩ := h'.1 h
  refine ⟨hb, fun stem path text hln => ?_⟩
  obtain ⟨s, dd, td, e, m, rfl, h1, h2, h3⟩ := hf stem path text hln
  refine ⟨s, rfl, dd, td, e, h1, ⟨m, h2⟩, ?_⟩
  obtain ⟨d, rfl⟩ := hr stem path s hln dd td e h1
  have hm : newModel dd (.regression d) td = (.ok m, (newModel dd (.regression d) td).2) := Prod.ext h2 rfl
  obtain ⟨h4, h5⟩ := (C94_regression hm _ _).1 (h3 0 hn)
  rw [safe, safeRegression, Bool.and_eq_true]
  refine ⟨?_, h5⟩
  simp only [tableFields, List.all_eq_true, List.mem_flatMap, List.mem_map, List.contains_eq_mem, decide_eq_true_eq]
  rintro k ⟨t, ht, np, hnp, rfl⟩
  exact (perfRow_isSome rand _ _).1 (h4 t ht np hnp)

/-- **C107** (numbers used): six times `n` numbers for each file, and no more, have an influence. -/
theorem C107_used (o : MapOrd) {rand rand' : Nat → F} {ord ord' : Nat → MapOrd} (n : Nat) (pre : List String)
    {root : FsEntry} {m : GoMap (List String × Option String)} (hm : modelFiles pre root = .ok m)
    (hr : ∀ i < 6 * n * m.size, rand i = rand' i) (ho : ∀ i < n * m.size, ord i = ord' i) :
    perfMain o rand ord n pre root = perfMain o rand' ord' n pre root := by
  have key : ∀ (l : List (String × List String × Option String)) (start : Nat),
      start + n * l.length ≤ n * m.size → perfFiles rand ord n start l = perfFiles rand' ord' n start l := by
    intro l
    induction l with
    | nil => intro _ _; rfl
    | cons f l ih =>
      intro start h
      obtain ⟨k, path, text⟩ := f
      rw [List.length_cons, Nat.mul_succ] at h
      cases text with
      | none => rw [perfFiles, perfFiles]
      | some s =>
        have hc : perfCalls rand ord start n = perfCalls rand' ord' start n := by
          rw [perfCalls_eq, perfCalls_eq]
          refine List.map_congr_left fun i hi => ?_
          have hi := List.mem_range.1 hi
          have h1 : start + i < n * m.size := by omega
          have h2 : ∀ j < 6, rand (6 * (start + i) + j) = rand' (6 * (start + i) + j) := by
            intro j hj
            refine hr _ ?_
            have : 6 * n * m.size = 6 * (n * m.size) := Nat.mul_assoc ..
            omega
          rw [ho _ h1]
          congr 1
          unfold perfRow
          have h0 := h2 0 (by omega)
          rw [Nat.add_zero] at h0
          rw [h0, h2 1 (by omega), h2 2 (by omega), h2 3 (by omega), h2 4 (by omega), h2 5 (by omega)]
        rw [perfFiles, perfFiles, hc, ih (start + n) (by omega)]
  rw [perfMain, perfMain, hm]
  refine key _ 0 ?_
  have : (o.range m).length = m.size := by
    rw [(o.range_perm m).length_eq, Std.ExtTreeMap.length_toList]
  rw [this]
  omega

end

end

/-! ## Bounds -/

section
variable [Trans F64] [NameTables] [Reflect]

omit [NameTables] [Reflect] [Trans F64] in
theorem perfRow_box {rand : Nat → F64} (hr : ∀ i, F64.le Arith.zero (rand i) = true ∧ F64.le (rand i) Arith.one = true)
    (i : Nat) : perfBox.Has (perfRow rand i) := by
  intro f
  unfold perfBox
  split_ifs with hf
  · obtain ⟨j, hj⟩ := List.mem_iff_getElem?.1 hf
    exact ⟨_, (C107_rows rand i f _).2 ⟨j, hj, rfl⟩, (hr _).1, (hr _).2⟩
  · show _ = none
    rw [← Option.not_isSome_iff_eq_none, perfRow_isSome]
    exact hf

/-- **C107** (bounds): numbers drawn lie between zero and one, so all answers lie within the bounds computed for that
region. -/
theorem C107_bounds (T : MonotoneTrans) (o : MapOrd) {rand : Nat → F64}
    (hr : ∀ i, F64.le Arith.zero (rand i) = true ∧ F64.le (rand i) Arith.one = true) (ord : Nat → MapOrd) (n : Nat)
    (pre : List String) {root : FsEntry} (hl : LegalTree root) {outs : List (List String × List (Out F64))}
    (h : perfMain o rand ord n pre root = .ok outs) {path : List String} {rs : List (Out F64)} (hin : (path, rs) ∈ outs)
    {stem s : String} (hs : LastNamed root stem path (some s)) {dd : List DataField} {td : TD F64} {e : ModelElem F64}
    (he : FirstModel s dd td e) : ∀ out ∈ rs, (bounds dd perfBox e td).1.Holds out := by
  obtain ⟨place, h', -⟩ := C107_turns o rand ord n pre hl
  rw [h'] at h
  obtain ⟨-, ha⟩ := C105_answers o pre hl _ h
  obtain ⟨stem', text, hln, s', rfl, hrun⟩ := (ha path rs).1 hin
  obtain ⟨dd', td', e', m, h1, h2, h3⟩ := (runText_ok s' _ rs).1 hrun
  have hss : s = s' := by
    have h1 := hs.2.1
    have h2 := hln.2.1
    unfold NamedXml at h1 h2
    rw [h1] at h2
    have := congrArg String.toList (Option.some.inj h2)
    rw [String.toList_append, String.toList_append] at this
    have : stem = stem' := String.ext_iff.2 (List.append_cancel_right this)
    subst this
    obtain ⟨m, hm⟩ := (C105_files pre hl).2 ((C105_finishes o pre hl _).1 ⟨outs, h⟩).1
    have e1 := (C105_last pre hl hm stem path (some s)).2 hs
    have e2 := (C105_last pre hl hm stem path (some s')).2 hln
    rw [e1] at e2
    cases e2
    rfl
  subst hss
  obtain ⟨rfl, rfl, rfl⟩ := firstModel_unique he h1
  intro out hout
  obtain ⟨c, hc, hev⟩ := row_of_answer h3 _ hout
  obtain ⟨i, -, rfl⟩ := List.mem_map.1 hc
  have hn : newModel dd e td = (.ok m, (newModel dd e td).2) := Prod.ext h2 rfl
  exact (C102_bounds T hn (perfRow_box hr _) _ hev).1

end

namespace PerfExample
open Samples Replay MainExample TextExample

local instance : NameTables := ⟨fun _ => false, fun _ => false⟩
local instance : Reflect := ⟨fun _ _ _ => true⟩

/-- A tree that looks at one of the six fields; `low` is the score for small amounts. -/
def text (low : String) : String :=
"<a><DataDictionary><DataField name='amount' dataType='double'/></DataDictionary><TreeModel functionName='regression'>" ++
"<Node score='1'><True/><Node score='" ++ low ++ "'><SimplePredicate field='amount' operator='lessThan' value='0.25'/>" ++
"</Node></Node></TreeModel></a>"

/-- A regression that needs one field. -/
def line (field : String) : String :=
"<a><RegressionModel functionName='regression' normalizationMethod='logit'><Output><OutputField name='p'/></Output>" ++
"<RegressionTable><NumericPredictor name='" ++ field ++ "' coefficient='1'/></RegressionTable></RegressionModel></a>"

def dir (a b : String) : FsEntry := .dir "perf" [.file "a.xml" (some a), .file "b.xml" (some b)]

theorem legal (a b : String) : LegalTree (dir a b) := by
  refine .dir (by unfold LegalName; decide +kernel) ?_ (by show (["a.xml", "b.xml"] : List String).Nodup; decide +kernel)
  intro e he
  simp only [List.mem_cons, List.not_mem_nil, or_false] at he
  rcases he with rfl | rfl
  · exact .file (by unfold LegalName; decide +kernel)
  · exact .file (by unfold LegalName; decide +kernel)

theorem tree_passes : checkText F64 (text "2") = true := by decide +kernel

theorem line_passes : checkText F64 (line "amount") = true := by decide +kernel

/-- A regression of a field that is not drawn does not pass, nor does a text that is no document. -/
example : checkText F64 (line "n") = false ∧ checkText F64 "<a>" = false := by decide +kernel

/-- Whatever is drawn, a tree and a regression of the six fields are run to the end. -/
example (o : MapOrd) (rand : Nat → F64) (ord : Nat → MapOrd) :
    ∃ outs, perfMain o rand ord iterations ["evaluation", "testdata"] (dir (text "2") (line "amount")) = .ok outs := by
  refine C107_checked _ (legal _ _) ?_ ?_ o rand ord _
  · rintro p (_ | ⟨he, h⟩)
    simp only [List.mem_cons, List.not_mem_nil, or_false] at he
    rcases he with rfl | rfl <;> cases h
  · rintro stem path text' ⟨h, -⟩
    cases h with
    | dir he h =>
      simp only [List.mem_cons, List.not_mem_nil, or_false] at he
      rcases he with rfl | rfl <;> cases h
      · exact ⟨_, rfl, (C107_check _).1 tree_passes⟩
      · exact ⟨_, rfl, (C107_check _).1 line_passes⟩

/-- A score that is no number goes unnoticed unless a small amount is drawn. -/
example :
    perfMain .sorted (fun _ => num "0.5") (fun _ => .sorted) 2 [] (.dir "perf" [.file "a.xml" (some (text "oops"))]) =
      .ok [(["perf", "a.xml"], [some (mk [("score", .f64 (num "1"))]), some (mk [("score", .f64 (num "1"))])])] := by
  decide +kernel

example :
    perfMain .sorted (fun i => if i = 10 then num "0.125" else num "0.5") (fun _ => .sorted) 2 []
      (.dir "perf" [.file "a.xml" (some (text "oops"))]) =
      .error (.file ["perf", "a.xml"] (.evaluate (.err (.parse "oops")))) := by
  decide +kernel

/-- The bounds for the tree. -/
def boundsOf (s : String) (k : String) : Option Region :=
  match XmlText.readXml s.toList with
  | some (.elem _ as ch) =>
    match decodePmml as ch with
    | .ok p => p.models.head?.map fun e => (bounds p.dataDictionary perfBox e p.transformations).1.entry k
    | .error _ => none
  | _ => none

example : boundsOf (text "2") "score" = some (.between (num "1") (num "2")) := by
  decide +kernel

/-- The hypothesis on the numbers. -/
example : ∀ i : Nat, F64.le Arith.zero ((fun _ => num "0.5" : Nat → F64) i) = true ∧
    F64.le ((fun _ => num "0.5" : Nat → F64) i) Arith.one = true := by
  have : F64.le Arith.zero (num "0.5") = true ∧ F64.le (num "0.5") Arith.one = true := by decide +kernel
  exact fun _ => this

end PerfExample

end Gopmml.Props
