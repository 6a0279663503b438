import Verif.Proofs.Walk
import Verif.Proofs.Labels
import Verif.Props.XmlText

/-!
# C105 — Which files the program runs
-/

namespace Gopmml.Props

open Gopmml Spec WalkProof

section

variable {F : Type} [Arith F] [Lib F] [Trans F] [NameTables] [Reflect]

omit [NameTables] [Reflect] in
/-- The program gets past the search if and only if everything below the directory can be read; then the map has, for
each `stem`, the last file `stem.xml`. -/
theorem C105_files (pre : List String) {root : FsEntry} (hl : LegalTree root) :
    (∃ m, modelFiles pre root = .ok m) ↔ ∀ p, ¬ Blocked root p := by
  constructor
  · rintro ⟨m, h⟩
    rw [modelFiles] at h
    rcases hw : walk root with e | fs
    · rw [hw] at h; simp at h
    · exact (walk_ok root hl fs hw).2.2
  · intro h
    rw [modelFiles]
    rcases hw : walk root with e | fs
    · exact absurd (walk_error root hl e hw).1 (h e)
    · exact ⟨_, rfl⟩

omit [NameTables] [Reflect] in
theorem C105_last (pre : List String) {root : FsEntry} (hl : LegalTree root)
    {m : GoMap (List String × Option String)} (h : modelFiles pre root = .ok m) (stem : String) (path : List String)
    (text : Option String) : m[stem]? = some (path, text) ↔ LastNamed root stem path text :=
  modelFiles_get pre hl h stem (path, text)

theorem gives_or_fails (calls : List String → List (MapOrd × Row F)) (path : List String) (text : Option String) :
    (∃ outs, Gives calls path text outs) ∨ ∃ c, Fails calls path text c := by
  cases text with
  | none => exact .inr ⟨_, rfl⟩
  | some s =>
    cases h : runText s (calls path) with
    | error k => exact .inr ⟨_, k, h, rfl⟩
    | ok outs => exact .inl ⟨outs, s, rfl, h⟩

theorem not_both (calls : List String → List (MapOrd × Row F)) {path : List String} {text : Option String}
    {outs : List (Out F)} {c : MainCrash} (h : Gives calls path text outs) (h' : Fails calls path text c) : False := by
  obtain ⟨s, rfl, h⟩ := h
  obtain ⟨k, hk, _⟩ := h'
  rw [h] at hk
  cases hk

theorem runFiles_ok (calls : List String → List (MapOrd × Row F)) :
    ∀ (l : List (String × List String × Option String)) outs, runFiles calls l = .ok outs ↔
      List.Forall₂ (fun f (out : List String × List (Out F)) => out.1 = f.2.1 ∧ Gives calls f.2.1 f.2.2 out.2) l outs
  | [], outs => by simp [runFiles, eq_comm]
  | (k, path, none) :: l, outs => by
    rw [runFiles]
    constructor
    · intro h; cases h
    · intro h
      cases h with
      | cons h _ => obtain ⟨_, s, hs, _⟩ := h; cases hs
  | (k, path, some s) :: l, outs => by
    rw [runFiles]
    cases hr : runText s (calls path) with
    | error c =>
      constructor
      · intro h; cases h
      · intro h
        cases h with
        | cons h _ =>
          obtain ⟨_, s', hs, h⟩ := h
          cases hs
          rw [hr] at h
          cases h
    | ok o1 =>
      dsimp only
      constructor
      · intro h
        cases hl : runFiles calls l with
        | error c => rw [hl] at h; cases h
        | ok rest =>
          rw [hl] at h
          cases h
          exact .cons ⟨rfl, s, rfl, hr⟩ ((runFiles_ok calls l rest).1 hl)
      · intro h
        cases h with
        | @cons _ b _ bs h hs =>
          obtain ⟨b1, b2⟩ := b
          obtain ⟨h1, s', hs', h⟩ := h
          cases hs'
          rw [hr] at h
          cases h
          dsimp only at h1
          subst h1
          rw [(runFiles_ok calls l bs).2 hs]

theorem runFiles_error (calls : List String → List (MapOrd × Row F)) :
    ∀ (l : List (String × List String × Option String)) c, runFiles calls l = .error c →
      ∃ f ∈ l, Fails calls f.2.1 f.2.2 c
  | [], c, h => by simp [runFiles] at h
  | (k, path, none) :: l, c, h => by
    rw [runFiles] at h
    cases h
    exact ⟨_, List.mem_cons_self, rfl⟩
  | (k, path, some s) :: l, c, h => by
    rw [runFiles] at h
    cases hr : runText s (calls path) with
    | error e =>
      rw [hr] at h
      cases h
      exact ⟨_, List.mem_cons_self, e, hr, rfl⟩
    | ok o1 =>
      rw [hr] at h
      dsimp only at h
      cases hl : runFiles calls l with
      | error c' =>
        rw [hl] at h
        cases h
        obtain ⟨f, hf, h⟩ := runFiles_error calls l _ hl
        exact ⟨f, List.mem_cons_of_mem _ hf, h⟩
      | ok rest => rw [hl] at h; cases h

/-- The search fails with the first thing that cannot be read, and with nothing else. -/
theorem C105_blocked (o : MapOrd) (pre : List String) {root : FsEntry} (hl : LegalTree root)
    (calls : List String → List (MapOrd × Row F)) (p : List String) :
    runMain o pre root calls = .error (.walk p) ↔
      Blocked root p ∧ ∀ q, Blocked root q → q = p ∨ Before p q := by
  rw [runMain, modelFiles]
  rcases hw : walk root with e | fs
  · obtain ⟨h1, h2⟩ := walk_error root hl e hw
    dsimp only
    constructor
    · intro h; cases h; exact ⟨h1, h2⟩
    · rintro ⟨h3, h4⟩
      rcases h4 e h1 with rfl | h
      · rfl
      · rcases h2 p h3 with rfl | h'
        · rfl
        · exact absurd h (before_asymm h')
  · dsimp only
    constructor
    · intro h
      obtain ⟨f, _, h⟩ := runFiles_error calls _ _ h
      unfold Fails at h
      split at h
      · cases h
      · obtain ⟨_, _, h⟩ := h; cases h
    · rintro ⟨h, _⟩
      exact absurd h ((walk_ok root hl fs hw).2.2 p)

omit [NameTables] [Reflect] in
theorem mem_files {o : MapOrd} {pre : List String} {root : FsEntry} (hl : LegalTree root)
    {m : GoMap (List String × Option String)} (h : modelFiles pre root = .ok m) {f : String × List String × Option String} :
    f ∈ o.range m ↔ LastNamed root f.1 f.2.1 f.2.2 := by
  rw [MapOrd.mem_range]
  exact modelFiles_get pre hl h f.1 f.2

/-- The program finishes if and only if everything can be read and each file that is last of its name can be opened, read,
and answers every call.  The order of the map does not matter. -/
theorem C105_finishes (o : MapOrd) (pre : List String) {root : FsEntry} (hl : LegalTree root)
    (calls : List String → List (MapOrd × Row F)) :
    (∃ outs, runMain o pre root calls = .ok outs) ↔
      (∀ p, ¬ Blocked root p) ∧
      ∀ stem path text, LastNamed root stem path text → ∃ outs, Gives calls path text outs := by
  rw [← C105_files pre hl]
  constructor
  · rintro ⟨outs, h⟩
    rw [runMain] at h
    rcases hm : modelFiles pre root with e | m
    · rw [hm] at h; cases h
    rw [hm] at h
    refine ⟨⟨m, rfl⟩, fun stem path text hlast => ?_⟩
    have hf := (runFiles_ok calls _ _).1 h
    have hin := (mem_files (o := o) hl hm (f := (stem, path, text))).2 hlast
    obtain ⟨_, _, h⟩ := forall₂_mem_left hf _ hin
    exact ⟨_, h.2⟩
  · rintro ⟨⟨m, hm⟩, h⟩
    rw [runMain, hm]
    dsimp only
    cases hr : runFiles calls (o.range m) with
    | ok outs => exact ⟨outs, rfl⟩
    | error c =>
      obtain ⟨f, hf, hc⟩ := runFiles_error calls _ _ hr
      obtain ⟨outs, ho⟩ := h f.1 f.2.1 f.2.2 ((mem_files hl hm).1 hf)
      exact absurd hc (fun hc => not_both calls ho hc)

omit [Arith F] [Lib F] [Trans F] [NameTables] [Reflect] in
theorem forall₂_paths {l : List (String × List String × Option String)} {outs : List (List String × List (Out F))}
    {G : List String → Option String → List (Out F) → Prop}
    (h : List.Forall₂ (fun f out => out.1 = f.2.1 ∧ G f.2.1 f.2.2 out.2) l outs) :
    outs.map (·.1) = l.map fun f => f.2.1 := by
  induction h with
  | nil => rfl
  | cons h _ ih => rw [List.map_cons, List.map_cons, h.1, ih]

/-- The answers are those of the last file of each name, each file once. -/
theorem C105_answers (o : MapOrd) (pre : List String) {root : FsEntry} (hl : LegalTree root)
    (calls : List String → List (MapOrd × Row F)) {outs : List (List String × List (Out F))}
    (h : runMain o pre root calls = .ok outs) :
    (outs.map (·.1)).Nodup ∧
    ∀ path rs, (path, rs) ∈ outs ↔ ∃ stem text, LastNamed root stem path text ∧ Gives calls path text rs := by
  rw [runMain] at h
  rcases hm : modelFiles pre root with e | m
  · rw [hm] at h; cases h
  rw [hm] at h
  have hf := (runFiles_ok calls _ _).1 h
  have hnd : ((o.range m).map fun f => f.2.1).Nodup := by
    have hk := o.nodup_range m
    unfold List.Nodup at hk ⊢
    rw [List.pairwise_map] at hk ⊢
    refine hk.imp_of_mem fun {a b} ha hb hne heq => hne ?_
    have h1 := ((mem_files hl hm).1 ha).2.1
    have h2 := ((mem_files hl hm).1 hb).2.1
    unfold NamedXml at h1 h2
    rw [heq, h2] at h1
    have := congrArg String.toList (Option.some.inj h1)
    rw [String.toList_append, String.toList_append] at this
    exact (String.ext_iff.2 (List.append_cancel_right this)).symm
  have hpaths := forall₂_paths (G := fun p t rs => Gives calls p t rs) hf
  refine ⟨by rw [hpaths]; exact hnd, fun path rs => ⟨fun hin => ?_, ?_⟩⟩
  · obtain ⟨f, hf1, h1, h2⟩ := forall₂_mem_right hf _ hin
    dsimp only at h1 h2
    subst h1
    exact ⟨f.1, f.2.2, (mem_files hl hm).1 hf1, h2⟩
  · rintro ⟨stem, text, h1, h2⟩
    obtain ⟨⟨p', rs'⟩, hb, h3, h4⟩ := forall₂_mem_left hf _ ((mem_files (o := o) hl hm (f := (stem, path, text))).2 h1)
    dsimp only at h3 h4
    subst h3
    obtain ⟨s, rfl, h2⟩ := h2
    obtain ⟨s', hs', h4⟩ := h4
    cases hs'
    rw [h2] at h4
    cases h4
    exact hb

/-- Two runs visiting the map in different orders give the same answers in another order. -/
theorem C105_order (o o' : MapOrd) (pre : List String) {root : FsEntry} (hl : LegalTree root)
    (calls : List String → List (MapOrd × Row F)) {outs : List (List String × List (Out F))}
    (h : runMain o pre root calls = .ok outs) :
    ∃ outs', runMain o' pre root calls = .ok outs' ∧ outs'.Perm outs := by
  obtain ⟨outs', h'⟩ := (C105_finishes o' pre hl calls).2 ((C105_finishes o pre hl calls).1 ⟨outs, h⟩)
  refine ⟨outs', h', ?_⟩
  obtain ⟨a1, a2⟩ := C105_answers o pre hl calls h
  obtain ⟨b1, b2⟩ := C105_answers o' pre hl calls h'
  refine (List.perm_ext_iff_of_nodup b1.of_map a1.of_map).2 fun ⟨p, rs⟩ => ?_
  rw [a2, b2]

/-- Any other crash is that of a file which is last of its name; and each such file's crash is what some order of the map
reports. -/
theorem C105_crashes (pre : List String) {root : FsEntry} (hl : LegalTree root) (hb : ∀ p, ¬ Blocked root p)
    (calls : List String → List (MapOrd × Row F)) (c : MainCrash) :
    (∃ o, runMain o pre root calls = .error c) ↔
      ∃ stem path text, LastNamed root stem path text ∧ Fails calls path text c := by
  obtain ⟨m, hm⟩ := (C105_files pre hl).2 hb
  constructor
  · rintro ⟨o, h⟩
    rw [runMain, hm] at h
    obtain ⟨f, hf, hc⟩ := runFiles_error calls _ _ h
    exact ⟨f.1, f.2.1, f.2.2, (mem_files hl hm).1 hf, hc⟩
  · rintro ⟨stem, path, text, h1, h2⟩
    have hin := (mem_files (o := .sorted) hl hm (f := (stem, path, text))).2 h1
    obtain ⟨A, B, hAB⟩ := List.append_of_mem hin
    obtain ⟨o, ho⟩ := MapOrd.exists_order m.toList ((stem, path, text) :: (A ++ B)) (by
      refine List.Perm.trans ?_ (MapOrd.sorted.range_perm m)
      rw [hAB]
      exact List.perm_middle.symm)
    refine ⟨o, ?_⟩
    rw [runMain, hm]
    dsimp only
    rw [MapOrd.range, ho]
    cases text with
    | none => rw [runFiles, h2]
    | some s =>
      obtain ⟨k, hk, rfl⟩ := h2
      rw [runFiles, hk]

/-- Nothing but the last file of each name matters: neither files that do not end in `.xml` nor files of a name that comes
again later in the walk. -/
theorem C105_nothing_else (o : MapOrd) (pre pre' : List String) {root root' : FsEntry} (hl : LegalTree root)
    (hl' : LegalTree root') (hb : ∀ p, ¬ Blocked root p) (hb' : ∀ p, ¬ Blocked root' p)
    (h : ∀ stem path text, LastNamed root stem path text ↔ LastNamed root' stem path text)
    (calls : List String → List (MapOrd × Row F)) :
    runMain o pre root calls = runMain o pre' root' calls := by
  obtain ⟨m, hm⟩ := (C105_files pre hl).2 hb
  obtain ⟨m', hm'⟩ := (C105_files pre' hl').2 hb'
  have : m = m' := by
    ext1 k
    apply Option.ext
    intro f
    rw [modelFiles_get pre hl hm, modelFiles_get pre' hl' hm', h]
  rw [runMain, runMain, hm, hm', this]

end

namespace WalkExample
open Samples Replay MainExample TextExample

local instance : NameTables := ⟨fun _ => false, fun _ => false⟩
local instance : Reflect := ⟨fun _ _ _ => true⟩

/-- A tree with one node. -/
def text : String := "<a><TreeModel functionName='regression'><Node score='7'><True/></Node></TreeModel></a>"

/-- Two files `m.xml`, one of them no document; a file with two dots; a file that is no `.xml` file. -/
def tree (a : String) : FsEntry :=
  .dir "perf" [.file "m.xml" (some text), .file "notes.txt" none,
    .dir "b" [.file "m_0.3.xml" (some text)], .dir "a" [.file "m.xml" (some a)]]

theorem legal (a : String) : LegalTree (tree a) := by
  refine .dir (by unfold LegalName; decide +kernel) ?_ (by show (["m.xml", "notes.txt", "b", "a"] : List String).Nodup; decide +kernel)
  intro e he
  simp only [List.mem_cons, List.not_mem_nil, or_false] at he
  rcases he with rfl | rfl | rfl | rfl
  · exact .file (by unfold LegalName; decide +kernel)
  · exact .file (by unfold LegalName; decide +kernel)
  · refine .dir (by unfold LegalName; decide +kernel) ?_ (by show (["m_0.3.xml"] : List String).Nodup; decide +kernel)
    intro e he
    cases List.mem_singleton.1 he
    exact .file (by unfold LegalName; decide +kernel)
  · refine .dir (by unfold LegalName; decide +kernel) ?_ (by show (["m.xml"] : List String).Nodup; decide +kernel)
    intro e he
    cases List.mem_singleton.1 he
    exact .file (by unfold LegalName; decide +kernel)

/-- The other `m.xml` comes first in the walk and is never opened, whatever it says. -/
example (o : MapOrd) : ∃ outs, runMain o ["evaluation", "testdata"] (tree "no document") (fun _ => [call "1"]) = .ok outs ∧
    outs.Perm [(["perf", "m.xml"], [some (mk [("score", .f64 (num "7"))])]),
      (["perf", "b", "m_0.3.xml"], [some (mk [("score", .f64 (num "7"))])])] :=
  C105_order .sorted o _ (legal _) _ (by decide +kernel)

/-- Something that cannot be read ends the search, though another file would end the program too. -/
example : runMain (F := F64) .sorted [] (.dir "perf" [.unreadable "z", .file "m.xml" (some ""), .dir "c" [.unreadable "x"]])
    (fun _ => []) = .error (.walk ["perf", "c", "x"]) := by
  decide +kernel

/-- The order of the map decides which crash is reported. -/
example : runMain (F := F64) .sorted [] (.dir "perf" [.file "a.xml" none, .file "b.xml" (some "<a/>")]) (fun _ => []) =
      .error (.open_ ["perf", "a.xml"]) ∧
    runMain (F := F64) .reversed [] (.dir "perf" [.file "a.xml" none, .file "b.xml" (some "<a/>")]) (fun _ => []) =
      .error (.file ["perf", "b.xml"] .noModel) := by
  decide +kernel

end WalkExample

end Gopmml.Props
