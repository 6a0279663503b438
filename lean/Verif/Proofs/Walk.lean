import Verif.Spec.Walk
import Mathlib.Data.List.Nodup

/-!
# The order of a walk
-/

namespace Gopmml.WalkProof

open Gopmml Spec

mutual
theorem entry_ind {P : FsEntry → Prop} (hf : ∀ n t, P (.file n t)) (hu : ∀ n, P (.unreadable n))
    (hd : ∀ n es, (∀ e ∈ es, P e) → P (.dir n es)) : ∀ e, P e
  | .file n t => hf n t
  | .unreadable n => hu n
  | .dir n es => hd n es (entries_ind hf hu hd es)
theorem entries_ind {P : FsEntry → Prop} (hf : ∀ n t, P (.file n t)) (hu : ∀ n, P (.unreadable n))
    (hd : ∀ n es, (∀ e ∈ es, P e) → P (.dir n es)) : ∀ es : List FsEntry, ∀ e ∈ es, P e
  | [], _, h => by simp at h
  | e :: es, x, h => by
    rcases List.mem_cons.1 h with h | h
    · rw [h]; exact entry_ind hf hu hd e
    · exact entries_ind hf hu hd es x h
end

theorem walkEntries_eq : ∀ es : List FsEntry, walkEntries es = es.map fun e => (e.name, walk e)
  | [] => by simp [walkEntries]
  | e :: es => by simp [walkEntries, walkEntries_eq es]

theorem before_cons {p q : List String} (n : String) (h : Before p q) : Before (n :: p) (n :: q) := by
  obtain ⟨c, a, as, b, bs, rfl, rfl, hab⟩ := h
  exact ⟨n :: c, a, as, b, bs, rfl, rfl, hab⟩

theorem before_irrefl {p : List String} : ¬ Before p p := by
  rintro ⟨c, a, as, b, bs, rfl, h, hab⟩
  have := List.append_cancel_left h
  simp only [List.cons.injEq] at this
  rw [this.1] at hab
  exact lt_irrefl _ hab

theorem before_of_cons {p q : List String} {n : String} (h : Before (n :: p) (n :: q)) : Before p q := by
  obtain ⟨c, a, as, b, bs, h1, h2, hab⟩ := h
  cases c with
  | nil =>
    simp only [List.nil_append, List.cons.injEq] at h1 h2
    rw [← h1.1, ← h2.1] at hab
    exact absurd hab (lt_irrefl _)
  | cons m c =>
    simp only [List.cons_append, List.cons.injEq] at h1 h2
    exact ⟨c, a, as, b, bs, h1.2, h2.2, hab⟩

theorem before_asymm : ∀ {p q : List String}, Before p q → ¬ Before q p := by
  rintro p q ⟨c, a, as, b, bs, rfl, rfl, hab⟩ h
  induction c with
  | nil =>
    obtain ⟨c, a', as', b', bs', h1, h2, hab'⟩ := h
    cases c with
    | nil =>
      simp only [List.nil_append, List.cons.injEq] at h1 h2
      rw [← h1.1, ← h2.1] at hab'
      exact lt_asymm hab hab'
    | cons m c =>
      simp only [List.nil_append, List.cons_append, List.cons.injEq] at h1 h2
      rw [h1.1, h2.1] at hab
      exact lt_irrefl _ hab
  | cons m c ih => exact ih (before_of_cons h)

/-- Results in the order of the names in front. -/
abbrev Named := String × Except (List String) (List (List String × Option String))

theorem seq_ok : ∀ (L : List Named), L.Pairwise (fun a b => a.1 < b.1) →
    (∀ r ∈ L, ∀ fs, r.2 = .ok fs →
      fs.Pairwise (fun f g => Before f.1 g.1) ∧ ∀ f ∈ fs, f.1.head? = some r.1) →
    ∀ fs, inSequence (L.map (·.2)) = .ok fs →
      fs.Pairwise (fun f g => Before f.1 g.1) ∧
      (∀ f, f ∈ fs ↔ ∃ r ∈ L, ∃ gs, r.2 = .ok gs ∧ f ∈ gs) ∧ ∀ r ∈ L, ∃ gs, r.2 = .ok gs
  | [], _, _, fs, h => by
    simp only [List.map_nil, inSequence, Except.ok.injEq] at h
    subst h
    simp
  | r :: L, hs, hp, fs, h => by
    rw [List.pairwise_cons] at hs
    rw [List.map_cons] at h
    rcases hr : r.2 with e | xs
    · rw [hr] at h; simp [inSequence] at h
    rw [hr] at h
    unfold inSequence at h
    rcases hL : inSequence (L.map (·.2)) with e | ys
    · rw [hL] at h; simp at h
    rw [hL] at h
    simp only [Except.ok.injEq] at h
    subst h
    obtain ⟨i1, i2, i3⟩ := seq_ok L hs.2 (fun r hr => hp r (List.mem_cons_of_mem _ hr)) ys hL
    obtain ⟨hx1, hx2⟩ := hp r List.mem_cons_self xs hr
    refine ⟨?_, ?_, ?_⟩
    · rw [List.pairwise_append]
      refine ⟨hx1, i1, fun f hf g hg => ?_⟩
      obtain ⟨r', hr', gs, hgs, hg'⟩ := (i2 g).1 hg
      have hfh := hx2 f hf
      have hgh := (hp r' (List.mem_cons_of_mem _ hr') gs hgs).2 g hg'
      obtain ⟨fp, ft⟩ := f
      obtain ⟨gp, gt⟩ := g
      cases fp with
      | nil => simp at hfh
      | cons a as =>
        cases gp with
        | nil => simp at hgh
        | cons b bs =>
          simp only [List.head?_cons, Option.some.injEq] at hfh hgh
          exact ⟨[], a, as, b, bs, rfl, rfl, by rw [hfh, hgh]; exact hs.1 r' hr'⟩
    · intro f
      rw [List.mem_append, i2]
      constructor
      · rintro (hf | ⟨r', hr', gs, hgs, hf⟩)
        · exact ⟨r, List.mem_cons_self, xs, hr, hf⟩
        · exact ⟨r', List.mem_cons_of_mem _ hr', gs, hgs, hf⟩
      · rintro ⟨r', hr', gs, hgs, hf⟩
        rcases List.mem_cons.1 hr' with rfl | hr'
        · rw [hr] at hgs
          cases hgs
          exact .inl hf
        · exact .inr ⟨r', hr', gs, hgs, hf⟩
    · intro r' hr'
      rcases List.mem_cons.1 hr' with rfl | hr'
      · exact ⟨xs, hr⟩
      · exact i3 r' hr'

theorem seq_error : ∀ (L : List Named) p, inSequence (L.map (·.2)) = .error p →
    ∃ A r B, L = A ++ r :: B ∧ r.2 = .error p ∧ ∀ a ∈ A, ∃ gs, a.2 = .ok gs
  | [], p, h => by simp [inSequence] at h
  | r :: L, p, h => by
    rw [List.map_cons] at h
    rcases hr : r.2 with e | xs
    · rw [hr] at h
      simp only [inSequence, Except.error.injEq] at h
      subst h
      exact ⟨[], r, L, rfl, hr, by simp⟩
    · rw [hr] at h
      unfold inSequence at h
      rcases hL : inSequence (L.map (·.2)) with e | ys
      · rw [hL] at h
        simp only [Except.error.injEq] at h
        subst h
        obtain ⟨A, r', B, h1, h2, h3⟩ := seq_error L e hL
        refine ⟨r :: A, r', B, by rw [h1]; rfl, h2, fun a ha => ?_⟩
        rcases List.mem_cons.1 ha with rfl | ha
        · exact ⟨xs, hr⟩
        · exact h3 a ha
      · rw [hL] at h; simp at h

/-- The entries in the order in which they are visited. -/
def visited (es : List FsEntry) : List Named := (walkEntries es).insertionSort fun a b => a.1 ≤ b.1

theorem mem_visited {es : List FsEntry} {r : Named} : r ∈ visited es ↔ ∃ e ∈ es, r = (e.name, walk e) := by
  unfold visited
  rw [(List.perm_insertionSort _ _).mem_iff, walkEntries_eq, List.mem_map]
  constructor <;> rintro ⟨e, he, h⟩ <;> exact ⟨e, he, h.symm⟩

theorem visited_sorted {es : List FsEntry} (hn : (es.map FsEntry.name).Nodup) :
    (visited es).Pairwise fun a b => a.1 < b.1 := by
  have h1 : (visited es).Pairwise fun a b => a.1 ≤ b.1 := by
    have : Std.Total fun a b : Named => a.1 ≤ b.1 := ⟨fun a b => le_total a.1 b.1⟩
    have : IsTrans Named fun a b => a.1 ≤ b.1 := ⟨fun a b c => le_trans⟩
    exact List.pairwise_insertionSort _ _
  have h2 : ((visited es).map (·.1)).Nodup := by
    have hp : ((visited es).map (·.1)).Perm (es.map FsEntry.name) := by
      have := (List.perm_insertionSort (fun a b : Named => a.1 ≤ b.1) (walkEntries es)).map (·.1)
      refine this.trans ?_
      rw [walkEntries_eq, List.map_map]
      exact .refl _
    exact hp.nodup_iff.2 hn
  have h3 : (visited es).Pairwise fun a b => a.1 ≠ b.1 := List.pairwise_map.1 h2
  exact (h1.and h3).imp fun h => lt_of_le_of_ne h.1 h.2

/-- Names in a legal tree begin the paths in it. -/
theorem has_head {e : FsEntry} {p t} (h : Has e p t) : p.head? = some e.name := by
  cases h <;> rfl

theorem blocked_head {e : FsEntry} {p} (h : Blocked e p) : p.head? = some e.name := by
  cases h <;> rfl

theorem walk_dir (n : String) (es : List FsEntry) :
    walk (.dir n es) = match inSequence ((visited es).map (·.2)) with
      | .error p => .error (n :: p)
      | .ok fs => .ok (fs.map fun f => (n :: f.1, f.2)) := by
  rw [walk]
  rfl

theorem walk_ok (root : FsEntry) : LegalTree root → ∀ fs, walk root = .ok fs →
    fs.Pairwise (fun f g => Before f.1 g.1) ∧ (∀ f, f ∈ fs ↔ Has root f.1 f.2) ∧ ∀ p, ¬ Blocked root p := by
  induction root using entry_ind
  · rename_i n t
    intro _ fs h
    simp only [walk, Except.ok.injEq] at h
    subst h
    refine ⟨by simp, ?_, ?_⟩
    · rintro ⟨p, t'⟩
      rw [List.mem_singleton]
      constructor
      · intro h; cases h; exact .file
      · intro h; cases h; rfl
    · intro p h; cases h
  · rename_i n
    intro _ fs h
    simp [walk] at h
  · rename_i n es ih
    intro hl fs h
    cases hl with
    | dir hn hes hnd =>
      rw [walk_dir] at h
      rcases hL : inSequence ((visited es).map (·.2)) with e | ys
      · rw [hL] at h; simp at h
      rw [hL] at h
      simp only [Except.ok.injEq] at h
      subst h
      obtain ⟨i1, i2, i3⟩ := seq_ok (visited es) (visited_sorted hnd) (fun r hr gs hgs => by
        obtain ⟨e, he, rfl⟩ := mem_visited.1 hr
        obtain ⟨j1, j2, _⟩ := ih e he (hes e he) gs hgs
        exact ⟨j1, fun f hf => has_head ((j2 f).1 hf)⟩) ys hL
      refine ⟨?_, ?_, ?_⟩
      · rw [List.pairwise_map]
        exact i1.imp fun h => before_cons n h
      · rintro ⟨p, t⟩
        rw [List.mem_map]
        constructor
        · rintro ⟨f, hf, h⟩
          cases h
          obtain ⟨r, hr, gs, hgs, hfg⟩ := (i2 f).1 hf
          obtain ⟨e, he, rfl⟩ := mem_visited.1 hr
          exact .dir he (((ih e he (hes e he) gs hgs).2.1 f).1 hfg)
        · intro h
          cases h with
          | @dir _ _ e p' _ he h =>
            refine ⟨(p', t), (i2 _).2 ?_, rfl⟩
            obtain ⟨gs, hgs⟩ := i3 (e.name, walk e) (mem_visited.2 ⟨e, he, rfl⟩)
            exact ⟨_, mem_visited.2 ⟨e, he, rfl⟩, gs, hgs, ((ih e he (hes e he) gs hgs).2.1 (p', t)).2 h⟩
      · intro p h
        cases h with
        | @dir _ _ e p' he h =>
          obtain ⟨gs, hgs⟩ := i3 (e.name, walk e) (mem_visited.2 ⟨e, he, rfl⟩)
          exact (ih e he (hes e he) gs hgs).2.2 p' h

theorem walk_error (root : FsEntry) : LegalTree root → ∀ p, walk root = .error p →
    Blocked root p ∧ ∀ q, Blocked root q → q = p ∨ Before p q := by
  induction root using entry_ind
  · intro _ p h
    simp [walk] at h
  · rename_i n
    intro _ p h
    simp only [walk, Except.error.injEq] at h
    subst h
    refine ⟨.here, fun q h => ?_⟩
    cases h
    exact .inl rfl
  · rename_i n es ih
    intro hl p h
    cases hl with
    | dir hn hes hnd =>
      rw [walk_dir] at h
      rcases hL : inSequence ((visited es).map (·.2)) with e | ys
      swap
      · rw [hL] at h; simp at h
      rw [hL] at h
      simp only [Except.error.injEq] at h
      subst h
      obtain ⟨A, r, B, hA, hr, hok⟩ := seq_error _ _ hL
      have hrm : r ∈ visited es := by rw [hA]; simp
      obtain ⟨x, hx, rfl⟩ := mem_visited.1 hrm
      obtain ⟨j1, j2⟩ := ih x hx (hes x hx) e hr
      refine ⟨.dir hx j1, fun q hq => ?_⟩
      cases hq with
      | @dir _ _ y q' hy hq =>
        have hym : (y.name, walk y) ∈ visited es := mem_visited.2 ⟨y, hy, rfl⟩
        have hs := visited_sorted hnd
        rw [hA] at hym hs
        rw [List.mem_append, List.mem_cons] at hym
        rcases hym with hyA | hyx | hyB
        · obtain ⟨gs, hgs⟩ := hok _ hyA
          exact absurd hq ((walk_ok y (hes y hy) gs hgs).2.2 q')
        · have hname : y.name = x.name := congrArg Prod.fst hyx
          have : y = x := List.inj_on_of_nodup_map hnd hy hx hname
          subst this
          rcases j2 q' hq with rfl | h
          · exact .inl rfl
          · exact .inr (before_cons n h)
        · have hlt : x.name < y.name := (List.pairwise_cons.1 (List.pairwise_append.1 hs).2.1).1 _ hyB
          have h1 := blocked_head j1
          have h2 := blocked_head hq
          right
          apply before_cons
          cases e with
          | nil => simp at h1
          | cons a as =>
            cases q' with
            | nil => simp at h2
            | cons b bs =>
              simp only [List.head?_cons, Option.some.injEq] at h1 h2
              exact ⟨[], a, as, b, bs, rfl, rfl, by rw [h1, h2]; exact hlt⟩

/-! Names -/

theorem has_legal {root : FsEntry} (hl : LegalTree root) {p t} (h : Has root p t) :
    p ≠ [] ∧ ∀ n ∈ p, LegalName n := by
  induction h with
  | file => cases hl with | file hn => exact ⟨by simp, by simpa using hn⟩
  | dir he _ ih =>
    cases hl with
    | dir hn hes _ =>
      refine ⟨by simp, fun m hm => ?_⟩
      rcases List.mem_cons.1 hm with rfl | hm
      · exact hn
      · exact (ih (hes _ he)).2 m hm

/-- A joined path ends in its last name, after a slash if there is more. -/
theorem joinPath_last : ∀ (p : List String) (n : String), p.getLast? = some n →
    joinPath p = n.toList ∨ ∃ pre, joinPath p = pre ++ '/' :: n.toList
  | [], n, h => by simp at h
  | [m], n, h => by
    simp only [List.getLast?_singleton, Option.some.injEq] at h
    subst h
    exact .inl rfl
  | m :: k :: ks, n, h => by
    rw [List.getLast?_cons_cons] at h
    right
    rcases joinPath_last (k :: ks) n h with h | ⟨pre, h⟩
    · exact ⟨m.toList, by rw [joinPath, h]⟩
    · exact ⟨m.toList ++ '/' :: pre, by rw [joinPath, h]; simp⟩

theorem extFrom_slash : ∀ (n acc rest : List Char), '/' ∉ n → extFrom (n ++ '/' :: rest) acc = extFrom n acc
  | [], acc, rest, _ => by simp [extFrom]
  | c :: n, acc, rest, h => by
    rw [List.mem_cons, not_or] at h
    rw [List.cons_append, extFrom, extFrom]
    rw [if_neg (Ne.symm h.1), if_neg (Ne.symm h.1), extFrom_slash n _ rest h.2]

theorem pathExt_join {p : List String} {n : String} (hn : LegalName n) (h : p.getLast? = some n) :
    pathExt (joinPath p) = pathExt n.toList := by
  rcases joinPath_last p n h with h | ⟨pre, h⟩
  · rw [h]
  · rw [h, pathExt, pathExt, List.reverse_append, List.reverse_cons, List.append_assoc]
    exact extFrom_slash _ _ _ (by simpa using hn.2)

theorem takeWhile_name : ∀ (n rest : List Char), '/' ∉ n →
    (n ++ '/' :: rest).takeWhile (fun c => decide (c ≠ '/')) = n
  | [], rest, _ => by simp
  | c :: n, rest, h => by
    rw [List.mem_cons, not_or] at h
    rw [List.cons_append, List.takeWhile_cons, takeWhile_name n rest h.2]
    simp [Ne.symm h.1]

theorem takeWhile_name' : ∀ (n : List Char), '/' ∉ n → n.takeWhile (fun c => decide (c ≠ '/')) = n
  | [], _ => by simp
  | c :: n, h => by
    rw [List.mem_cons, not_or] at h
    rw [List.takeWhile_cons, takeWhile_name' n h.2]
    simp [Ne.symm h.1]

theorem dropWhile_name (n rest : List Char) (h : '/' ∉ n) (h0 : n ≠ []) :
    (n ++ rest).dropWhile (fun c => decide (c = '/')) = n ++ rest := by
  cases n with
  | nil => exact absurd rfl h0
  | cons c n =>
    rw [List.mem_cons, not_or] at h
    rw [List.cons_append, List.dropWhile_cons]
    simp [Ne.symm h.1]

theorem pathBase_join {p : List String} {n : String} (hn : LegalName n) (h : p.getLast? = some n) :
    pathBase (joinPath p) = n.toList := by
  have h0 : n.toList ≠ [] := by
    intro h0
    exact hn.1 (by rw [← String.ofList_toList (s := n), h0])
  have hr : '/' ∉ n.toList.reverse := by simpa using hn.2
  have hr0 : n.toList.reverse ≠ [] := by simpa using h0
  rcases joinPath_last p n h with h | ⟨pre, h⟩
  · rw [h, pathBase, if_neg h0]
    have := dropWhile_name _ [] hr hr0
    rw [List.append_nil] at this
    simp only [this, takeWhile_name' _ hr, List.reverse_reverse, if_neg h0]
  · rw [h, pathBase, if_neg (by simp)]
    have e : (pre ++ '/' :: n.toList).reverse = n.toList.reverse ++ '/' :: pre.reverse := by simp
    simp only [e, dropWhile_name _ _ hr hr0, takeWhile_name _ _ hr, List.reverse_reverse, if_neg h0]

theorem extFrom_eq : ∀ (r acc : List Char) (x : List Char), extFrom r acc = '.' :: x →
    ∃ s rest, r = s ++ '.' :: rest ∧ x = s.reverse ++ acc
  | [], acc, x, h => by simp [extFrom] at h
  | c :: r, acc, x, h => by
    rw [extFrom] at h
    split at h
    · simp at h
    · split at h
      · rename_i hc
        rw [List.cons.injEq] at h
        exact ⟨[], r, by rw [hc]; rfl, by simpa using h.2.symm⟩
      · obtain ⟨s, rest, h1, h2⟩ := extFrom_eq r (c :: acc) x h
        exact ⟨c :: s, rest, by rw [h1]; rfl, by rw [h2]; simp⟩

theorem pathExt_xml (n : List Char) : pathExt n = ".xml".toList ↔ ∃ stem, n = stem ++ ".xml".toList := by
  constructor
  · intro h
    obtain ⟨s, rest, h1, h2⟩ := extFrom_eq n.reverse [] "xml".toList h
    refine ⟨rest.reverse, ?_⟩
    have : n = (s ++ '.' :: rest).reverse := by rw [← h1, List.reverse_reverse]
    rw [this, List.reverse_append, List.reverse_cons]
    rw [List.append_nil] at h2
    rw [← h2]
    simp
  · rintro ⟨stem, rfl⟩
    rw [pathExt, List.reverse_append]
    rfl

theorem trimSuffix_append (s x : List Char) : trimSuffix (s ++ x) x = s := by
  rw [trimSuffix, if_pos (by simp)]
  simp

/-- What a file adds to the map. -/
theorem addFile_eq (pre : List String) (m : GoMap (List String × Option String)) (f : List String × Option String)
    {n : String} (hn : LegalName n) (h : f.1.getLast? = some n) :
    (∃ stem, n = stem ++ ".xml" ∧ addFile pre m f = m.insert stem f) ∨
    ((∀ stem, n ≠ stem ++ ".xml") ∧ addFile pre m f = m) := by
  have hl : (pre ++ f.1).getLast? = some n := by rw [List.getLast?_append, h]; rfl
  by_cases hx : pathExt n.toList = ".xml".toList
  · left
    obtain ⟨stem, hs⟩ := (pathExt_xml _).1 hx
    refine ⟨String.ofList stem, ?_, ?_⟩
    · apply String.ext_iff.2
      rw [String.toList_append, String.toList_ofList, hs]
    · rw [addFile]
      simp only [pathExt_join hn hl, pathBase_join hn hl, hx, if_true]
      rw [hs, trimSuffix_append]
  · right
    refine ⟨?_, ?_⟩
    · rintro stem rfl
      exact hx ((pathExt_xml _).2 ⟨stem.toList, by rw [String.toList_append]⟩)
    · rw [addFile]
      simp only [pathExt_join hn hl, if_neg hx]

theorem fold_get (pre : List String) (stem : String) : ∀ (fs : List (List String × Option String))
    (m : GoMap (List String × Option String)),
    fs.Pairwise (fun f g => Before f.1 g.1) →
    (∀ f ∈ fs, ∃ n, LegalName n ∧ f.1.getLast? = some n) → ∀ f,
    (fs.foldl (addFile pre) m)[stem]? = some f ↔
      (f ∈ fs ∧ NamedXml stem f.1 ∧ ∀ g ∈ fs, NamedXml stem g.1 → g = f ∨ Before g.1 f.1) ∨
      (m[stem]? = some f ∧ ∀ g ∈ fs, ¬ NamedXml stem g.1)
  | [], m, _, _, f => by simp
  | x :: fs, m, hs, hl, f => by
    rw [List.pairwise_cons] at hs
    rw [List.foldl_cons, fold_get pre stem fs _ hs.2 (fun f hf => hl f (List.mem_cons_of_mem _ hf))]
    obtain ⟨n, hn, hx⟩ := hl x List.mem_cons_self
    have key : (NamedXml stem x.1 ∧ (addFile pre m x)[stem]? = some x) ∨
        (¬ NamedXml stem x.1 ∧ (addFile pre m x)[stem]? = m[stem]?) := by
      rcases addFile_eq pre m x hn hx with ⟨st, hst, he⟩ | ⟨hst, he⟩
      · by_cases e : st = stem
        · left
          subst e
          exact ⟨by rw [NamedXml, hx, hst], by rw [he]; simp⟩
        · right
          refine ⟨fun h => ?_, by rw [he, Std.ExtTreeMap.getElem?_insert, if_neg (by simpa using e)]⟩
          rw [NamedXml, hx, hst] at h
          have := congrArg String.toList (Option.some.inj h)
          rw [String.toList_append, String.toList_append] at this
          exact e (String.ext_iff.2 (List.append_cancel_right this))
      · right
        refine ⟨fun h => ?_, by rw [he]⟩
        rw [NamedXml, hx] at h
        exact hst stem (Option.some.inj h)
    constructor
    · rintro (⟨h1, h2, h3⟩ | ⟨h1, h2⟩)
      · left
        refine ⟨List.mem_cons_of_mem _ h1, h2, fun g hg hgn => ?_⟩
        rcases List.mem_cons.1 hg with rfl | hg
        · exact .inr (hs.1 f h1)
        · exact h3 g hg hgn
      · rcases key with ⟨k1, k2⟩ | ⟨k1, k2⟩
        · left
          rw [k2] at h1
          cases h1
          refine ⟨List.mem_cons_self, k1, fun g hg hgn => ?_⟩
          rcases List.mem_cons.1 hg with rfl | hg
          · exact .inl rfl
          · exact absurd hgn (h2 g hg)
        · right
          rw [k2] at h1
          refine ⟨h1, fun g hg => ?_⟩
          rcases List.mem_cons.1 hg with rfl | hg
          · exact k1
          · exact h2 g hg
    · rintro (⟨h1, h2, h3⟩ | ⟨h1, h2⟩)
      · rcases List.mem_cons.1 h1 with rfl | h1
        · right
          rcases key with ⟨k1, k2⟩ | ⟨k1, k2⟩
          · refine ⟨k2, fun g hg hgn => ?_⟩
            rcases h3 g (List.mem_cons_of_mem _ hg) hgn with rfl | hb
            · exact before_irrefl (hs.1 _ hg)
            · exact before_asymm (hs.1 _ hg) hb
          · exact absurd h2 k1
        · exact .inl ⟨h1, h2, fun g hg => h3 g (List.mem_cons_of_mem _ hg)⟩
      · right
        rcases key with ⟨k1, k2⟩ | ⟨k1, k2⟩
        · exact absurd k1 (h2 x List.mem_cons_self)
        · exact ⟨by rw [k2]; exact h1, fun g hg => h2 g (List.mem_cons_of_mem _ hg)⟩

theorem modelFiles_get (pre : List String) {root : FsEntry} (hl : LegalTree root)
    {m : GoMap (List String × Option String)} (h : modelFiles pre root = .ok m) (stem : String) (f : List String × Option String) :
    m[stem]? = some f ↔ LastNamed root stem f.1 f.2 := by
  rw [modelFiles] at h
  rcases hw : walk root with e | fs
  · rw [hw] at h; simp at h
  rw [hw] at h
  simp only [Except.ok.injEq] at h
  subst h
  obtain ⟨i1, i2, _⟩ := walk_ok root hl fs hw
  rw [fold_get pre stem fs ∅ i1 (fun f hf => by
    obtain ⟨j1, j2⟩ := has_legal hl ((i2 f).1 hf)
    exact ⟨f.1.getLast j1, j2 _ (List.getLast_mem j1), List.getLast?_eq_some_getLast j1⟩)]
  constructor
  · rintro (⟨h1, h2, h3⟩ | ⟨h1, _⟩)
    · refine ⟨(i2 f).1 h1, h2, fun q t hq hn => ?_⟩
      rcases h3 (q, t) ((i2 (q, t)).2 hq) hn with rfl | hb
      · exact .inl rfl
      · exact .inr hb
    · simp at h1
  · rintro ⟨h1, h2, h3⟩
    have hf := (i2 f).2 h1
    refine .inl ⟨hf, h2, fun g hg hn => ?_⟩
    rcases h3 g.1 g.2 ((i2 g).1 hg) hn with he | hb
    · left
      by_contra hne
      obtain ⟨k1, k2⟩ := List.pairwise_iff_getElem.1 i1 |> fun hp => (show Before g.1 f.1 ∨ Before f.1 g.1 from by
        obtain ⟨a, ha, rfl⟩ := List.getElem_of_mem hg
        obtain ⟨b, hb, rfl⟩ := List.getElem_of_mem hf
        rcases lt_trichotomy a b with hab | rfl | hab
        · exact .inl (hp a b ha hb hab)
        · exact absurd rfl hne
        · exact .inr (hp b a hb ha hab)) |> fun h => (show False ∧ False from by
          rw [he] at h
          rcases h with h | h <;> exact absurd h before_irrefl)
      exact k1
    · exact .inr hb

theorem forall₂_mem_right {α β : Type} {R : α → β → Prop} : ∀ {l : List α} {l' : List β}, List.Forall₂ R l l' →
    ∀ b ∈ l', ∃ a ∈ l, R a b := by
  intro l l' h
  induction h with
  | nil => simp
  | cons h _ ih =>
    intro b hb
    rcases List.mem_cons.1 hb with rfl | hb
    · exact ⟨_, List.mem_cons_self, h⟩
    · obtain ⟨a, ha, h⟩ := ih b hb
      exact ⟨a, List.mem_cons_of_mem _ ha, h⟩

theorem forall₂_mem_left {α β : Type} {R : α → β → Prop} : ∀ {l : List α} {l' : List β}, List.Forall₂ R l l' →
    ∀ a ∈ l, ∃ b ∈ l', R a b := by
  intro l l' h
  induction h with
  | nil => simp
  | cons h _ ih =>
    intro a ha
    rcases List.mem_cons.1 ha with rfl | ha
    · exact ⟨_, List.mem_cons_self, h⟩
    · obtain ⟨b, hb, h⟩ := ih a ha
      exact ⟨b, List.mem_cons_of_mem _ hb, h⟩

end Gopmml.WalkProof
