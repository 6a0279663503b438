import Verif.Model.ArrayType
import Verif.Model.Replay

/-!
# Property C55: arrays
-/

namespace Gopmml.Props
open Gopmml

section
variable {F : Type} [Shell] [Lib F]

omit [Shell] [Lib F] in
/-- `l` are the numbers of the words `ws`, one by one. -/
theorem parseAll_ok {α : Type} {p : String → Option α} {ws : List String} {l : List α} :
    ArrayType.parseAll p ws = .ok l ↔ ws.map p = l.map some := by
  induction ws generalizing l with
  | nil => cases l <;> simp [ArrayType.parseAll]
  | cons w ws ih =>
    rw [ArrayType.parseAll]
    cases hw : p w with
    | none => cases l <;> simp [hw]
    | some x =>
      cases l with
      | nil => cases h : ArrayType.parseAll p ws <;> simp
      | cons y l =>
        have := ih (l := l)
        cases h : ArrayType.parseAll p ws with
        | error e => rw [h] at this; simp at this; simp [hw, this]
        | ok xs => rw [h] at this; simp at this; simp [hw, ← this]

omit [Shell] [Lib F] in
theorem parseAll_error {α : Type} {p : String → Option α} {ws : List String} {w : String} :
    ArrayType.parseAll p ws = .error w ↔
      ∃ pre post, ws = pre ++ w :: post ∧ (∀ u ∈ pre, p u ≠ none) ∧ p w = none := by
  induction ws with
  | nil => simp [ArrayType.parseAll]
  | cons v ws ih =>
    rw [ArrayType.parseAll]
    cases hv : p v with
    | none =>
      constructor
      · rintro ⟨rfl⟩; exact ⟨[], ws, rfl, by simp, hv⟩
      · rintro ⟨pre, post, e, hp, hw⟩
        cases pre with
        | nil => cases e; rfl
        | cons u pre => cases e; exact absurd hv (hp v List.mem_cons_self)
    | some x =>
      have : ArrayType.parseAll p (v :: ws) = .error w ↔ ArrayType.parseAll p ws = .error w := by
        rw [ArrayType.parseAll, hv]
        cases ArrayType.parseAll p ws <;> simp
      rw [ArrayType.parseAll, hv] at this
      refine this.trans (ih.trans ?_)
      constructor
      · rintro ⟨pre, post, rfl, hp, hw⟩
        refine ⟨v :: pre, post, rfl, ?_, hw⟩
        intro u hu
        rcases List.mem_cons.mp hu with rfl | hu
        · simp [hv]
        · exact hp u hu
      · rintro ⟨pre, post, e, hp, hw⟩
        cases pre with
        | nil => cases e; rw [hv] at hw; cases hw
        | cons u pre => cases e; exact ⟨pre, post, rfl, fun u hu => hp u (List.mem_cons_of_mem _ hu), hw⟩

/-- **C55**: an accessor for another type fails and changes nothing. -/
theorem C55_wrong_type (a : ArrayType F) :
    (a.type ≠ .string → a.strings = ((none, some .wrongType), a)) ∧
    (a.type ≠ .int → a.int64s = ((none, some .wrongType), a)) ∧
    (a.type ≠ .real → a.float64s = ((none, some .wrongType), a)) :=
  ⟨fun h => if_pos h, fun h => if_pos h, fun h => if_pos h⟩

omit [Lib F] in
/-- **C55**: the first successful Int64s returns the integers of the words in order, and stores
them; a failing one (no words, or a word that is no integer: the first such is named) stores
nothing. -/
theorem C55_ints {a : ArrayType F} (ht : a.type = .int) (hc : a.i = none) :
    (∀ ws l, Shell.parse a.rawValue = (ws, none) → (ws.getD []).map parseInt = l.map some →
      a.int64s = ((some l, none), { a with i := some l })) ∧
    (∀ l e, a.int64s.1 = (l, e) → e ≠ none → l = none ∧ a.int64s.2 = a) ∧
    (∀ l, a.int64s.1 = (l, none) → ∃ ws xs, Shell.parse a.rawValue = (ws, none) ∧ l = some xs ∧
      (ws.getD []).map parseInt = xs.map some) := by
  have e : a.int64s = match Shell.parse a.rawValue with
      | (_, some e) => ((none, some (.words e)), a)
      | (ws, none) =>
        match ArrayType.parseAll parseInt (ws.getD []) with
        | .error w => ((none, some (.number w)), a)
        | .ok l => ((some l, none), { a with i := some l }) := by
    unfold ArrayType.int64s
    rw [if_neg (not_not.mpr ht), hc]
    rfl
  rw [e]
  rcases hp : Shell.parse a.rawValue with ⟨ws, _ | err⟩
  · simp only
    cases hq : ArrayType.parseAll parseInt (ws.getD []) with
    | error w =>
      refine ⟨?_, ?_, ?_⟩
      · rintro ws' l ⟨rfl, -⟩ h
        rw [parseAll_ok.mpr h] at hq; cases hq
      · rintro l e ⟨rfl, rfl⟩ -; exact ⟨rfl, rfl⟩
      · rintro l h; cases h
    | ok xs =>
      refine ⟨?_, ?_, ?_⟩
      · rintro ws' l ⟨rfl, -⟩ h
        rw [parseAll_ok.mpr h] at hq; cases hq; rfl
      · rintro l e ⟨rfl, rfl⟩ he; exact absurd rfl he
      · rintro l ⟨rfl, -⟩; exact ⟨ws, xs, rfl, rfl, parseAll_ok.mp hq⟩
  · refine ⟨?_, ?_, ?_⟩
    · rintro ws' l ⟨⟩
    · rintro l e ⟨rfl, rfl⟩ -; exact ⟨rfl, rfl⟩
    · rintro l h; cases h

/-- **C55**: the same for Float64s. -/
theorem C55_floats {a : ArrayType F} (ht : a.type = .real) (hc : a.f = none) :
    (∀ ws l, Shell.parse a.rawValue = (ws, none) → (ws.getD []).map Lib.parseFloat = l.map some →
      a.float64s = ((some l, none), { a with f := some l })) ∧
    (∀ l e, a.float64s.1 = (l, e) → e ≠ none → l = none ∧ a.float64s.2 = a) ∧
    (∀ l, a.float64s.1 = (l, none) → ∃ ws xs, Shell.parse a.rawValue = (ws, none) ∧ l = some xs ∧
      (ws.getD []).map Lib.parseFloat = xs.map some) := by
  have e : a.float64s = match Shell.parse a.rawValue with
      | (_, some e) => ((none, some (.words e)), a)
      | (ws, none) =>
        match ArrayType.parseAll Lib.parseFloat (ws.getD []) with
        | .error w => ((none, some (.number w)), a)
        | .ok l => ((some l, none), { a with f := some l }) := by
    unfold ArrayType.float64s
    rw [if_neg (not_not.mpr ht), hc]
    rfl
  rw [e]
  rcases hp : Shell.parse a.rawValue with ⟨ws, _ | err⟩
  · simp only
    cases hq : ArrayType.parseAll (Lib.parseFloat (F := F)) (ws.getD []) with
    | error w =>
      refine ⟨?_, ?_, ?_⟩
      · rintro ws' l ⟨rfl, -⟩ h
        rw [parseAll_ok.mpr h] at hq; cases hq
      · rintro l e ⟨rfl, rfl⟩ -; exact ⟨rfl, rfl⟩
      · rintro l h; cases h
    | ok xs =>
      refine ⟨?_, ?_, ?_⟩
      · rintro ws' l ⟨rfl, -⟩ h
        rw [parseAll_ok.mpr h] at hq; cases hq; rfl
      · rintro l e ⟨rfl, rfl⟩ he; exact absurd rfl he
      · rintro l ⟨rfl, -⟩; exact ⟨ws, xs, rfl, rfl, parseAll_ok.mp hq⟩
  · refine ⟨?_, ?_, ?_⟩
    · rintro ws' l ⟨⟩
    · rintro l e ⟨rfl, rfl⟩ -; exact ⟨rfl, rfl⟩
    · rintro l h; cases h

omit [Lib F] in
/-- **C55**: the first call of Strings returns what the word splitter returns and stores the words. -/
theorem C55_strings {a : ArrayType F} (ht : a.type = .string) (hc : a.s = none) :
    a.strings = (((Shell.parse a.rawValue).1, (Shell.parse a.rawValue).2.map .words),
      { a with s := (Shell.parse a.rawValue).1 }) := by
  unfold ArrayType.strings
  rw [if_neg (not_not.mpr ht), hc]

/-- The operation does not write to a slice handed out before. -/
def ArrOp.Clean : ArrOp F → Prop
  | .writeS _ _ | .writeI _ _ | .writeF _ _ => False
  | _ => True

omit [Lib F] in
theorem strings_keeps (a : ArrayType F) :
    a.strings.2.i = a.i ∧ a.strings.2.f = a.f ∧ ∀ l, a.s = some l → a.strings.2.s = some l := by
  by_cases ht : a.type = .string
  case neg =>
    unfold ArrayType.strings
    rw [if_pos ht]
    exact ⟨rfl, rfl, fun _ h => h⟩
  case pos =>
    unfold ArrayType.strings
    rw [if_neg (not_not.mpr ht)]
    cases h : a.s with
    | some l => exact ⟨rfl, rfl, fun _ h' => h.trans h'⟩
    | none => exact ⟨rfl, rfl, fun _ h' => by cases h'⟩

omit [Lib F] in
theorem int64s_keeps (a : ArrayType F) :
    a.int64s.2.s = a.s ∧ a.int64s.2.f = a.f ∧ ∀ l, a.i = some l → a.int64s.2.i = some l := by
  by_cases ht : a.type = .int
  case neg =>
    unfold ArrayType.int64s
    rw [if_pos ht]
    exact ⟨rfl, rfl, fun _ h => h⟩
  case pos =>
    unfold ArrayType.int64s
    rw [if_neg (not_not.mpr ht)]
    cases h : a.i with
    | some l => exact ⟨rfl, rfl, fun _ h' => h.trans h'⟩
    | none =>
      simp only
      split
      · exact ⟨rfl, rfl, fun _ h' => by cases h'⟩
      · split <;> exact ⟨rfl, rfl, fun _ h' => by cases h'⟩

theorem float64s_keeps (a : ArrayType F) :
    a.float64s.2.s = a.s ∧ a.float64s.2.i = a.i ∧ ∀ l, a.f = some l → a.float64s.2.f = some l := by
  by_cases ht : a.type = .real
  case neg =>
    unfold ArrayType.float64s
    rw [if_pos ht]
    exact ⟨rfl, rfl, fun _ h => h⟩
  case pos =>
    unfold ArrayType.float64s
    rw [if_neg (not_not.mpr ht)]
    cases h : a.f with
    | some l => exact ⟨rfl, rfl, fun _ h' => h.trans h'⟩
    | none =>
      simp only
      split
      · exact ⟨rfl, rfl, fun _ h' => by cases h'⟩
      · split <;> exact ⟨rfl, rfl, fun _ h' => by cases h'⟩

/-- Nothing but a write through a returned slice changes a filled cache. -/
theorem run_keeps {a : ArrayType F} {op : ArrOp F} (h : ArrOp.Clean op) :
    (∀ l, a.s = some l → (op.run a).s = some l) ∧ (∀ l, a.i = some l → (op.run a).i = some l) ∧
    (∀ l, a.f = some l → (op.run a).f = some l) := by
  cases op with
  | setRaw s => exact ⟨fun _ h => h, fun _ h => h, fun _ h => h⟩
  | setType t => exact ⟨fun _ h => h, fun _ h => h, fun _ h => h⟩
  | strings =>
    obtain ⟨h1, h2, h3⟩ := strings_keeps a
    exact ⟨h3, fun l h => h1.trans h, fun l h => h2.trans h⟩
  | int64s =>
    obtain ⟨h1, h2, h3⟩ := int64s_keeps a
    exact ⟨fun l h => h1.trans h, h3, fun l h => h2.trans h⟩
  | float64s =>
    obtain ⟨h1, h2, h3⟩ := float64s_keeps a
    exact ⟨fun l h => h1.trans h, fun l h => h2.trans h, h3⟩
  | writeS k x => exact h.elim
  | writeI k x => exact h.elim
  | writeF k x => exact h.elim

theorem runs_keep {ops : List (ArrOp F)} (h : ∀ op ∈ ops, ArrOp.Clean op) {a : ArrayType F} :
    (∀ l, a.s = some l → (ops.foldl ArrOp.run a).s = some l) ∧
    (∀ l, a.i = some l → (ops.foldl ArrOp.run a).i = some l) ∧
    (∀ l, a.f = some l → (ops.foldl ArrOp.run a).f = some l) := by
  induction ops generalizing a with
  | nil => exact ⟨fun _ h => h, fun _ h => h, fun _ h => h⟩
  | cons op ops ih =>
    obtain ⟨h1, h2, h3⟩ := run_keeps (a := a) (h op List.mem_cons_self)
    obtain ⟨g1, g2, g3⟩ := ih (fun o ho => h o (List.mem_cons_of_mem _ ho)) (a := op.run a)
    exact ⟨fun l hl => g1 l (h1 l hl), fun l hl => g2 l (h2 l hl), fun l hl => g3 l (h3 l hl)⟩

omit [Lib F] in
theorem int64s_caches {a : ArrayType F} {l : List Int} (h : a.int64s.1 = (some l, none)) :
    a.int64s.2.i = some l := by
  by_cases ht : a.type = .int
  case neg =>
    unfold ArrayType.int64s at h
    rw [if_pos ht] at h
    cases h
  unfold ArrayType.int64s at h ⊢
  rw [if_neg (not_not.mpr ht)] at h ⊢
  cases hc : a.i with
  | some l' => rw [hc] at h; cases h; exact hc
  | none =>
    rw [hc] at h
    simp only at h ⊢
    split at h
    · cases h
    · split at h
      · cases h
      · cases h; rfl

theorem float64s_caches {a : ArrayType F} {l : List F} (h : a.float64s.1 = (some l, none)) :
    a.float64s.2.f = some l := by
  by_cases ht : a.type = .real
  case neg =>
    unfold ArrayType.float64s at h
    rw [if_pos ht] at h
    cases h
  unfold ArrayType.float64s at h ⊢
  rw [if_neg (not_not.mpr ht)] at h ⊢
  cases hc : a.f with
  | some l' => rw [hc] at h; cases h; exact hc
  | none =>
    rw [hc] at h
    simp only at h ⊢
    split at h
    · cases h
    · split at h
      · cases h
      · cases h; rfl

omit [Lib F] in
theorem strings_caches {a : ArrayType F} {l : List String} (h : a.strings.1 = (some l, none)) :
    a.strings.2.s = some l := by
  by_cases ht : a.type = .string
  case neg =>
    unfold ArrayType.strings at h
    rw [if_pos ht] at h
    cases h
  unfold ArrayType.strings at h ⊢
  rw [if_neg (not_not.mpr ht)] at h ⊢
  cases hc : a.s with
  | some l' => rw [hc] at h; cases h; exact hc
  | none => rw [hc] at h; exact congrArg Prod.fst h

omit [Lib F] in
theorem strings_cached {a : ArrayType F} {l} (ht : a.type = .string) (hc : a.s = some l) :
    a.strings = ((some l, none), a) := by
  unfold ArrayType.strings
  rw [if_neg (not_not.mpr ht), hc]

omit [Lib F] in
theorem int64s_cached {a : ArrayType F} {l} (ht : a.type = .int) (hc : a.i = some l) :
    a.int64s = ((some l, none), a) := by
  unfold ArrayType.int64s
  rw [if_neg (not_not.mpr ht), hc]

theorem float64s_cached {a : ArrayType F} {l} (ht : a.type = .real) (hc : a.f = some l) :
    a.float64s = ((some l, none), a) := by
  unfold ArrayType.float64s
  rw [if_neg (not_not.mpr ht), hc]

/-- **C55**: once Int64s has returned a list, every later call returns the same list, whatever
calls and assignments to RawValue and Type (as long as it is int again) happen in between. -/
theorem C55_ints_stable {a : ArrayType F} {l : List Int} (h : a.int64s.1 = (some l, none))
    {ops : List (ArrOp F)} (hc : ∀ op ∈ ops, ArrOp.Clean op)
    (ht : (ops.foldl ArrOp.run a.int64s.2).type = .int) :
    (ops.foldl ArrOp.run a.int64s.2).int64s.1 = (some l, none) := by
  have := (runs_keep hc (a := a.int64s.2)).2.1 l (int64s_caches h)
  rw [int64s_cached ht this]

/-- **C55**: the same for Float64s. -/
theorem C55_floats_stable {a : ArrayType F} {l : List F} (h : a.float64s.1 = (some l, none))
    {ops : List (ArrOp F)} (hc : ∀ op ∈ ops, ArrOp.Clean op)
    (ht : (ops.foldl ArrOp.run a.float64s.2).type = .real) :
    (ops.foldl ArrOp.run a.float64s.2).float64s.1 = (some l, none) := by
  have := (runs_keep hc (a := a.float64s.2)).2.2 l (float64s_caches h)
  rw [float64s_cached ht this]

/-- **C55**: the same for Strings. -/
theorem C55_strings_stable {a : ArrayType F} {l : List String} (h : a.strings.1 = (some l, none))
    {ops : List (ArrOp F)} (hc : ∀ op ∈ ops, ArrOp.Clean op)
    (ht : (ops.foldl ArrOp.run a.strings.2).type = .string) :
    (ops.foldl ArrOp.run a.strings.2).strings.1 = (some l, none) := by
  have := (runs_keep hc (a := a.strings.2)).1 l (strings_caches h)
  rw [strings_cached ht this]

omit [Lib F] in
/-- **C55** (dependency on the word splitter): Strings stores whatever comes with an error, so a
splitter returning words together with an error would make the next call succeed; one returning
nil with its errors leaves nothing stored. -/
theorem C55_strings_failure {a : ArrayType F} (ht : a.type = .string) (hc : a.s = none) {e : String}
    (he : (Shell.parse a.rawValue).2 = some e) :
    a.strings.1.2 ≠ none ∧
    ((Shell.parse a.rawValue).1 = none → a.strings.2 = a) ∧
    ∀ ws, (Shell.parse a.rawValue).1 = some ws → a.strings.2.strings.1 = (some ws, none) := by
  rw [C55_strings ht hc, he]
  refine ⟨by simp, ?_, ?_⟩
  · intro h
    rw [h, ← hc]
  · intro ws h
    rw [strings_cached (l := ws)]
    · exact ht
    · exact h

/-- **C55** (finding): writing to a returned slice changes what later calls return. -/
theorem C55_alias {a : ArrayType F} {x : Int} {l : List Int} (h : a.int64s.1 = (some (x :: l), none))
    (y : Int) : ((ArrOp.writeI 0 y).run a.int64s.2).int64s.1 = (some (y :: l), none) := by
  have ht : a.type = .int := by
    by_contra hn
    rw [(C55_wrong_type a).2.1 hn] at h
    cases h
  have hk : a.int64s.2.type = .int := by
    unfold ArrayType.int64s
    rw [if_neg (not_not.mpr ht)]
    cases a.i with
    | some l => exact ht
    | none =>
      simp only
      split
      · exact ht
      · split <;> exact ht
  rw [int64s_cached (l := y :: l)]
  · exact hk
  · show a.int64s.2.i.map (·.set 0 y) = _
    rw [int64s_caches h]
    rfl

end

section Examples
open Replay

/-- The words of the characters, `w` being the one begun (backwards). -/
def words (w : List Char) : List Char → List String
  | [] => if w = [] then [] else [String.ofList w.reverse]
  | c :: cs =>
    if c = ' ' then (if w = [] then words [] cs else String.ofList w.reverse :: words [] cs)
    else words (c :: w) cs

/-- A splitter for the examples: words separated by spaces; a quote makes it fail. -/
instance splitter : Shell where
  parse s := if '"' ∈ s.toList then (none, some "invalid command line string")
    else (some (words [] s.toList), none)

/-- An array of integers. -/
def arr (raw : String) : ArrayType F64 := { type := .int, rawValue := raw }

-- C55: success, failure naming the word, a splitter error, and a stale cache.
example : (arr "3 -1 20").int64s.1 = (some [3, -1, 20], none) ∧
    (arr "3 x 20 y").int64s = ((none, some (.number "x")), arr "3 x 20 y") ∧
    (arr "3 \"").int64s.1 = (none, some (.words "invalid command line string")) ∧
    ((ArrOp.setRaw "7").run (arr "3 -1").int64s.2).int64s.1 = (some [3, -1], none) ∧
    (arr "3").strings.1 = (none, some .wrongType) ∧
    ({ arr "1 2.5" with type := .real }).float64s.1 = (some [num "1", num "2.5"], none) := by
  decide +kernel

end Examples

end Gopmml.Props
