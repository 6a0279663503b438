import Verif.Spec.XmlMore
import Verif.Proofs.Xml
import Verif.Model.F64
import Mathlib.Data.List.Induction

/-!
# Property C64: the decoders of `Alternate` and `ChildParent`
-/

namespace Gopmml
open Spec

variable {F : Type} [Arith F] [Lib F]

theorem lastAttr_nil (k : String) : lastAttr k [] = none := rfl

theorem lastAttr_snoc (k : String) (as : Attrs) (a : String × String) :
    lastAttr k (as ++ [a]) = if a.1 = k then some a.2 else lastAttr k as := by
  unfold lastAttr
  rw [List.filter_append]
  by_cases h : a.1 = k <;> simp [h]

theorem attrLoop_snoc {σ : Type} (f : String → String → σ → Dec σ) (as : Attrs) (a : String × String) (s : σ) :
    attrLoop f (as ++ [a]) s = (attrLoop f as s).bind fun t => f a.1 a.2 t := by
  induction as generalizing s with
  | nil => obtain ⟨k, v⟩ := a; simp only [List.nil_append, attrLoop, Except.bind]; cases f k v s <;> rfl
  | cons b as ih =>
    obtain ⟨k, v⟩ := b
    simp only [List.cons_append, attrLoop]
    cases f k v s with
    | error e => rfl
    | ok t => exact ih t

/-- Handling attributes one after the other, described by the result on each prefix. -/
theorem attrLoop_iff {σ : Type} {f : String → String → σ → Dec σ} {s : σ} {P : Attrs → σ → Prop}
    (h0 : ∀ t, P [] t ↔ t = s)
    (h1 : ∀ as k v t, P (as ++ [(k, v)]) t ↔ ∃ u, P as u ∧ f k v u = .ok t) :
    ∀ as t, attrLoop f as s = .ok t ↔ P as t := by
  intro as
  induction as using List.reverseRecOn with
  | nil => intro t; rw [h0]; simp only [attrLoop, Except.ok.injEq]; exact eq_comm
  | append_singleton as a ih =>
    intro t
    obtain ⟨k, v⟩ := a
    rw [attrLoop_snoc, h1]
    constructor
    · intro h
      cases hu : attrLoop f as s with
      | error e => rw [hu] at h; simp [Except.bind] at h
      | ok u => rw [hu] at h; exact ⟨u, (ih u).1 hu, h⟩
    · rintro ⟨u, hu, h⟩
      rw [(ih u).2 hu]
      exact h

theorem decodeExtension_eq (as : Attrs) (ch : List Xml) : decodeExtension as ch = .ok (extension as ch) := by
  unfold decodeExtension
  refine (attrLoop_iff (P := fun as t => t = extension as ch) (fun t => by simp [extension, lastAttr_nil]) ?_ _ _).2 rfl
  intro as k v t
  simp only [exists_eq_left, extensionAttr]
  unfold extension
  simp only [lastAttr_snoc]
  by_cases h1 : k = "extender"
  · simp [h1, eq_comm]
  by_cases h2 : k = "name"
  · simp [h2, eq_comm]
  by_cases h3 : k = "value"
  · simp [h3, eq_comm]
  simp [h1, h2, h3, eq_comm]

theorem pairAttr_eq (as : Attrs) : attrLoop pairAttr as ⟨"", ""⟩ = .ok (columnPair as) := by
  refine (attrLoop_iff (P := fun as t => t = columnPair as) (fun t => by simp [columnPair, lastAttr_nil]) ?_ _ _).2 rfl
  intro as k v t
  simp only [exists_eq_left, pairAttr]
  unfold columnPair
  simp only [lastAttr_snoc]
  by_cases h1 : k = "column"
  · simp [h1, eq_comm]
  by_cases h2 : k = "field"
  · simp [h2, eq_comm]
  simp [h1, h2, eq_comm]

theorem attrFloat_ok (v : String) (x : F) :
    attrFloat v = .ok x ↔ if v = "" then x = Arith.zero else Lib.parseFloat (trimSpace v) = some x := by
  unfold attrFloat
  split
  · simp [eq_comm]
  · unfold parsed; split <;> simp_all

theorem moments_iff (as : Attrs) (m : F × F) :
    attrLoop momentsAttr as (Arith.zero, Arith.zero) = .ok m ↔
      Numeric F "mean" as ∧ Numeric F "variance" as ∧ FloatAttr "mean" as m.1 ∧ FloatAttr "variance" as m.2 := by
  refine attrLoop_iff (P := fun as (m : F × F) => Numeric F "mean" as ∧ Numeric F "variance" as ∧
    FloatAttr "mean" as m.1 ∧ FloatAttr "variance" as m.2) ?_ ?_ as m
  · rintro ⟨a, b⟩
    simp [Numeric, FloatAttr, lastAttr_nil]
  · rintro as k v ⟨a, b⟩
    have hex : ∀ k', (∀ w, (k', w) ∈ as → w = "" ∨ ∃ x : F, Lib.parseFloat (trimSpace w) = some x) →
        ∃ y : F, FloatAttr k' as y := by
      intro k' h
      unfold FloatAttr
      cases hl : lastAttr k' as with
      | none => exact ⟨_, rfl⟩
      | some w =>
        simp only
        split
        · exact ⟨_, rfl⟩
        · refine (h w ?_).resolve_left (by assumption)
          unfold lastAttr at hl
          obtain ⟨p, hp, rfl⟩ := Option.map_eq_some_iff.1 hl
          have := List.mem_of_getLast? hp
          simp only [List.mem_filter, decide_eq_true_eq] at this
          rw [← this.2]
          exact this.1
    have hn : ∀ k', Numeric F k' (as ++ [(k, v)]) ↔
        Numeric F k' as ∧ (k' = k → v = "" ∨ ∃ x : F, Lib.parseFloat (trimSpace v) = some x) := by
      intro k'
      unfold Numeric
      constructor
      · intro h
        exact ⟨fun w hw => h w (by simp [hw]), fun hk => h v (by simp [hk])⟩
      · rintro ⟨h1, h2⟩ w hw
        rcases List.mem_append.1 hw with hw | hw
        · exact h1 w hw
        · simp only [List.mem_singleton, Prod.mk.injEq] at hw
          rw [hw.2]; exact h2 hw.1
    have hf : ∀ k' (y : F), FloatAttr k' (as ++ [(k, v)]) y ↔
        if k = k' then attrFloat v = .ok y else FloatAttr k' as y := by
      intro k' y
      unfold FloatAttr
      rw [lastAttr_snoc]
      by_cases hk : k = k'
      · simp only [if_pos hk]; rw [attrFloat_ok]
      · simp only [if_neg hk]
    have hv : ∀ y : F, attrFloat v = .ok y → v = "" ∨ ∃ x : F, Lib.parseFloat (trimSpace v) = some x := by
      intro y hy
      rw [attrFloat_ok] at hy
      split at hy
      · left; assumption
      · right; exact ⟨_, hy⟩
    rw [hn, hn, hf, hf]
    simp only [momentsAttr]
    by_cases h1 : k = "mean"
    · subst h1
      simp only [if_true, if_neg (show ¬ ("mean" = "variance") by decide)]
      constructor
      · rintro ⟨⟨n1, -⟩, ⟨n2, -⟩, ha, hb⟩
        obtain ⟨y, hy⟩ := hex "mean" n1
        exact ⟨(y, b), ⟨n1, n2, hy, hb⟩, by simp [ha, Except.map]⟩
      · rintro ⟨⟨y, z⟩, ⟨n1, n2, hy, hz⟩, h⟩
        cases hq : (attrFloat v : Dec F) with
        | error e => simp [hq, Except.map] at h
        | ok q =>
          simp only [hq, Except.map, Except.ok.injEq, Prod.mk.injEq] at h
          obtain ⟨rfl, rfl⟩ := h
          exact ⟨⟨n1, fun _ => hv _ hq⟩, ⟨n2, fun h => absurd h (by decide)⟩, rfl, hz⟩
    by_cases h2 : k = "variance"
    · subst h2
      simp only [if_true, if_neg (show ¬ ("variance" = "mean") by decide)]
      constructor
      · rintro ⟨⟨n1, -⟩, ⟨n2, -⟩, ha, hb⟩
        obtain ⟨y, hy⟩ := hex "variance" n2
        exact ⟨(a, y), ⟨n1, n2, ha, hy⟩, by simp [hb, Except.map]⟩
      · rintro ⟨⟨y, z⟩, ⟨n1, n2, hy, hz⟩, h⟩
        cases hq : (attrFloat v : Dec F) with
        | error e => simp [hq, Except.map] at h
        | ok q =>
          simp only [hq, Except.map, Except.ok.injEq, Prod.mk.injEq] at h
          obtain ⟨rfl, rfl⟩ := h
          exact ⟨⟨n1, fun h => absurd h (by decide)⟩, ⟨n2, fun _ => hv _ hq⟩, hy, rfl⟩
    · simp [h1, h2, Ne.symm h1, Ne.symm h2]

end Gopmml

namespace Gopmml.Props
open Spec

variable {F : Type} [Arith F] [Lib F]

/-- **C64**: which elements decode to a distribution, and to which. -/
theorem C64_distribution (n : String) (as : Attrs) (x : Distribution F) :
    decodeDistribution n as = some (.ok x) ↔
      (∃ m v, ((n = "AnyDistribution" ∧ x = .any m v) ∨ (n = "GaussianDistribution" ∧ x = .gaussian m v)) ∧
        Numeric F "mean" as ∧ Numeric F "variance" as ∧ FloatAttr "mean" as m ∧ FloatAttr "variance" as v) ∨
      (n = "PoissonDistribution" ∧ x = .poisson) ∨ (n = "UniformDistribution" ∧ x = .uniform) := by
  have hmap : ∀ (f : F × F → Distribution F),
      (attrLoop momentsAttr as (Arith.zero, Arith.zero)).map f = .ok x ↔
        ∃ m v, x = f (m, v) ∧ Numeric F "mean" as ∧ Numeric F "variance" as ∧ FloatAttr "mean" as m ∧
          FloatAttr "variance" as v := by
    intro f
    constructor
    · intro h
      cases hq : attrLoop (momentsAttr (F := F)) as (Arith.zero, Arith.zero) with
      | error e => simp [hq, Except.map] at h
      | ok q =>
        obtain ⟨m, v⟩ := q
        simp only [hq, Except.map, Except.ok.injEq] at h
        exact ⟨m, v, h.symm, (moments_iff as (m, v)).1 hq⟩
    · rintro ⟨m, v, rfl, h⟩
      rw [(moments_iff as (m, v)).2 h]
      rfl
  unfold decodeDistribution
  split_ifs with h1 h2 h3 h4
  · subst h1; simp [hmap]
  · subst h2; simp [hmap]
  · subst h3; simp [eq_comm]
  · subst h4; simp [eq_comm]
  · simp [h1, h2, h3, h4]

/-- **C64** (Alternate): decoding succeeds exactly if every child element is a distribution that
decodes, and then the last one counts. -/
theorem C64_alternate (ch : List Xml) (d : Option (Distribution F)) :
    decodeAlternate ch = .ok d ↔
      ∃ ds : List (Distribution F),
        List.Forall₂ (fun e x => decodeDistribution e.1 e.2.1 = some (.ok x)) (Xml.elems ch) ds ∧
        d = ds.getLast? := by
  unfold decodeAlternate
  rw [consumed_bodyLoop]
  have key : ∀ (es : List (String × Attrs × List Xml)) (s : Option (Distribution F)),
      readAll alternateHandle es s = some d ↔
        ∃ ds : List (Distribution F),
          List.Forall₂ (fun e x => decodeDistribution e.1 e.2.1 = some (.ok x)) es ds ∧
          d = ds.getLast?.or s := by
    intro es
    induction es with
    | nil => intro s; simp [readAll, eq_comm]
    | cons e es ih =>
      intro s
      obtain ⟨n, as, ch⟩ := e
      simp only [readAll, alternateHandle]
      cases hq : (decodeDistribution n as : Option (Dec (Distribution F))) with
      | none => simp [List.forall₂_cons_left_iff, hq]
      | some r =>
        cases r with
        | error e => simp [List.forall₂_cons_left_iff, hq, Except.map]
        | ok x =>
          simp only [Option.map_some, Except.map]
          rw [ih]
          constructor
          · rintro ⟨ds, h1, rfl⟩
            refine ⟨x :: ds, .cons hq h1, ?_⟩
            cases ds with
            | nil => rfl
            | cons y ds => simp [List.getLast?_cons]
          · rintro ⟨ds, h1, rfl⟩
            cases h1 with
            | cons hx h1 =>
              rename_i y ds
              simp only [hq, Option.some.injEq, Except.ok.injEq] at hx
              subst hx
              refine ⟨ds, h1, ?_⟩
              cases ds with
              | nil => rfl
              | cons y ds => simp [List.getLast?_cons]
  rw [key]
  simp

/-- The table children, decoded; the last one counts. -/
def TablesDecode (es : List (String × Attrs × List Xml)) (t : Option (TableElem F)) : Prop :=
  ∃ ts : List (TableElem F),
    List.Forall₂ (fun e x => (e.1 = "TableLocator" ∧ x = .locator) ∨
        (e.1 = "InlineTable" ∧ ∃ rows, decodeTable e.2.2 [] = .ok rows ∧ x = .inline rows))
      (es.filter fun e => decide (e.1 = "InlineTable" ∨ e.1 = "TableLocator")) ts ∧
    t = ts.getLast?

omit [Arith F] [Lib F] in
theorem childParent_body (es : List (String × Attrs × List Xml)) : ∀ (c c' : ChildParent F),
    readAll childParentHandle es c = some c' ↔
      (∀ e ∈ es, e.1 ∈ childParentKinds) ∧
      ∃ t : Option (TableElem F), TablesDecode es t ∧
      c' = { c with
        table := t.or c.table
        extensions := c.extensions ++ (es.filter fun e => decide (e.1 = "Extension")).map fun e => extension e.2.1 e.2.2
        fieldColumnPairs := c.fieldColumnPairs ++
          (es.filter fun e => decide (e.1 = "FieldColumnPair")).map fun e => columnPair e.2.1 } := by
  induction es with
  | nil => intro c c'; simp [readAll, TablesDecode]; exact eq_comm
  | cons e es ih =>
    intro c c'
    obtain ⟨n, as, ch⟩ := e
    have hskip : ¬ (n = "InlineTable" ∨ n = "TableLocator") → ∀ t : Option (TableElem F),
        TablesDecode ((n, as, ch) :: es) t ↔ TablesDecode es t := by
      intro h t
      unfold TablesDecode
      rw [List.filter_cons_of_neg (by simpa using h)]
    have hkeep : (n = "InlineTable" ∨ n = "TableLocator") → ∀ (t : Option (TableElem F)),
        TablesDecode ((n, as, ch) :: es) t ↔ ∃ x t', ((n = "TableLocator" ∧ x = .locator) ∨
          (n = "InlineTable" ∧ ∃ rows, decodeTable ch [] = .ok rows ∧ x = .inline rows)) ∧
          TablesDecode es t' ∧ t = t'.or (some x) := by
      intro h t
      unfold TablesDecode
      rw [List.filter_cons_of_pos (by simpa using h)]
      constructor
      · rintro ⟨ts, h1, rfl⟩
        cases h1 with
        | cons hx h1 =>
          rename_i x ts
          refine ⟨x, ts.getLast?, hx, ⟨ts, h1, rfl⟩, ?_⟩
          cases ts with
          | nil => rfl
          | cons y ts => simp [List.getLast?_cons]
      · rintro ⟨x, t', hx, ⟨ts, h1, rfl⟩, rfl⟩
        refine ⟨x :: ts, .cons hx h1, ?_⟩
        cases ts with
        | nil => rfl
        | cons y ts => simp [List.getLast?_cons]
    simp only [readAll, childParentHandle]
    by_cases h1 : n = "Extension"
    · subst h1
      simp only [if_true, decodeExtension_eq, Except.map]
      rw [ih]
      simp [hskip, childParentKinds]
    by_cases h2 : n = "FieldColumnPair"
    · subst h2
      simp only [if_neg h1, if_true, pairAttr_eq, Except.map]
      rw [ih]
      simp [hskip, childParentKinds]
    by_cases h3 : n = "InlineTable"
    · subst h3
      simp only [if_neg h1, if_neg h2, if_true]
      cases hq : (decodeTable ch [] : Dec (List (GoMap (GoVal F)))) with
      | error e => simp [hkeep, hq, Except.map]
      | ok rows =>
        simp only [Except.map]
        rw [ih]
        simp only [List.forall_mem_cons, hkeep (.inl rfl), hq]
        simp [childParentKinds]
    by_cases h4 : n = "TableLocator"
    · subst h4
      simp only [if_neg h1, if_neg h2, if_neg h3, if_true]
      rw [ih]
      simp only [List.forall_mem_cons, hkeep (.inr rfl)]
      simp [childParentKinds]
    simp [h1, h2, h3, h4, childParentKinds]

/-- **C64** (ChildParent): decoding succeeds exactly if `isRecursive` is "yes" or "no" wherever it is
given, every child element is of a known kind, and the inline tables decode.  The result has the
attributes as written, all extensions and column pairs in document order, and the last table. -/
theorem C64_childParent (as : Attrs) (ch : List Xml) (c : ChildParent F) :
    decodeChildParent as ch = .ok c ↔
      (∀ v, ("isRecursive", v) ∈ as → v = "yes" ∨ v = "no") ∧
      (∀ e ∈ Xml.elems ch, e.1 ∈ childParentKinds) ∧
      ∃ t, TablesDecode (Xml.elems ch) t ∧
      c = { childField := (lastAttr "childField" as).getD ""
            isRecursive := lastAttr "isRecursive" as = some "yes"
            parentField := (lastAttr "parentField" as).getD ""
            parentLevelField := (lastAttr "parentLevelField" as).getD ""
            table := t
            extensions := (named "Extension" ch).map fun e => extension e.2.1 e.2.2
            fieldColumnPairs := (named "FieldColumnPair" ch).map fun e => columnPair e.2.1 } := by
  have hattr : ∀ as (c : ChildParent F), attrLoop childParentAttr as ChildParent.zero = .ok c ↔
      (∀ v, ("isRecursive", v) ∈ as → v = "yes" ∨ v = "no") ∧
      c = { (ChildParent.zero : ChildParent F) with
            childField := (lastAttr "childField" as).getD ""
            isRecursive := lastAttr "isRecursive" as = some "yes"
            parentField := (lastAttr "parentField" as).getD ""
            parentLevelField := (lastAttr "parentLevelField" as).getD "" } := by
    refine attrLoop_iff (fun t => ?_) ?_
    · simp [lastAttr_nil, ChildParent.zero]
    · intro as k v t
      have hr : (∀ w, ("isRecursive", w) ∈ as ++ [(k, v)] → w = "yes" ∨ w = "no") ↔
          (∀ w, ("isRecursive", w) ∈ as → w = "yes" ∨ w = "no") ∧ (k = "isRecursive" → v = "yes" ∨ v = "no") := by
        constructor
        · intro h
          exact ⟨fun w hw => h w (by simp [hw]), fun hk => h v (by simp [hk])⟩
        · rintro ⟨h1, h2⟩ w hw
          rcases List.mem_append.1 hw with hw | hw
          · exact h1 w hw
          · simp only [List.mem_singleton, Prod.mk.injEq] at hw
            rw [hw.2]; exact h2 hw.1.symm
      rw [hr]
      simp only [lastAttr_snoc, childParentAttr]
      by_cases h1 : k = "childField"
      · subst h1; simp [eq_comm]
      by_cases h2 : k = "isRecursive"
      · subst h2
        by_cases hy : v = "yes"
        · subst hy; simp [eq_comm]
        by_cases hn : v = "no"
        · subst hn; simp [eq_comm]
        simp [hy, hn]
      by_cases h3 : k = "parentField"
      · subst h3; simp [eq_comm]
      by_cases h4 : k = "parentLevelField"
      · subst h4; simp [eq_comm]
      simp [h1, h2, h3, h4, eq_comm]
  unfold decodeChildParent
  cases ha : attrLoop (childParentAttr (F := F)) as ChildParent.zero with
  | error e =>
    simp only [reduceCtorEq, false_iff]
    rintro ⟨hr, -⟩
    have := (hattr as _).2 ⟨hr, rfl⟩
    rw [ha] at this
    simp at this
  | ok c0 =>
    obtain ⟨hr, rfl⟩ := (hattr as c0).1 ha
    simp only
    rw [consumed_bodyLoop, childParent_body]
    simp only [ChildParent.zero, named, Option.or_none, List.nil_append]
    exact ⟨fun h => ⟨hr, h⟩, fun h => h.2⟩

/-- **C64**: an unknown child, such as an `Extension` inside an `Alternate`, makes decoding fail. -/
theorem C64_alternate_unknown {ch : List Xml} {n : String} {as : Attrs} {sub : List Xml}
    (hm : Xml.elem n as sub ∈ ch) (hn : n ∉ distributionKinds) :
    ¬ ∃ d : Option (Distribution F), decodeAlternate ch = .ok d := by
  rintro ⟨d, h⟩
  obtain ⟨ds, h1, -⟩ := (C64_alternate ch d).1 h
  have hm' := Xml.mem_elems.2 hm
  generalize Xml.elems ch = es at h1 hm'
  induction h1 with
  | nil => simp at hm'
  | cons hx _ ih =>
    rcases List.mem_cons.1 hm' with rfl | hm'
    · rw [C64_distribution] at hx
      apply hn
      simp only [distributionKinds, List.mem_cons, List.not_mem_nil, or_false]
      rcases hx with ⟨m, v, ⟨hx, -⟩ | ⟨hx, -⟩, -⟩ | ⟨hx, -⟩ | ⟨hx, -⟩ <;> simp_all
    · exact ih hm'

section Examples

-- C64: the last distribution counts; an `Extension` is refused.
example : (decodeAlternate [.elem "PoissonDistribution" [] [], .text " " " ",
      .elem "UniformDistribution" [] [.elem "Extension" [] []]] : Dec (Option (Distribution F64))) =
    .ok (some .uniform) := by rfl
example : (decodeAlternate [.elem "Extension" [] [.elem "PoissonDistribution" [] []]] :
    Dec (Option (Distribution F64))) = .error (.leftover "Alternate") := by rfl
example : Xml.elem "Extension" [] [] ∈ [Xml.elem "Extension" [] []] ∧ "Extension" ∉ distributionKinds := by
  simp [distributionKinds]
example : ((decodeDistribution "GaussianDistribution" [("variance", ""), ("x", "y")] :
      Option (Dec (Distribution F64)))) = some (.ok (.gaussian Arith.zero Arith.zero)) := by rfl
example : ((decodeChildParent [("isRecursive", "yes"), ("parentField", "p")]
      [.elem "FieldColumnPair" [("column", "c"), ("field", "f")] [], .elem "TableLocator" [] []] :
      Dec (ChildParent F64)).map fun c => (c.isRecursive, c.parentField, c.fieldColumnPairs.map (·.column))) =
    .ok (true, "p", ["c"]) := by rfl
example : ((decodeChildParent [("isRecursive", "true")] [] : Dec (ChildParent F64)).map fun c => c.isRecursive) =
    .error (.syntax "true") := by rfl

end Examples

end Gopmml.Props
