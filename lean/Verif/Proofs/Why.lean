import Verif.Spec.Why
import Verif.Proofs.StructsModel

/-!
# The error of a decoder is the first in the document: loops, predicates, expressions
-/

namespace Gopmml.Why

open Gopmml Structs Spec.Why

variable {F : Type} [Arith F] [Lib F]

set_option linter.unusedSectionVars false
set_option linter.unusedSimpArgs false

/-- The error, if any. -/
def err {α : Type} : Dec α → Option DecErr
  | .ok _ => none
  | .error e => some e

theorem err_ok {α : Type} (x : α) : err (.ok x : Dec α) = none := rfl

theorem err_error {α : Type} (e : DecErr) : err (.error e : Dec α) = some e := rfl

theorem err_map {α β : Type} (f : α → β) (r : Dec α) : err (r.map f) = err r := by
  cases r <;> rfl

theorem err_isOk {α : Type} {r : Dec α} (h : r.isOk = true) : err r = none := by
  cases r with
  | ok x => rfl
  | error e => cases h

theorem isOk_err {α : Type} {r : Dec α} (h : err r = none) : r.isOk = true := by
  cases r with
  | ok x => rfl
  | error e => cases h

/-! ## Attributes -/

theorem map_error {α β : Type} {f : α → β} {r : Dec α} {e : DecErr} (h : r.map f = .error e) : r = .error e := by
  cases r with
  | ok x => cases h
  | error e' => cases h; rfl

theorem parsed_error {α : Type} {s : String} {x : Option α} {e : DecErr} (h : parsed s x = .error e) : e = .syntax s := by
  cases x with
  | none => cases h; rfl
  | some x => cases h

theorem attrFloat_error {s : String} {e : DecErr} (h : attrFloat (F := F) s = .error e) : e = .syntax s := by
  unfold attrFloat at h
  split_ifs at h
  · exact parsed_error h

theorem attrInt_error {s : String} {e : DecErr} (h : attrInt s = .error e) : e = .syntax s := by
  unfold attrInt at h
  split_ifs at h
  · exact parsed_error h

theorem attrUint_error {s : String} {e : DecErr} (h : attrUint s = .error e) : e = .syntax s := by
  unfold attrUint at h
  split_ifs at h
  · exact parsed_error h

theorem attrBool_error {s : String} {e : DecErr} (h : attrBool s = .error e) : e = .syntax s := by
  unfold attrBool at h
  split_ifs at h
  · exact parsed_error h

theorem err_attr {σ : Type} {r : Dec σ} {s : GoStruct} {k v : String} (h : r.isOk = attrReads F s (k, v))
    (hs : ∀ e, r = .error e → e = .syntax v) : err r = attrWhy F s (k, v) := by
  rw [attrWhy, ← h]
  cases r with
  | ok x => rfl
  | error e => rw [hs e rfl]; rfl

/-- An attribute's error is its text. -/
syntax "attr_err" ident : tactic

macro_rules
  | `(tactic| attr_err $f) =>
    `(tactic| (intro e h
               unfold $f:ident at h
               repeat' split at h
               all_goals first
                 | with_reducible exact attrInt_error (map_error h)
                 | with_reducible exact attrUint_error (map_error h)
                 | with_reducible exact attrBool_error (map_error h)
                 | with_reducible exact attrFloat_error (map_error h)
                 | with_reducible exact parsed_error (map_error h)
                 | with_reducible exact parsed_error h
                 | (cases h; done)
                 | (cases h; rfl)))

theorem attrLoop_err {σ : Type} {f : String → String → σ → Dec σ} {P : String × String → Option DecErr}
    (h : ∀ k v s, err (f k v s) = P (k, v)) : ∀ (as : Attrs) s, err (attrLoop f as s) = as.findSome? P
  | [], s => rfl
  | (k, v) :: as, s => by
    have hk := h k v s
    rw [attrLoop, List.findSome?_cons, ← hk]
    cases f k v s with
    | error e => rfl
    | ok s' => rw [attrLoop_err h as s']; rfl

theorem noneWhy {s : GoStruct} {as : Attrs} (h : as.all (attrReads F s) = true) :
    as.findSome? (attrWhy F s) = none := by
  rw [List.findSome?_eq_none_iff]
  intro a ha
  rw [attrWhy, List.all_eq_true.1 h a ha]
  rfl

/-! ## Children -/

theorem childWhy_text (t : String) (s : GoStruct) (a b : String) : childWhy F t s (.text a b) = none := by
  rw [childWhy]

theorem childWhy_elem (t : String) (s : GoStruct) (n : String) (as : Attrs) (ch : List Xml) :
    childWhy F t s (.elem n as ch) = match find n s.fields with
      | none => if s.strict then (childrenWhy F t s ch).or (some (.leftover t)) else none
      | some u => if u = "float64" then (if Kind.float64.reads F (Xml.chardata ch) then none else some (.syntax (Xml.chardata ch)))
        else why F u as ch := by
  rw [childWhy]
  cases find n s.fields with
  | none => rfl
  | some u =>
    dsimp only
    unfold why
    rfl

theorem childrenWhy_nil (t : String) (s : GoStruct) : childrenWhy F t s [] = none := by
  rw [childrenWhy]

theorem childrenWhy_cons (t : String) (s : GoStruct) (c : Xml) (cs : List Xml) :
    childrenWhy F t s (c :: cs) = (childWhy F t s c).or (childrenWhy F t s cs) := by
  rw [childrenWhy]

theorem why_eq {t : String} {s : GoStruct} (h : find t goStructs = some s) (hu : t ∉ unnamed) (as : Attrs) (ch : List Xml) :
    why F t as ch = (as.findSome? (attrWhy F s)).or (childrenWhy F t s ch) := by
  rw [why, if_neg hu, h]

theorem why_unnamed {t : String} (hu : t ∈ unnamed) (as : Attrs) (ch : List Xml) :
    why F t as ch = if reads F t as ch then none else some (.other t) := by
  rw [why, if_pos hu]

mutual
theorem childWhy_reads (t : String) (s : GoStruct) : (x : Xml) → childReads F s x = true → childWhy F t s x = none
  | .text _ _, _ => childWhy_text t s _ _
  | .elem n as ch, h => by
    rw [childReads_elem] at h
    rw [childWhy_elem]
    cases hf : find n s.fields with
    | none =>
      rw [hf] at h
      dsimp only at h ⊢
      rw [if_neg (by simpa using h)]
    | some u =>
      rw [hf] at h
      dsimp only at h ⊢
      by_cases hu : u = "float64"
      · rw [if_pos hu] at h ⊢
        rw [h]; rfl
      · rw [if_neg hu] at h ⊢
        rw [why]
        by_cases hn : u ∈ unnamed
        · rw [if_pos hn, h]; rfl
        · rw [if_neg hn]
          cases hs : find u goStructs with
          | none => rfl
          | some s' =>
            rw [reads_eq hs, Bool.and_eq_true] at h
            dsimp only
            rw [noneWhy h.1, childrenWhy_reads u s' ch h.2]
            rfl
theorem childrenWhy_reads (t : String) (s : GoStruct) : (xs : List Xml) → childrenRead F s xs = true →
    childrenWhy F t s xs = none
  | [], _ => childrenWhy_nil t s
  | x :: xs, h => by
    rw [childrenRead_cons, Bool.and_eq_true] at h
    rw [childrenWhy_cons, childWhy_reads t s x h.1, childrenWhy_reads t s xs h.2]
    rfl
end

theorem why_reads {t : String} {as : Attrs} {ch : List Xml} (h : reads F t as ch = true) : why F t as ch = none := by
  rw [why]
  by_cases hn : t ∈ unnamed
  · rw [if_pos hn, h]; rfl
  · rw [if_neg hn]
    cases hs : find t goStructs with
    | none => rfl
    | some s' =>
      rw [reads_eq hs, Bool.and_eq_true] at h
      dsimp only
      rw [noneWhy h.1, childrenWhy_reads t s' ch h.2]
      rfl

theorem why_harmless {t : String} (h : t ∈ harmless) (as : Attrs) (ch : List Xml) : why F t as ch = none :=
  why_reads (reads_harmless h as ch)

/-- `why_harmless`, name by name. -/
theorem harmW (as : Attrs) (ch : List Xml) :
    why F "Extension" as ch = none ∧
    why F "Header" as ch = none ∧
    why F "MiningBuildTask" as ch = none ∧
    why F "Annotation" as ch = none ∧
    why F "Application" as ch = none ∧
    why F "Timestamp" as ch = none ∧
    why F "ParameterField" as ch = none ∧
    why F "Value" as ch = none ∧
    why F "Aggregate" as ch = none ∧
    why F "Constant" as ch = none ∧
    why F "Discretize" as ch = none ∧
    why F "FieldRef" as ch = none ∧
    why F "Lag" as ch = none ∧
    why F "NormContinuous" as ch = none ∧
    why F "NormDiscrete" as ch = none ∧
    why F "TextIndex" as ch = none ∧
    why F "Partition" as ch = none ∧
    why F "False" as ch = none ∧
    why F "SimplePredicate" as ch = none ∧
    why F "True" as ch = none ∧
    why F "DecisionTree" as ch = none ∧
    why F "Regression" as ch = none ∧
    why F "FieldColumnPair" as ch = none ∧
    why F "TableLocator" as ch = none ∧
    why F "Row" as ch = none ∧
    why F "TargetValue" as ch = none := by
  refine ⟨?_, ?_, ?_, ?_, ?_, ?_, ?_, ?_, ?_, ?_, ?_, ?_, ?_, ?_, ?_, ?_, ?_, ?_, ?_, ?_, ?_, ?_, ?_, ?_, ?_, ?_⟩ <;>
    exact why_harmless (by decide +kernel) as ch

theorem childWhy_regular (t : String) {s : GoStruct} (h : regular s = true) (n : String) (as : Attrs) (ch : List Xml) :
    childWhy F t s (.elem n as ch) = if n ∈ names s then why F n as ch
      else if s.strict then (childrenWhy F t s ch).or (some (.leftover t)) else none := by
  rw [childWhy_elem, find_regular h]
  by_cases hn : n ∈ names s
  · have hf := find_regular_ne h hn
    rw [names] at hn
    simp only [names, hn, hf, if_true, if_false]
  · have hn' := hn
    rw [names] at hn'
    simp only [names, hn', if_false]

theorem reflectLoop_err {σ : Type} {h : String → Attrs → List Xml → σ → Dec σ} {t : String} {s : GoStruct}
    (hh : ∀ n as ch x, err (h n as ch x) = childWhy F t s (.elem n as ch)) :
    ∀ (cs : List Xml) x, err (reflectLoop h cs x) = childrenWhy F t s cs
  | [], x => by rw [childrenWhy_nil]; rfl
  | .text _ _ :: cs, x => by
    rw [childrenWhy_cons, childWhy_text, Option.none_or, reflectLoop, reflectLoop_err hh cs x]
  | .elem n as ch :: cs, x => by
    rw [childrenWhy_cons, ← hh n as ch x, reflectLoop]
    cases h n as ch x with
    | error e => rfl
    | ok x' => rw [reflectLoop_err hh cs x']; rfl

/-- The content of an element a hand-written decoder does not know. -/
theorem err_through {σ : Type} {t : String} {r : Dec (σ × Bool)} {w : Option DecErr} (h : err (consumed t r) = w) :
    err (consumed t (match r with
      | .error e => .error e
      | .ok (y, _) => .ok (y, false))) = w.or (some (.leftover t)) := by
  subst h
  rcases r with e | ⟨x, _ | _⟩ <;> rfl

mutual
theorem bodyItem_err {σ : Type} {h : String → Attrs → List Xml → σ → Option (Dec σ)} {t : String} {s : GoStruct}
    (hh : ∀ n as ch x, (h n as ch x).elim ((childrenWhy F t s ch).or (some (.leftover t))) err =
      childWhy F t s (.elem n as ch)) :
    (c : Xml) → ∀ x, err (consumed t (bodyItem h c x)) = childWhy F t s c
  | .text _ _, x => by rw [childWhy_text, bodyItem]; rfl
  | .elem n as ch, x => by
    have hn := hh n as ch x
    rw [bodyItem, ← hn]
    rcases h n as ch x with _ | e | x'
    · have := bodyLoop_err hh ch x
      dsimp only [Option.elim]
      rw [← this]
      rcases bodyLoop h ch x with e | ⟨x, _ | _⟩ <;> rfl
    · rfl
    · rfl
theorem bodyLoop_err {σ : Type} {h : String → Attrs → List Xml → σ → Option (Dec σ)} {t : String} {s : GoStruct}
    (hh : ∀ n as ch x, (h n as ch x).elim ((childrenWhy F t s ch).or (some (.leftover t))) err =
      childWhy F t s (.elem n as ch)) :
    (cs : List Xml) → ∀ x, err (consumed t (bodyLoop h cs x)) = childrenWhy F t s cs
  | [], x => by rw [childrenWhy_nil, bodyLoop]; rfl
  | c :: cs, x => by
    have hi := bodyItem_err hh c x
    rw [childrenWhy_cons, ← hi, bodyLoop]
    rcases bodyItem h c x with e | ⟨x', _ | _⟩
    · rfl
    · rfl
    · dsimp only
      rw [bodyLoop_err hh cs x']
      rfl
end

end Gopmml.Why
