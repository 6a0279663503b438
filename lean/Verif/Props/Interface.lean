import Verif.Model.Interface
import Verif.Props.Construction
import Verif.Props.Validate

/-!
# What `NewModel` returns beside an error, and nil arguments (C87)
-/

namespace Gopmml.Props

open Gopmml

variable {F : Type} [Arith F] [Lib F]

mutual
theorem newModel_no_panic (dd : List DataField) (p : Panic) : ∀ (e : ModelElem F) (td : TD F),
    (newModel dd e td).1 ≠ panic p
  | .tree d, td => by
    have h := (C08_construction dd td d).2.2 p
    unfold newModel
    generalize newTreeModel dd td d = r at h
    rcases r with ⟨e | m, td'⟩
    · intro hc; exact h (by injection hc with hc; rw [hc])
    · exact nofun
  | .regression d, td => by unfold newModel; exact nofun
  | .other k, td => by unfold newModel; intro h; injection h with h; exact nomatch h
  | .mining hd segs, td => by
    unfold newModel
    have hv : (MiningState.init dd hd segs).validate.1 ≠ panic p := by
      intro h
      unfold MiningState.validate at h
      dsimp only at h
      split_ifs at h <;> injection h with h <;> exact nomatch h
    generalize (MiningState.init dd hd segs).validate = v at hv
    rcases v with ⟨e | ⟨⟩, s⟩
    · intro hc; exact hv (by injection hc with hc; rw [hc])
    simp only
    have hs := compileSegments_no_panic dd p segs (td ++ s.head.localTransformations)
    generalize compileSegments dd segs (td ++ s.head.localTransformations) = r at hs
    rcases r with ⟨e | ⟨⟩, ms, td'⟩
    · intro hc; exact hs (by injection hc with hc; rw [hc])
    · exact nofun
theorem compileSegments_no_panic (dd : List DataField) (p : Panic) : ∀ (segs : List (SegDoc F)) (td : TD F),
    (compileSegments dd segs td).1 ≠ panic p
  | [], td => by unfold compileSegments; exact nofun
  | .mk i ps [e] :: segs, td => by
    unfold compileSegments
    have h := newModel_no_panic dd p e td
    generalize newModel dd e td = r at h
    rcases r with ⟨f | m, td'⟩
    · intro hc; exact h (by injection hc with hc; rw [hc])
    · exact compileSegments_no_panic dd p segs td'
  | .mk i ps [] :: segs, td => by
    unfold compileSegments; intro h; injection h with h; exact nomatch h
  | .mk i ps (e :: e' :: es) :: segs, td => by
    unfold compileSegments; intro h; injection h with h; exact nomatch h
end

/-- C87. With arguments that are not nil, `NewModel` always returns, and returns the evaluator, or the
error, of every other theorem. -/
theorem C87_agrees (dd : List DataField) (td : TD F) (e : ModelElem F) :
    (∃ em, (newModel dd e td).1 = .ok em ∧
        newModelI (some dd) (some td) (.elem e) = .returned (.live em) none) ∨
      ∃ err mi, (newModel dd e td).1 = fail err ∧ (∀ em, mi ≠ .live em) ∧
        newModelI (some dd) (some td) (.elem e) = .returned mi (some err) := by
  have hp := fun p => newModel_no_panic dd p e td
  cases e with
  | other k => exact .inr ⟨_, .nil, rfl, nofun, rfl⟩
  | regression d => exact .inl ⟨_, rfl, rfl⟩
  | tree d =>
    unfold newModel at hp ⊢
    simp only [newModelI, dictionaries]
    generalize newTreeModel dd td d = r at hp
    rcases r with ⟨(f | p) | m, td'⟩
    · exact .inr ⟨f, .nilPtr .tree, rfl, nofun, rfl⟩
    · exact absurd rfl (hp p)
    · exact .inl ⟨_, rfl, rfl⟩
  | mining h segs =>
    simp only [newModelI, dictionaries]
    generalize newModel dd (.mining h segs) td = r at hp
    rcases r with ⟨(f | p) | m, td'⟩
    · exact .inr ⟨f, .nilPtr .mining, rfl, nofun, rfl⟩
    · exact absurd rfl (hp p)
    · exact .inl ⟨_, rfl, rfl⟩

/-- C87. Comparing the model with nil does not tell whether `NewModel` succeeded: beside an error the model
is nil only if the element is of an unknown kind. For a tree or an ensemble that cannot be built it is not
nil, and each of its methods dereferences nil. -/
theorem C87_not_nil [Trans F] (dd : List DataField) (td : TD F) (e : ModelElem F) (mi : ModelI F) (err : Err)
    (h : newModelI (some dd) (some td) (.elem e) = .returned mi (some err)) :
    (mi.isNil = true ↔ ∃ k, e = .other k) ∧
      mi.validate = none ∧ (∀ td', mi.compile td' = none) ∧ (∀ o, mi.verify o = none) ∧
      ∀ o row, mi.evaluate o row = none := by
  cases e with
  | other k =>
    injection h with h1 h2
    subst h1
    exact ⟨⟨fun _ => ⟨k, rfl⟩, fun _ => rfl⟩, rfl, fun _ => rfl, fun _ => rfl, fun _ _ => rfl⟩
  | regression d => injection h with h1 h2; exact nomatch h2
  | tree d =>
    simp only [newModelI, dictionaries] at h
    generalize (newTreeModel dd td d).1.map EModel.tree = r at h
    rcases r with (f | p) | m
    · injection h with h1 h2
      subst h1
      exact ⟨⟨nofun, nofun⟩, rfl, fun _ => rfl, fun _ => rfl, fun _ _ => rfl⟩
    · exact nomatch h
    · injection h with h1 h2; exact nomatch h2
  | mining hd segs =>
    simp only [newModelI, dictionaries] at h
    generalize (newModel dd (.mining hd segs) td).1 = r at h
    rcases r with (f | p) | m
    · injection h with h1 h2
      subst h1
      exact ⟨⟨nofun, nofun⟩, rfl, fun _ => rfl, fun _ => rfl, fun _ _ => rfl⟩
    · exact nomatch h
    · injection h with h1 h2; exact nomatch h2

/-- C87. With a nil dictionary: a regression model is built as ever; a tree or an ensemble is not, either
because validation fails, or because nil is dereferenced. -/
theorem C87_nil_dictionary (dd : Option (List DataField)) (td : Option (TD F)) (e : ModelElem F)
    (hn : dd = none ∨ td = none) :
    (∀ d, e = .regression d → newModelI dd td (.elem e) = .returned (.live (.regression d)) none) ∧
    ((∀ d, e ≠ .regression d) →
      (∀ m, newModelI dd td (.elem e) ≠ .returned m none) ∧
      ∀ dd' td', newModelI dd td (.elem e) = .nilDereference ∨
        newModelI dd td (.elem e) = newModelI (some dd') (some td') (.elem e)) := by
  have hd : dictionaries dd td = none := by
    rcases hn with rfl | rfl
    · rfl
    · cases dd <;> rfl
  refine ⟨fun d he => by subst he; rfl, fun hr => ?_⟩
  cases e with
  | regression d => exact absurd rfl (hr d)
  | other k => exact ⟨fun m h => by injection h with h1 h2; exact (nomatch h2), fun _ _ => .inr rfl⟩
  | tree d =>
    simp only [newModelI, hd]
    by_cases hf : d.functionName ≠ .classification ∧ d.functionName ≠ .regression
    · have h1 : ∀ dd', (TreeModel.init (F := F) dd' d).validate
          = (fail .unsupportedMiningFunction, TreeModel.init dd' d) := by
        intro dd'
        unfold TreeModel.validate TreeModel.init
        exact if_pos hf
      rw [h1]
      refine ⟨fun m h => by injection h with h1 h2; exact (nomatch h2), fun dd' td' => .inr ?_⟩
      simp only [dictionaries, newTreeModel, h1]
      rfl
    · have h1 : (TreeModel.init (F := F) [] d).validate.1 = .ok () := by
        unfold TreeModel.validate TreeModel.init
        rw [if_neg hf]
      generalize (TreeModel.init (F := F) [] d).validate = v at h1
      rcases v with ⟨v, m⟩
      subst h1
      exact ⟨nofun, fun _ _ => .inl rfl⟩
  | mining h segs =>
    simp only [newModelI, hd]
    have h1 : ∀ dd', (MiningState.init (F := F) dd' h segs).validate.1
        = (MiningState.init (F := F) [] h segs).validate.1 := by
      intro dd'
      unfold MiningState.validate MiningState.init
      dsimp only
      split_ifs <;> rfl
    generalize hv : (MiningState.init (F := F) [] h segs).validate = v at h1
    rcases v with ⟨(f | p) | ⟨⟩, m⟩
    · refine ⟨fun m h => by injection h with h1 h2; exact (nomatch h2), fun dd' td' => .inr ?_⟩
      have h2 := h1 dd'
      simp only [dictionaries, newModel]
      generalize (MiningState.init (F := F) dd' h segs).validate = w at h2
      rcases w with ⟨w, m'⟩
      simp only at h2
      subst h2
      rfl
    · refine ⟨fun m h => (nomatch h), fun dd' td' => .inr ?_⟩
      have h2 := h1 dd'
      simp only [dictionaries, newModel]
      generalize (MiningState.init (F := F) dd' h segs).validate = w at h2
      rcases w with ⟨w, m'⟩
      simp only at h2
      subst h2
      rfl
    · exact ⟨nofun, fun _ _ => .inl rfl⟩

/-- C87. A nil element: nil of interface type is reported as an error. A nil tree or ensemble dereferences
nil. A nil regression model is accepted; the evaluator can be compiled, and everything else dereferences
nil. So `NewModel` without an error gives a usable evaluator unless it was given a nil regression model. -/
theorem C87_nil_element [Trans F] (dd : Option (List DataField)) (td : Option (TD F)) :
    newModelI dd td .nil = .returned .nil (some .invalidModelType) ∧
    newModelI dd td (.nilPtr .tree) = .nilDereference ∧
    newModelI dd td (.nilPtr .mining) = .nilDereference ∧
    ∃ mi : ModelI F, newModelI dd td (.nilPtr .regression) = .returned mi none ∧
      (∀ td', mi.compile td' = some (.ok ())) ∧ mi.validate = none ∧ (∀ o, mi.verify o = none) ∧
      ∀ o row, mi.evaluate o row = none :=
  ⟨rfl, rfl, rfl, .noDoc, rfl, fun _ => rfl, rfl, fun _ => rfl, fun _ _ => rfl⟩

/-- C87. Whatever the arguments: without an error the model is an evaluator, or the element was a nil
regression model. -/
theorem C87_usable (dd : Option (List DataField)) (td : Option (TD F)) (a : ElemArg F) (mi : ModelI F)
    (h : newModelI dd td a = .returned mi none) : (∃ em, mi = .live em) ∨ a = .nilPtr .regression := by
  cases a with
  | nil => injection h with h1 h2; exact nomatch h2
  | nilPtr k =>
    cases k with
    | regression => exact .inr rfl
    | tree => exact nomatch h
    | mining => exact nomatch h
  | elem e =>
    left
    by_cases hr : ∃ d, e = .regression d
    · obtain ⟨d, rfl⟩ := hr
      injection h with h1 h2
      exact ⟨_, h1.symm⟩
    · cases hd : dictionaries dd td with
      | none =>
        have hn : dd = none ∨ td = none := by
          cases dd with
          | none => exact .inl rfl
          | some x =>
            cases td with
            | none => exact .inr rfl
            | some y => exact nomatch hd
        exact absurd h (((C87_nil_dictionary dd td e hn).2 fun d he => hr ⟨d, he⟩).1 mi)
      | some p =>
        cases dd with
        | none => exact nomatch hd
        | some x =>
          cases td with
          | none => exact nomatch hd
          | some y =>
            rcases C87_agrees x y e with ⟨em, -, h'⟩ | ⟨err, mi', -, -, h'⟩
            · rw [h'] at h; injection h with h1 h2; exact ⟨em, h1.symm⟩
            · rw [h'] at h; injection h with h1 h2; exact nomatch h2

section Examples
open Samples Replay

/-- The interesting part of what is returned: whether the model compares equal to nil, and the error. -/
def nilAndErr : NewRet F64 → Option (Bool × Option Err)
  | .returned m e => some (m.isNil, e)
  | _ => none

-- An ensemble with an unsupported method: an error, and a model that is not nil.
example : nilAndErr (newModelI (some []) (some []) (.elem (.mining (head (.other "max")) []))) =
      some (false, some .unsupportedMultipleModelMethod) ∧
    nilAndErr (newModelI (some []) (some []) (.elem (.other "ScorecardModel"))) =
      some (true, some .invalidModelType) ∧
    nilAndErr (newModelI none none (.elem (.mining (head (.other "max")) []))) =
      some (false, some .unsupportedMultipleModelMethod) ∧
    nilAndErr (newModelI (some []) none (.elem (.mining (head .sum) []))) = none ∧
    nilAndErr (newModelI (some []) (some []) (.elem (.mining (head .sum) []))) =
      some (false, none) := by
  decide +kernel

end Examples

end Gopmml.Props
