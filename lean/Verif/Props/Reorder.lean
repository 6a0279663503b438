import Verif.Proofs.Reorder
import Verif.Props.Main
import Verif.Model.Samples

/-!
# Property C112: derived fields in another order
-/

namespace Gopmml.Props
open Gopmml Spec

variable {F : Type} [Arith F] [Lib F]

/-- **C112** (fields): derived fields written in another order that keeps related ones as they were
are computed to the same row, or both lists fail. -/
theorem C112_fields {L L' : List (DerivedField F)} (h : ReorderedFields L L') (row : Row F) :
    SameOrFail (handleInput L row).1 (handleInput L' row).1 ∧
    ((handleInput L row).1 = .ok () → (handleInput L row).2 = (handleInput L' row).2) := by
  rcases handleInput_reordered (reordered_swapped _ _ h) row with ⟨r, p1, p2⟩ | ⟨f, f', r1, r2, p1, p2⟩
  · rw [p1, p2]
    exact ⟨.inl rfl, fun _ => rfl⟩
  · rw [p1, p2]
    exact ⟨.inr ⟨⟨f, rfl⟩, ⟨f', rfl⟩⟩, fun h => by simp at h⟩

omit [Arith F] [Lib F] in
/-- **C112** (any order): fields that are all unrelated may be written in any order. -/
theorem C112_any_order {L L' : List (DerivedField F)} (h : L.Pairwise Unrelated) (hp : L.Perm L') :
    ReorderedFields L L' := by
  refine ⟨hp, h.imp fun hu e => hu.1 (congrArg _ e), fun a b hn hs => absurd ?_ hn⟩
  have := h.sublist hs
  rw [List.pairwise_cons] at this
  exact this.1 b (by simp)

variable [Trans F]

/-- **C112**: a document whose derived fields are written in another order, in any of its models, keeping
related ones as they were, is rejected with the same error or accepted; then its model gives the same
answer and leaves the same row, or both fail. -/
theorem C112_documents {dd : List DataField} {e e' : ModelElem F} (h : ReorderedDoc e e') (td : TD F) :
    (∀ f, (newModel dd e td).1 = .error f ↔ (newModel dd e' td).1 = .error f) ∧
    (∀ m m', (newModel dd e td).1 = .ok m → (newModel dd e' td).1 = .ok m' → ∀ o row,
      SameOrFail (EModel.evaluate o m row).res (EModel.evaluate o m' row).res ∧
      (∀ out, (EModel.evaluate o m row).res = .ok out →
        (EModel.evaluate o m row).row = (EModel.evaluate o m' row).row)) := by
  have hr := (reordered_newModel (dd := dd) e td td h (fun _ _ => rfl)).1
  constructor
  · revert hr
    generalize (newModel dd e td).1 = x
    generalize (newModel dd e' td).1 = y
    intro hr f
    cases hr with
    | error g => exact Iff.rfl
    | ok _ => simp
  · intro m m' hm hm' o row
    rw [hm, hm'] at hr
    cases hr with
    | ok hs =>
      rcases hs o row with ⟨h1, h2⟩ | ⟨f, f', h1, h2⟩
      · exact ⟨.inl h1, fun _ _ => h2⟩
      · exact ⟨.inr ⟨⟨f, h1⟩, ⟨f', h2⟩⟩, fun out ho => by rw [h1] at ho; simp at ho⟩

/-- **C112** (histories): and a history of calls is answered by both or by neither, and alike. -/
theorem C112_histories {dd : List DataField} {e e' : ModelElem F} (h : ReorderedDoc e e') (td : TD F)
    {m m' : EModel F} (hm : (newModel dd e td).1 = .ok m) (hm' : (newModel dd e' td).1 = .ok m')
    (calls : List (MapOrd × Row F)) (outs : List (Out F)) :
    callAll m calls = .ok outs ↔ callAll m' calls = .ok outs := by
  have hm1 : newModel dd e td = (.ok m, (newModel dd e td).2) := by rw [← hm]
  have hm2 : newModel dd e' td = (.ok m', (newModel dd e' td).2) := by rw [← hm']
  have hs := (C112_documents (dd := dd) h td).2 m m' hm hm'
  obtain ⟨a1, -, -⟩ := callAll_eq hm1 calls []
  obtain ⟨b1, -, -⟩ := callAll_eq hm2 calls []
  simp only [afterCalls, List.foldl_nil] at a1 b1
  rw [a1, b1]
  have key : ∀ (c : MapOrd × Row F) out, (EModel.evaluate c.1 m c.2).res = .ok out ↔
      (EModel.evaluate c.1 m' c.2).res = .ok out := by
    intro c out
    rcases (hs c.1 c.2).1 with h1 | ⟨⟨f, h1⟩, ⟨f', h2⟩⟩
    · rw [h1]
    · rw [h1, h2]; simp
  exact ⟨fun h => h.imp fun c out hco => (key c out).mp hco, fun h => h.imp fun c out hco => (key c out).mpr hco⟩

/-! Examples. -/
namespace ReorderExample
open Samples Replay

/-- One more than `y`. -/
def next (x y : String) : DerivedField F64 := ⟨x, .double, .continuous, .apply "+" [.fieldRef y, .const .double "1"]⟩

def dead (x : String) (k : String) : DerivedField F64 := ⟨x, .double, .continuous, .apply k []⟩

def steps : List (DerivedField F64) := [next "a" "u", next "b" "v", next "x" "a"]

def steps' : List (DerivedField F64) := [next "b" "v", next "a" "u", next "x" "a"]

theorem steps_reordered : ReorderedFields steps steps' :=
  (by
    have hs : Unrelated (next "a" "u") (next "b" "v") := by simp [Unrelated, next, exprFields, exprFields.exprsFields]
    refine ⟨.swap _ _ _, ?_, ?_⟩
    · simp [steps, next]
    · intro a b hu hsub
      simp only [steps, steps'] at hsub ⊢
      cases hsub with
      | cons_cons _ h =>
        cases h with
        | cons_cons _ _ => exact absurd hs hu
        | cons _ h => exact .cons _ (.cons_cons _ h)
      | cons _ h =>
        cases h with
        | cons_cons _ h => exact .cons_cons _ (.cons _ h)
        | cons _ h =>
          have := h.length_le
          simp at this)

def tree (L : List (DerivedField F64)) : ModelElem F64 := .tree { regTree "1" "10" with localTransformations := L }

def forest (L : List (DerivedField F64)) (L2 : List (DerivedField F64)) : ModelElem F64 :=
  .mining { head .sum with localTransformations := L } [seg (tree L2), seg (tree [])]

def ask (e : ModelElem F64) (row : List (String × GoVal F64)) : Option (Res (Out F64)) :=
  match newModel Samples.dd e [] with
  | (.ok m, _) => some (EModel.evaluate .sorted m (some (mk row))).res
  | _ => none

/-- The hypothesis of `C112_documents`, in the ensemble and in one of its trees, and an answer. -/
example : ReorderedDoc (forest steps steps) (forest steps' steps') ∧
    (ask (forest steps steps) [("u", .f64 (num "3")), ("v", .f64 (num "4"))]).isSome ∧
    ask (forest steps steps) [("u", .f64 (num "3")), ("v", .f64 (num "4"))] =
      ask (forest steps' steps') [("u", .f64 (num "3")), ("v", .f64 (num "4"))] :=
  ⟨.mining steps_reordered (.cons (.cons (.tree (d := { regTree "1" "10" with localTransformations := steps })
      steps_reordered) .nil) (.cons (.cons (.tree (d := { regTree "1" "10" with localTransformations := [] })
      ⟨.refl _, .nil, fun _ _ _ h => h⟩) .nil) .nil)), by decide +kernel, by decide +kernel⟩

/-- Related fields may not be exchanged. -/
example : ask (tree [next "a" "u", next "x" "a"]) [("u", .f64 (num "8"))] ≠
    ask (tree [next "x" "a", next "a" "u"]) [("u", .f64 (num "8"))] := by decide +kernel

/-- Nor may fields of the same name; and which error is reported does depend on the order. -/
example : (handleInput [next "x" "u", next "x" "v"] (some (mk [("u", .f64 (num "1")), ("v", .f64 (num "2"))]))).2.get "x" ≠
    (handleInput [next "x" "v", next "x" "u"] (some (mk [("u", .f64 (num "1")), ("v", .f64 (num "2"))]))).2.get "x" ∧
    (handleInput [dead "a" "*", dead "b" "power"] (some ∅)).1 ≠ (handleInput [dead "b" "power", dead "a" "*"] (some ∅)).1 := by
  decide +kernel

end ReorderExample
end Gopmml.Props
