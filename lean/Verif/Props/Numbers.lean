import Verif.Proofs.NumbersModel
import Verif.Model.Samples

/-!
# Property C81: numbers matter only through the operations on them
-/

namespace Gopmml
open Spec

variable {F G : Type} {φ : F → G}

theorem Spec.Payload.agrees [Trans F64] (g : Nat → Nat → Nat) : GoesAlong (Payload.val : Payload g → F64) where
  lit _ _ := rfl
  add _ _ := rfl
  sub _ _ := rfl
  div _ _ := rfl
  neg _ := rfl
  abs _ := rfl
  lt _ _ := rfl
  le _ _ := rfl
  eq _ _ := rfl
  ofInt _ := rfl
  parse s := by
    change Lib.parseFloat s = ((Lib.parseFloat s).map _).map _
    rw [Option.map_map]
    exact Option.map_id'.symm
  text64 _ := rfl
  text32 _ := rfl
  exp _ := rfl
  atan _ := rfl
  invPi := rfl

namespace Props

/-- The usual orders do not look at the values of a map. -/
theorem C81_orders : ByKeys MapOrd.sorted ∧ ByKeys MapOrd.reversed ∧ ∀ o, ByKeys o → ∀ i, ByKeys (o.at_ i) :=
  ⟨fun _ _ _ _ _ => rfl, fun _ _ _ _ _ => List.map_reverse.symm, fun _ h i => h.at_ i⟩

variable [Arith F] [Arith G] [Lib F] [Lib G] [Trans F] [Trans G]

/-- A document with its numbers changed is accepted or rejected as before, with the same error, and gives the
evaluator with its numbers changed. -/
theorem C81_construction (h : GoesAlong φ) (dd : List DataField) (e : ModelElem F) (td : TD F) :
    newModel dd (numElem φ e) (td.map (numDerived φ)) =
      ((newModel dd e td).1.map (numModel φ), (newModel dd e td).2.map (numDerived φ)) :=
  newModel_num h dd e td

/-- Its answers are the answers of the original with their numbers changed, and so are the row and the evaluator
that evaluation leaves behind; if the change does not go along with products, this holds of documents that
compute none. -/
theorem C81_answers (h : GoesAlong φ) {dd : List DataField} {e : ModelElem F} {td td' : TD F} {m : EModel F}
    (hm : newModel dd e td = (.ok m, td')) (hp : Products φ ∨ Plain e) {o : MapOrd} (hk : ByKeys o)
    (row : Row F) :
    ((numModel φ m).evaluate o (numRow φ row)).res = (m.evaluate o row).res.map (numRow φ) ∧
    ((numModel φ m).evaluate o (numRow φ row)).row = numRow φ (m.evaluate o row).row ∧
    ((numModel φ m).evaluate o (numRow φ row)).model = numModel φ (m.evaluate o row).model := by
  rw [evaluate_num h hk m row (hp.imp_right (plainModel dd e td td' m hm))]
  exact ⟨rfl, rfl, rfl⟩

/-- The same for evaluators in any state, as after other evaluations. -/
theorem C81_evaluators (h : GoesAlong φ) (hp : Products φ) (m : EModel F) {o : MapOrd} (hk : ByKeys o)
    (row : Row F) :
    ((numModel φ m).evaluate o (numRow φ row)).res = (m.evaluate o row).res.map (numRow φ) ∧
    ((numModel φ m).evaluate o (numRow φ row)).row = numRow φ (m.evaluate o row).row ∧
    ((numModel φ m).evaluate o (numRow φ row)).model = numModel φ (m.evaluate o row).model := by
  rw [evaluate_num h hk m row (.inl hp)]
  exact ⟨rfl, rfl, rfl⟩

/-- Errors, absent answers and answered texts (predicted labels among them) do not change at all. -/
theorem C81_labels (h : GoesAlong φ) {dd : List DataField} {e : ModelElem F} {td td' : TD F} {m : EModel F}
    (hm : newModel dd e td = (.ok m, td')) (hp : Products φ ∨ Plain e) {o : MapOrd} (hk : ByKeys o)
    (row : Row F) :
    (∀ x, ((numModel φ m).evaluate o (numRow φ row)).res = .error x ↔ (m.evaluate o row).res = .error x) ∧
    (((numModel φ m).evaluate o (numRow φ row)).res = .ok none ↔ (m.evaluate o row).res = .ok none) ∧
    ∀ (k s : String), (∃ out : GoMap (GoVal G), ((numModel φ m).evaluate o (numRow φ row)).res = .ok (some out) ∧ out[k]? = some (.str s)) ↔
      ∃ out : GoMap (GoVal F), (m.evaluate o row).res = .ok (some out) ∧ out[k]? = some (.str s) := by
  rw [(C81_answers h hm hp hk row).1]
  rcases (m.evaluate o row).res with x | (_ | out)
  · refine ⟨fun y => by simp [Except.map], by simp [Except.map], fun k s => by simp [Except.map]⟩
  · refine ⟨fun y => by simp [Except.map], by simp [Except.map, numRow], fun k s => by simp [Except.map, numRow]⟩
  · refine ⟨fun y => by simp [Except.map], by simp [Except.map, numRow], fun k s => ?_⟩
    have hs : ∀ v : GoVal F, numVal φ v = .str s ↔ v = .str s := fun v => by cases v <;> simp [numVal]
    constructor
    · rintro ⟨_, ho, hk⟩
      cases ho
      rw [onValues_get, Option.map_eq_some_iff] at hk
      obtain ⟨v, hv, hw⟩ := hk
      exact ⟨out, rfl, by rw [hv, (hs v).mp hw]⟩
    · rintro ⟨_, ho, hk⟩
      cases ho
      exact ⟨_, rfl, by rw [onValues_get, hk]; rfl⟩

/-- Verification of a model's own examples comes out the same. -/
theorem C81_verify (h : GoesAlong φ) (hp : Products φ) (m : EModel F) {o : MapOrd} (hk : ByKeys o) :
    (numModel φ m).verify o = ((m.verify o).1, numModel φ (m.verify o).2) :=
  verify_num h hp hk m

/-- Payloads: nothing that numbers carry along, unseen by the operations, reaches an answer. -/
theorem C81_payloads [Trans F64] (g : Nat → Nat → Nat) {dd : List DataField} {e : ModelElem (Payload g)}
    {td td' : TD (Payload g)} {m : EModel (Payload g)} (hm : newModel dd e td = (.ok m, td')) :
    ∃ m', newModel dd (numElem Payload.val e) (td.map (numDerived Payload.val)) =
        (.ok m', td'.map (numDerived Payload.val)) ∧
      ∀ {o : MapOrd}, ByKeys o → ∀ row : Row (Payload g),
        (m'.evaluate o (numRow Payload.val row)).res = (m.evaluate o row).res.map (numRow Payload.val) := by
  refine ⟨numModel Payload.val m, ?_, fun hk row =>
    (C81_answers (Payload.agrees g) hm (.inl fun _ _ => rfl) hk row).1⟩
  rw [C81_construction (Payload.agrees g), hm]
  rfl

end Props

/-! ## Examples -/

section Examples
open Samples

/-- Every number of the sample ensemble with a 7 attached. -/
def sampleNumbers : ModelElem (Payload (· + ·)) := numElem (⟨·, 7⟩) (ensemble .sum)

/-- What it answers for the row `x = 1` with a 3 attached. -/
def sampleAnswer (k : String) : Option (GoVal (Payload (· + ·))) :=
  match (newModel Samples.dd sampleNumbers []).1 with
  | .ok m =>
    match (m.evaluate .sorted (some ((∅ : GoMap _).insert "x" (.f64 ⟨Arith.lit 1 1, 3⟩)))).res with
    | .ok (some out) => out[k]?
    | _ => none
  | _ => none

-- (1 + 2 + 4) * 2 + 1: the scores of the trees are parsed from texts and carry 0, the 2 and the 1 carry 7.
example : sampleAnswer "y" = some (.f64 ⟨Replay.num "15", 14⟩) ∧
    eval .sorted (ensemble .sum) [("x", .f64 (Replay.num "1"))] =
      some (.ok (some (Replay.mk [("y", .f64 (Replay.num "15"))]))) := by
  decide +kernel

end Examples

end Gopmml
