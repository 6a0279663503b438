import Verif.Proofs.Heap

/-!
# Rows by reference (C93)
-/

namespace Gopmml.Props

open Spec

variable {F : Type} [Arith F] [Lib F] [Trans F]

/-- **C93**: on addresses `Evaluate` does what the model says about contents: the answer and the row have the
contents the model computes, the answer is nil or a map that did not exist before, and of the maps that
existed before only the row is touched. This needs no assumption on the evaluator: any state, any life cycle. -/
theorem C93_by_reference (m : EModel F) (o : MapOrd) (h : Heap F) (r : Ref) (hr : Ref.Held h r) :
    (m.evaluateRef o r h).model = (EModel.evaluate o m (h.row r)).model ∧
    (m.evaluateRef o r h).heap.row r = (EModel.evaluate o m (h.row r)).row ∧
    (∀ f, (EModel.evaluate o m (h.row r)).res = .error f ↔ (m.evaluateRef o r h).res = .error f) ∧
    (∀ out, (EModel.evaluate o m (h.row r)).res = .ok out ↔
      ∃ a, (m.evaluateRef o r h).res = .ok a ∧ (m.evaluateRef o r h).heap.row a = out) ∧
    (∀ i, (m.evaluateRef o r h).res = .ok (some i) → h.length ≤ i ∧ i < (m.evaluateRef o r h).heap.length) ∧
    ∀ j, j < h.length → r ≠ some j → (m.evaluateRef o r h).heap[j]? = h[j]? := by
  have hs := evaluateRef_spec m o r h hr
  obtain ⟨h1, h2, h3, h4⟩ := hs
  refine ⟨h1, h2, ?_, ?_, ?_, h3.2⟩
  all_goals
    revert h4
    rcases (EModel.evaluate o m (h.row r)).res with f' | _ | a <;> intro h4
  · change (m.evaluateRef o r h).res = _ at h4
    intro f; rw [h4]; simp
  · change (m.evaluateRef o r h).res = _ at h4
    intro f; rw [h4]; simp
  · obtain ⟨i, hi, -⟩ := h4
    intro f; rw [hi]; simp
  · change (m.evaluateRef o r h).res = _ at h4
    intro out; rw [h4]; simp
  · change (m.evaluateRef o r h).res = _ at h4
    intro out; rw [h4]; simp [Heap.row]
  · obtain ⟨i, hi, hl, ha⟩ := h4
    intro out; rw [hi]
    have : (m.evaluateRef o r h).heap.row (some i) = some a := ha
    constructor
    · intro e; exact ⟨some i, rfl, by rw [this]; simpa using e⟩
    · rintro ⟨b, hb, e⟩
      cases hb
      rw [this] at e
      rw [e]
  · change (m.evaluateRef o r h).res = _ at h4
    intro i; rw [h4]; simp
  · change (m.evaluateRef o r h).res = _ at h4
    intro i; rw [h4]; simp
  · obtain ⟨i, hi, hl, ha⟩ := h4
    intro j hj
    rw [hi] at hj
    cases hj
    exact ⟨hl, (List.getElem?_eq_some_iff.mp ha).1⟩

/-- **C93**: a program may do with the maps it holds what it likes, write into answers, empty them, pass them
as rows, keep them: a later call answers what a new evaluator answers on the content the row then has. -/
theorem C93_program {dd : List DataField} {e : ModelElem F} {td td' : TD F} {m : EModel F}
    (hb : newModel dd e td = (.ok m, td')) (as : List (Act F)) (h : Heap F) (o : MapOrd) (r : Ref)
    (hr : Ref.Held (runActs as m h).2 r) :
    let h' := (runActs as m h).2
    let q := (runActs as m h).1.evaluateRef o r h'
    q.heap.row r = (EModel.evaluate o m (h'.row r)).row ∧
    (∀ f, (EModel.evaluate o m (h'.row r)).res = .error f ↔ q.res = .error f) ∧
    ∀ out, (EModel.evaluate o m (h'.row r)).res = .ok out ↔ ∃ a, q.res = .ok a ∧ q.heap.row a = out := by
  obtain ⟨calls, hc⟩ := runActs_calls as m h
  obtain ⟨-, h2, h3, h4, -, -⟩ := C93_by_reference (runActs as m h).1 o (runActs as m h).2 r hr
  obtain ⟨g1, g2, -⟩ := C54_verify hb calls o ((runActs as m h).2.row r)
  rw [← hc] at g1 g2
  rw [g1] at h3 h4
  rw [g2] at h2
  exact ⟨h2, h3, h4⟩

/-- **C93**: a map, in particular an answer once received, stays as it is as long as the program neither
writes to it nor passes it to `Evaluate`. -/
theorem C93_kept (m : EModel F) (as : List (Act F)) (h : Heap F) (i : Nat) (hi : i < h.length)
    (has : ∀ a ∈ as, Act.Spares i a) : (runActs as m h).2.row (some i) = h.row (some i) :=
  runActs_spares as i has m h hi

/-- **C93**: `Verify` changes no map of the program. -/
theorem C93_verify (m : EModel F) (o : MapOrd) (h : Heap F) :
    (m.verifyRef o h).res = (m.verify o).1 ∧
    ∀ j, j < h.length → (m.verifyRef o h).heap[j]? = h[j]? := by
  obtain ⟨h1, -, h3⟩ := verifyRef_spec o m h
  exact ⟨h1, fun j hj => h3.2 j hj (by simp)⟩

section Examples
open Replay Samples

/-- Build a model and run a program. -/
def program (e : ModelElem F64) (as : List (Act F64)) (h : Heap F64) : Option (Heap F64) :=
  match newModel Samples.dd e [] with
  | (.ok m, _) => some (runActs as m h).2
  | _ => none

-- A chain of a sum and a tree, called on the row 0 without x: the row gets x and y, and the maps 1 to 5 are
-- made: the first `lastOut`, the three answers of the trees and their sum; 6 is the answer. The program
-- writes into the answer and calls again: the new answer 12 is the same, the old one keeps what was written.
example : program nested [.call .sorted (some 0), .write (some 6) "score" (.str "mine"), .call .reversed (some 0)]
      [mk []] =
    some [mk [("x", .str "3"), ("y", .f64 (num "15"))], mk [], mk [("score", .f64 (num "1"))],
      mk [("score", .f64 (num "2"))], mk [("score", .f64 (num "4"))], mk [("y", .f64 (num "15"))],
      mk [("score", .str "mine")], mk [], mk [("score", .f64 (num "1"))],
      mk [("score", .f64 (num "2"))], mk [("score", .f64 (num "4"))], mk [("y", .f64 (num "15"))],
      mk [("score", .f64 (num "100"))]] := by decide +kernel

-- An answer passed as a row is not spared: it gets the imputed field.
example : program (ensemble .sum) [.call .sorted (some 0), .call .sorted (some 4)] [mk []] =
    some [mk [("x", .str "3")], mk [("score", .f64 (num "1"))], mk [("score", .f64 (num "2"))],
      mk [("score", .f64 (num "4"))], mk [("x", .str "3"), ("y", .f64 (num "15"))],
      mk [("score", .f64 (num "1"))], mk [("score", .f64 (num "2"))],
      mk [("score", .f64 (num "4"))], mk [("y", .f64 (num "15"))]] := by decide +kernel

-- The hypotheses of the theorems.
example : Ref.Held (F := F64) [mk []] (some 0) ∧ Ref.Held (F := F64) [mk []] none ∧
    ¬ Ref.Held (F := F64) [mk []] (some 1) := by decide +kernel

end Examples

end Gopmml.Props
