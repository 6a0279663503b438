import Verif.Model.Heap

/-!
# What a call by reference does to memory
-/

namespace Gopmml.Spec

variable {F S : Type}

/-- The answer is nil or a map of its own, which did not exist before the call. -/
def FreshAnswer (h : Heap F) (res : Res (Out F)) (q : Res Ref) (h' : Heap F) : Prop :=
  match res with
  | .error f => q = .error f
  | .ok none => q = .ok none
  | .ok (some m) => ∃ i, q = .ok (some i) ∧ h.length ≤ i ∧ h'[i]? = some m

/-- No map that existed before has changed, except possibly the one behind `r`. -/
def OnlyTouches (h : Heap F) (r : Ref) (h' : Heap F) : Prop :=
  h.length ≤ h'.length ∧ ∀ j, j < h.length → r ≠ some j → h'[j]? = h[j]?

/-- A call on addresses does what the call on contents says. -/
structure Refines (h : Heap F) (r : Ref) (e : Ev F (Out F) S) (q : HEv F Ref S) : Prop where
  model : q.model = e.model
  row : q.heap.row r = e.row
  touches : OnlyTouches h r q.heap
  answer : FreshAnswer h e.res q.res q.heap

/-- The action does not write to the map at `i`: neither directly nor by passing it to `Evaluate`. -/
def Act.Spares (i : Nat) : Act F → Prop
  | .call _ r => r ≠ some i
  | .verify _ => True
  | .make => True
  | .write r _ _ => r ≠ some i
  | .delete r _ => r ≠ some i

end Gopmml.Spec
