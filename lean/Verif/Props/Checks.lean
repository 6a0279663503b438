import Verif.Spec.Checks
import Verif.Proofs.Slim
import Verif.Props.Verify

/-!
# Property C118: what verification does not depend on
-/

namespace Gopmml.Props
open Gopmml Spec

variable {F : Type} [Arith F] [Lib F] [Trans F]

omit [Arith F] [Lib F] [Trans F] in
theorem verifyInput_keys {inp inp' : GoMap String} (h : ∀ k, k ∈ inp ↔ k ∈ inp') (es : List (String × GoVal F)) :
    verifyInput inp es = verifyInput inp' es := by
  unfold verifyInput
  congr 1
  funext m kv
  by_cases hk : kv.1 ∈ inp
  · rw [if_pos hk, if_pos ((h _).1 hk)]
  · rw [if_neg hk, if_neg fun h' => hk ((h _).2 h')]

omit [Arith F] [Lib F] [Trans F] in
/-- The maps built from the same checks: the inputs have the same columns, the outputs are equal. -/
theorem verifyMaps_checks : ∀ (vs vs' : List (VerificationField F)) (inp inp' out : GoMap String),
    vs.map checkOf = vs'.map checkOf → (∀ k, k ∈ inp ↔ k ∈ inp') →
    (∃ f, verifyMaps vs inp out = .error f ∧ verifyMaps vs' inp' out = .error f) ∨
    ∃ i i' o, verifyMaps vs inp out = .ok (i, o) ∧ verifyMaps vs' inp' out = .ok (i', o) ∧ ∀ k, k ∈ i ↔ k ∈ i'
  | [], [], inp, inp', out, _, h => .inr ⟨inp, inp', out, rfl, rfl, h⟩
  | v :: vs, v' :: vs', inp, inp', out, hc, h => by
    simp only [List.map_cons, List.cons.injEq] at hc
    obtain ⟨hv, hc⟩ := hc
    simp only [checkOf, Prod.mk.injEq] at hv
    obtain ⟨h1, h2⟩ := hv
    unfold verifyMaps
    rw [h1]
    cases columnName v'.column with
    | none => exact .inl ⟨_, rfl, rfl⟩
    | some col =>
      dsimp only
      cases hp : v.precision with
      | none =>
        cases hp' : v'.precision with
        | none =>
          refine verifyMaps_checks vs vs' _ _ out hc fun k => ?_
          rw [Std.ExtTreeMap.mem_insert, Std.ExtTreeMap.mem_insert, h]
        | some q => rw [hp, hp'] at h2; cases h2
      | some p =>
        cases hp' : v'.precision with
        | none => rw [hp, hp'] at h2; cases h2
        | some q =>
          rw [hp, hp'] at h2
          simp only [Option.map_some, Option.some.injEq] at h2
          dsimp only
          rw [h2]
          exact verifyMaps_checks vs vs' _ _ _ hc h
  | [], _ :: _, _, _, _, hc, _ => by simp at hc
  | _ :: _, [], _, _, _, hc, _ => by simp at hc

theorem verifyRows_slim (o : MapOrd) {inp inp' : GoMap String} (out : GoMap String) (h : ∀ k, k ∈ inp ↔ k ∈ inp')
    (rows : List (GoMap (GoVal F))) : ∀ (i : Nat) (m m' : EModel F), m.slim = m'.slim →
      (verifyRows o inp out i rows m).1 = (verifyRows o inp' out i rows m').1 := by
  induction rows with
  | nil => intro i m m' _; rfl
  | cons r rows ih =>
    intro i m m' hm
    unfold verifyRows
    dsimp only
    rw [verifyInput_keys h]
    generalize some (verifyInput inp' _) = row
    have h1 := evaluate_slim (o.at_ (3 * i + 1)) m row
    rw [hm, evaluate_slim (o.at_ (3 * i + 1)) m' row] at h1
    simp only [Ev.slimBy, Ev.mk.injEq] at h1
    obtain ⟨h1, -, h2⟩ := h1
    rw [h1]
    cases (EModel.evaluate (o.at_ (3 * i + 1)) m row).res with
    | error e => rfl
    | ok a =>
      dsimp only
      cases verifyCompare out a _ with
      | error e => rfl
      | ok u => exact ih _ _ _ h2.symm

/-- **C118**: the verdict of Verify does not depend on how precise an output has to be (only on whether anything is said
about it), on the names given to input columns, on exponents, outliers and invalid values, on the names and predicates
of segments, or on verification records inside an ensemble. Models that are the same otherwise are both built or both
refused with the same error, and Verify ends in the same way, with the same error if any. -/
theorem C118_verify (dd : List DataField) {e e' : ModelElem F} (h : SameChecks e e') (td : TD F) :
    (∃ f, (newModel dd e td).1 = .error f ∧ (newModel dd e' td).1 = .error f) ∨
    ∃ m m', (newModel dd e td).1 = .ok m ∧ (newModel dd e' td).1 = .ok m' ∧ ∀ o, (m.verify o).1 = (m'.verify o).1 := by
  obtain ⟨hs, hv⟩ := h
  have h1 := (newModel_slim dd e td).1
  rw [hs, (newModel_slim dd e' td).1] at h1
  cases hm : (newModel dd e td).1 with
  | error f =>
    cases hm' : (newModel dd e' td).1 with
    | error f' =>
      rw [hm, hm'] at h1
      cases h1
      exact .inl ⟨_, rfl, rfl⟩
    | ok m' => rw [hm, hm'] at h1; cases h1
  | ok m =>
    cases hm' : (newModel dd e' td).1 with
    | error f' => rw [hm, hm'] at h1; cases h1
    | ok m' =>
      refine .inr ⟨m, m', rfl, rfl, fun o => ?_⟩
      rw [hm, hm'] at h1
      simp only [Except.map, Except.ok.injEq] at h1
      rw [verify_eq, verify_eq, constructed_verification (td' := (newModel dd e td).2) (Prod.ext hm rfl),
        constructed_verification (td' := (newModel dd e' td).2) (Prod.ext hm' rfl)]
      cases hw : verificationOf e with
      | none =>
        cases hw' : verificationOf e' with
        | none => rfl
        | some w' => rw [hw, hw'] at hv; cases hv
      | some w =>
        cases hw' : verificationOf e' with
        | none => rw [hw, hw'] at hv; cases hv
        | some w' =>
          rw [hw, hw'] at hv
          simp only [Option.map_some, Option.some.injEq, checksOf, Prod.mk.injEq] at hv
          unfold verifyModel
          dsimp only
          rcases verifyMaps_checks w.fields w'.fields ∅ ∅ ∅ hv.1 fun _ => .rfl with ⟨f, ha, hb⟩ | ⟨i, i', out, ha, hb, hk⟩
          · rw [ha, hb]
          · rw [ha, hb, hv.2]
            exact verifyRows_slim o out hk _ 0 m m' h1.symm

/-- A field with another precision and, if it is an input, another name. -/
def recheck (g : F → F) (rename : String → String) (v : VerificationField F) : VerificationField F :=
  { v with
    precision := v.precision.map g
    field := if v.precision.isSome then v.field else rename v.field }

/-- The same for all fields of the records a model is verified with. -/
def recheckModel (g : F → F) (rename : String → String) : ModelElem F → ModelElem F
  | .tree d => .tree { d with verification := d.verification.map fun w => { w with fields := w.fields.map (recheck g rename) } }
  | .regression d =>
    .regression { d with verification := d.verification.map fun w => { w with fields := w.fields.map (recheck g rename) } }
  | .mining h segs =>
    .mining { h with verification := h.verification.map fun w => { w with fields := w.fields.map (recheck g rename) } } segs
  | .other k => .other k

omit [Arith F] [Lib F] [Trans F] in
theorem recheck_same (g : F → F) (rename : String → String) (v : VerificationField F) :
    checkOf (recheck g rename v) = checkOf v := by
  obtain ⟨f, c, p⟩ := v
  cases p <;> rfl

omit [Arith F] [Lib F] [Trans F] in
theorem recheckModel_same (g : F → F) (rename : String → String) (e : ModelElem F) :
    SameChecks (recheckModel g rename e) e := by
  have key : ∀ w : Option (ModelVerification F),
      (w.map fun w => { w with fields := w.fields.map (recheck g rename) }).map checksOf = w.map checksOf := by
    intro w
    cases w with
    | none => rfl
    | some w =>
      simp only [Option.map_some, checksOf, List.map_map]
      congr 2
      exact List.map_congr_left fun v _ => recheck_same g rename v
  cases e with
  | tree d => exact ⟨rfl, key d.verification⟩
  | regression d => exact ⟨rfl, key d.verification⟩
  | mining h segs => exact ⟨rfl, key h.verification⟩
  | other k => exact ⟨rfl, rfl⟩

/-- **C118** (precisions): whatever the precisions asked for, and whatever fields the inputs are said to be, the model
is built alike and Verify ends in the same way. -/
theorem C118_precision (dd : List DataField) (g : F → F) (rename : String → String) (e : ModelElem F) (td : TD F) :
    (∃ f, (newModel dd (recheckModel g rename e) td).1 = .error f ∧ (newModel dd e td).1 = .error f) ∨
    ∃ m m', (newModel dd (recheckModel g rename e) td).1 = .ok m ∧ (newModel dd e td).1 = .ok m' ∧
      ∀ o, (m.verify o).1 = (m'.verify o).1 :=
  C118_verify dd (recheckModel_same g rename e) td

/-! ## Examples -/

namespace ChecksExample

/-- Records of one input and one output. -/
def records (p : F64) : ModelVerification F64 := ⟨[⟨"x", "data:x", none⟩, ⟨"y", "data:y", some p⟩], [∅]⟩

-- C118: the precision is changed, the name of the input too; the output keeps its name.
example : (records Arith.zero).fields.map (recheck (fun _ => Arith.lit 1 10) fun _ => "z") =
    [⟨"z", "data:x", none⟩, ⟨"y", "data:y", some (Arith.lit 1 10)⟩] := rfl

/-- An ensemble of one regression. -/
def model (p : F64) (id : String) (q : Pred F64) (n : Int) : ModelElem F64 :=
  .mining ⟨.regression, .sum, some (records p), [], [], [], []⟩
    [.mk id [q] [.regression ⟨.regression, .exp, [⟨Arith.zero, "", [⟨"x", Arith.zero, n⟩]⟩], [], some (records p)⟩]]

-- They differ in the precision, in the name and the predicate of the segment, and in the exponent.
example (p p' : F64) : SameChecks (model p "s" .false_ 1) (model p' "t" .true_ 3) := ⟨rfl, rfl⟩

-- Both are built.
example (p : F64) (id : String) (q : Pred F64) (n : Int) : ∃ m, (newModel [] (model p id q n) []).1 = .ok m :=
  ⟨_, rfl⟩

-- Whether there is a precision does matter.
example : checkOf (F := F64) ⟨"y", "data:y", none⟩ ≠ checkOf (F := F64) ⟨"y", "data:y", some Arith.zero⟩ := by
  simp [checkOf]

end ChecksExample

end Gopmml.Props
