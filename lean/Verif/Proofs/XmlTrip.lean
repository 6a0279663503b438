import Mathlib.Tactic.IntervalCases
import Verif.Proofs.Xml
import Verif.Proofs.Maps

/-!
# Reading back what the encoders of Spec/Xml.lean write
-/

namespace Gopmml

/-! ## Loops over lists of written items -/

section
variable {σ α : Type}

/-- The hand-written loop takes the element `x` from state `s` to `s'`. -/
def Reads (h : String → Attrs → List Xml → σ → Option (Dec σ)) (x : Xml) (s s' : σ) : Prop :=
  ∃ n as ch, x = .elem n as ch ∧ h n as ch s = some (.ok s')

/-- The reflection loop takes the element `x` from state `s` to `s'`. -/
def RReads (h : String → Attrs → List Xml → σ → Dec σ) (x : Xml) (s s' : σ) : Prop :=
  ∃ n as ch, x = .elem n as ch ∧ h n as ch s = .ok s'

theorem bodyLoop_step {h : String → Attrs → List Xml → σ → Option (Dec σ)} {x : Xml} {s s' : σ}
    (hs : Reads h x s s') (rest : List Xml) : bodyLoop h (x :: rest) s = bodyLoop h rest s' := by
  obtain ⟨n, as, ch, rfl, hh⟩ := hs
  rw [bodyLoop_elem, hh]

theorem bodyLoop_list {h : String → Attrs → List Xml → σ → Option (Dec σ)} (enc : α → Xml)
    (st : List α → σ) (l : List α)
    (hs : ∀ a ∈ l, ∀ done, Reads h (enc a) (st done) (st (done ++ [a]))) (rest : List Xml) :
    ∀ done, bodyLoop h (l.map enc ++ rest) (st done) = bodyLoop h rest (st (done ++ l)) := by
  induction l with
  | nil => intro done; simp
  | cons a l ih =>
    intro done
    rw [List.map_cons, List.cons_append, bodyLoop_step (hs a (by simp) done),
      ih (fun b hb => hs b (List.mem_cons_of_mem _ hb))]
    simp

theorem reflectLoop_step {h : String → Attrs → List Xml → σ → Dec σ} {x : Xml} {s s' : σ}
    (hs : RReads h x s s') (rest : List Xml) :
    reflectLoop h (x :: rest) s = reflectLoop h rest s' := by
  obtain ⟨n, as, ch, rfl, hh⟩ := hs
  simp only [reflectLoop, hh]

theorem reflectLoop_list {h : String → Attrs → List Xml → σ → Dec σ} (enc : α → Xml)
    (st : List α → σ) (l : List α)
    (hs : ∀ a ∈ l, ∀ done, RReads h (enc a) (st done) (st (done ++ [a]))) (rest : List Xml) :
    ∀ done, reflectLoop h (l.map enc ++ rest) (st done) = reflectLoop h rest (st (done ++ l)) := by
  induction l with
  | nil => intro done; simp
  | cons a l ih =>
    intro done
    rw [List.map_cons, List.cons_append, reflectLoop_step (hs a (by simp) done),
      ih (fun b hb => hs b (List.mem_cons_of_mem _ hb))]
    simp

/-- The common case: the state is the list itself. -/
theorem reflectLoop_map {h : String → Attrs → List Xml → List α → Dec (List α)} (enc : α → Xml)
    (l : List α) (hs : ∀ a ∈ l, ∀ done, RReads h (enc a) done (done ++ [a])) :
    reflectLoop h (l.map enc) [] = .ok l := by
  have := reflectLoop_list enc (fun d => d) l hs [] []
  simpa [reflectLoop] using this

theorem bodyLoop_map {h : String → Attrs → List Xml → List α → Option (Dec (List α))}
    (enc : α → Xml) (l : List α) (hs : ∀ a ∈ l, ∀ done, Reads h (enc a) done (done ++ [a])) :
    bodyLoop h (l.map enc) [] = .ok (l, true) := by
  have := bodyLoop_list enc (fun d => d) l hs [] []
  simpa [bodyLoop] using this

end

/-! ## Enumerations -/

open Spec

theorem ofString_miningFunction {x : MiningFunction} (h : OkMiningFunction x) :
    MiningFunction.ofString (miningFunction x) = x := by
  cases x with
  | other s =>
    simp only [OkMiningFunction, List.mem_cons, List.not_mem_nil, or_false, not_or] at h
    simp [miningFunction, MiningFunction.ofString, h]
  | _ => rfl

theorem ofString_missing {x : MissingValueStrategy} (h : OkMissing x) :
    MissingValueStrategy.ofString (missingValueStrategy x) = x := by
  cases x with
  | other s =>
    simp only [OkMissing, List.mem_cons, List.not_mem_nil, or_false, not_or] at h
    simp [missingValueStrategy, MissingValueStrategy.ofString, h]
  | _ => rfl

theorem ofString_noTrue {x : NoTrueChildStrategy} (h : OkNoTrue x) :
    NoTrueChildStrategy.ofString (noTrueChildStrategy x) = x := by
  cases x with
  | other s =>
    simp only [OkNoTrue, List.mem_cons, List.not_mem_nil, or_false, not_or] at h
    simp [noTrueChildStrategy, NoTrueChildStrategy.ofString, h]
  | _ => rfl

theorem ofString_simpleOp {x : SimpleOp} (h : OkSimpleOp x) :
    SimpleOp.ofString (simpleOp x) = x := by
  cases x with
  | other s =>
    simp only [OkSimpleOp, List.mem_cons, List.not_mem_nil, or_false, not_or] at h
    simp [simpleOp, SimpleOp.ofString, h]
  | _ => rfl

theorem ofString_boolOp {x : BoolOp} (h : OkBoolOp x) : BoolOp.ofString (boolOp x) = x := by
  cases x with
  | other s =>
    simp only [OkBoolOp, List.mem_cons, List.not_mem_nil, or_false, not_or] at h
    simp [boolOp, BoolOp.ofString, h]
  | _ => rfl

theorem ofString_usage {x : UsageType} (h : OkUsage x) : UsageType.ofString (usageType x) = x := by
  cases x with
  | other s =>
    simp only [OkUsage, List.mem_cons, List.not_mem_nil, or_false, not_or] at h
    simp [usageType, UsageType.ofString, h]
  | _ => rfl

theorem ofString_dataType {x : DataType} (h : OkDataType x) :
    DataType.ofString (dataType x) = x := by
  cases x with
  | other s =>
    simp only [OkDataType, List.mem_cons, List.not_mem_nil, or_false, not_or] at h
    simp [dataType, DataType.ofString, h]
  | _ => rfl

theorem ofString_opType {x : OpType} (h : OkOpType x) : OpType.ofString (opType x) = x := by
  cases x with
  | other s =>
    simp only [OkOpType] at h
    simp [opType, OpType.ofString, h]
  | _ => rfl

theorem ofString_feature {x : ResultFeature} (h : OkFeature x) :
    ResultFeature.ofString (resultFeature x) = x := by
  cases x with
  | other s =>
    simp only [OkFeature, List.mem_cons, List.not_mem_nil, or_false, not_or] at h
    simp [resultFeature, ResultFeature.ofString, h]
  | _ => rfl

theorem ofString_normalization {x : Normalization} (h : OkNormalization x) :
    Normalization.ofString (normalization x) = x := by
  cases x with
  | other s =>
    simp only [OkNormalization, List.mem_cons, List.not_mem_nil, or_false, not_or] at h
    simp [normalization, Normalization.ofString, h]
  | _ => rfl

theorem ofString_method {x : MultipleModelMethod} (h : OkMethod x) :
    MultipleModelMethod.ofString (multipleModelMethod x) = x := by
  cases x with
  | other s =>
    simp only [OkMethod, List.mem_cons, List.not_mem_nil, or_false, not_or] at h
    simp [multipleModelMethod, MultipleModelMethod.ofString, h]
  | _ => rfl

/-! ## Integers -/

theorem isDigit_iff (c : Char) : isDigit c = c.isDigit := by
  rfl

theorem isDigit_cases {c : Char} (h : isDigit c = true) :
    c ∈ ['0', '1', '2', '3', '4', '5', '6', '7', '8', '9'] := by
  simp only [isDigit, Bool.and_eq_true, decide_eq_true_eq] at h
  have h1 : 48 ≤ c.toNat := h.1
  have h2 : c.toNat ≤ 57 := h.2
  have hc : c = Char.ofNat c.toNat := by simp
  rw [hc]
  generalize c.toNat = n at h1 h2
  interval_cases n <;> decide

theorem isDigit_plain {c : Char} (h : isDigit c = true) : isSpace c = false ∧ c ≠ '-' ∧ c ≠ '+' := by
  have h' := isDigit_cases h
  have hd : ∀ c ∈ ['0', '1', '2', '3', '4', '5', '6', '7', '8', '9'],
      isSpace c = false ∧ c ≠ '-' ∧ c ≠ '+' := by decide
  exact hd c h'

theorem digitsVal_repr (n : Nat) : digitsVal (Nat.toDigits 10 n) = n := by
  have := Nat.ofDigitChars_ten_toDigits (n := n)
  rw [Nat.ofDigitChars_eq_foldl] at this
  exact this

theorem digits_repr {n : Nat} {c : Char} (h : c ∈ Nat.toDigits 10 n) : isDigit c = true := by
  rw [isDigit_iff]
  exact Nat.isDigit_of_mem_toDigits (by omega) (by omega) h

theorem dropWhile_none {p : Char → Bool} {l : List Char} (h : ∀ c ∈ l, p c = false) :
    l.dropWhile p = l := by
  cases l with
  | nil => rfl
  | cons a l => simp [h a (by simp)]

theorem trimSpace_plain {s : String} (h : ∀ c ∈ s.toList, isSpace c = false) : trimSpace s = s := by
  unfold trimSpace
  rw [dropWhile_none h, dropWhile_none (by simpa using h)]
  simp

theorem toString_toList (n : Int) : (toString n).toList =
    if 0 ≤ n then Nat.toDigits 10 n.toNat else '-' :: Nat.toDigits 10 (-n).toNat := by
  rw [Int.toString_eq_repr, Int.repr_eq_if]
  split_ifs <;> simp

theorem trimSpace_toString (n : Int) : trimSpace (toString n) = toString n := by
  apply trimSpace_plain
  rw [toString_toList]
  intro c hc
  split_ifs at hc
  · exact (isDigit_plain (digits_repr hc)).1
  · rcases List.mem_cons.1 hc with rfl | hc
    · decide
    · exact (isDigit_plain (digits_repr hc)).1

theorem toString_ne (n : Int) : toString n ≠ "" := by
  intro h
  have h' := congrArg String.toList h
  rw [toString_toList] at h'
  split_ifs at h'
  · exact absurd h' Nat.toDigits_ne_nil
  · simp at h'

theorem parseInt_toString (n : Int) (h1 : -2 ^ 63 ≤ n) (h2 : n < 2 ^ 63) :
    parseInt (toString n) = some n := by
  have hall : ∀ k : Nat, (Nat.toDigits 10 k).all isDigit = true := by
    intro k
    rw [List.all_eq_true]
    exact fun c hc => digits_repr hc
  unfold parseInt
  rw [toString_toList]
  by_cases h : 0 ≤ n
  · simp only [if_pos h]
    cases hd : Nat.toDigits 10 n.toNat with
    | nil => exact absurd hd Nat.toDigits_ne_nil
    | cons c l =>
      have hc := isDigit_plain (digits_repr (n := n.toNat) (c := c) (by simp [hd]))
      have ha := hall n.toNat
      have hv := digitsVal_repr n.toNat
      rw [hd] at ha hv
      split
      · rename_i heq; cases heq; exact absurd rfl hc.2.1
      · rename_i heq; cases heq; exact absurd rfl hc.2.2
      · simp only [ha, hv]
        simp
        omega
  · simp only [if_neg h]
    simp only [hall, digitsVal_repr]
    simp [Nat.toDigits_ne_nil]
    omega

theorem attrInt_toString (n : Int) (h1 : -2 ^ 63 ≤ n) (h2 : n < 2 ^ 63) :
    attrInt (toString n) = .ok n := by
  unfold attrInt
  rw [if_neg (toString_ne n), trimSpace_toString, parseInt_toString n h1 h2]
  rfl

theorem attrFloat_fmt {F : Type} [Arith F] [Lib F] {fmt : F → String} {x : F}
    (h : Printable fmt x) : attrFloat (fmt x) = .ok x := by
  unfold attrFloat
  rw [if_neg h.1, h.2.1, h.2.2]
  rfl

end Gopmml
