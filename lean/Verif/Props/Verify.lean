import Verif.Spec.Verify
import Verif.Proofs.Mining
import Verif.Proofs.Regression
import Verif.Proofs.Real
import Verif.Proofs.F64Arith
import Verif.Props.History
import Verif.Props.MapOrder
import Verif.Model.Samples

/-!
# Properties C53, C54: model verification
-/

namespace Gopmml
open Spec

variable {F : Type} [Arith F] [Lib F] [Trans F]

theorem columnName_eq {c col : String} : columnName c = some col ↔ c = "data:" ++ col := by
  unfold columnName
  constructor
  · intro h
    split at h
    · rename_i rest heq
      cases h
      apply String.toList_inj.mp
      rw [heq]
      simp
    · cases h
  · rintro rfl
    have : ("data:" ++ col).toList = 'd' :: 'a' :: 't' :: 'a' :: ':' :: col.toList := by
      rw [String.toList_append]; rfl
    rw [this]
    simp

theorem data_inj {a b : String} (h : "data:" ++ a = "data:" ++ b) : a = b := by
  have h1 := columnName_eq.mpr h
  have h2 := columnName_eq.mpr (rfl : "data:" ++ a = "data:" ++ a)
  rw [h2] at h1
  exact Option.some.inj h1

omit [Arith F] [Lib F] [Trans F] in
/-- The two maps, extended by a list of fields. -/
theorem verifyMaps_some {fs : List (VerificationField F)} {i o i' o' : GoMap String}
    (h : verifyMaps fs i o = .ok (i', o')) :
    (∀ f ∈ fs, ∃ col, f.column = "data:" ++ col) ∧
    (∀ k : String, k ∈ i' ↔ k ∈ i ∨ ∃ f ∈ fs, f.precision = none ∧ f.column = "data:" ++ k) ∧
    (∀ k : String, o'[k]? = ((fs.filter fun f => f.precision.isSome ∧ f.column = "data:" ++ k).getLast?.map
      (·.field)).or o[k]?) := by
  induction fs generalizing i o with
  | nil =>
    simp only [verifyMaps, Except.ok.injEq, Prod.mk.injEq] at h
    obtain ⟨rfl, rfl⟩ := h
    simp
  | cons f fs ih =>
    rw [verifyMaps] at h
    cases hc : columnName f.column with
    | none => rw [hc] at h; cases h
    | some col =>
      rw [hc] at h
      have hcol := columnName_eq.mp hc
      have hk : ∀ k, f.column = "data:" ++ k ↔ col = k := by
        intro k
        rw [hcol]
        exact ⟨data_inj, fun h => h ▸ rfl⟩
      cases hp : f.precision with
      | none =>
        rw [hp] at h
        obtain ⟨h1, h2, h3⟩ := ih h
        refine ⟨?_, ?_, ?_⟩
        · intro g hg
          rcases List.mem_cons.mp hg with rfl | hg
          · exact ⟨col, hcol⟩
          · exact h1 g hg
        · intro k
          rw [h2]
          simp only [Std.ExtTreeMap.mem_insert, Std.LawfulEqCmp.compare_eq_iff_eq, List.mem_cons, exists_eq_or_imp,
            hp, hk, true_and]
          tauto
        · intro k
          rw [h3, List.filter_cons_of_neg (by simp [hp])]
      | some x =>
        rw [hp] at h
        obtain ⟨h1, h2, h3⟩ := ih h
        refine ⟨?_, ?_, ?_⟩
        · intro g hg
          rcases List.mem_cons.mp hg with rfl | hg
          · exact ⟨col, hcol⟩
          · exact h1 g hg
        · intro k
          rw [h2]
          simp [hp]
        · intro k
          rw [h3, getLast?_filter_cons, GoMap.getElem?_insert]
          cases (fs.filter fun f => f.precision.isSome ∧ f.column = "data:" ++ k).getLast? with
          | some g => simp
          | none =>
            by_cases hck : col = k <;> simp [hp, hk, hck]

omit [Arith F] [Lib F] [Trans F] in
theorem verifyMaps_ok {fs : List (VerificationField F)} (h : ∀ f ∈ fs, ∃ col, f.column = "data:" ++ col)
    (i o : GoMap String) : ∃ p, verifyMaps fs i o = .ok p := by
  induction fs generalizing i o with
  | nil => exact ⟨_, rfl⟩
  | cons f fs ih =>
    obtain ⟨col, hc⟩ := h f List.mem_cons_self
    rw [verifyMaps, columnName_eq.mpr hc]
    cases f.precision with
    | none => exact ih (fun g hg => h g (List.mem_cons_of_mem _ hg)) _ _
    | some x => exact ih (fun g hg => h g (List.mem_cons_of_mem _ hg)) _ _

omit [Arith F] [Lib F] [Trans F] in
theorem verifyInput_getElem? (inp : GoMap String) (o : MapOrd) (r : GoMap (GoVal F)) (k : String) :
    (verifyInput inp (o.range r))[k]? = if k ∈ inp then r[k]? else none := by
  unfold verifyInput
  have := fold_range_getElem? o r (fun kv => if kv.1 ∈ inp then some kv.2 else none) ∅ k
  refine Eq.trans (congrArg (fun m : GoMap (GoVal F) => m[k]?) ?_) (this.trans ?_)
  · congr 1
    funext m kv
    by_cases h : kv.1 ∈ inp <;> simp [h]
  cases r[k]? with
  | none => simp
  | some v => by_cases h : k ∈ inp <;> simp [h]

omit [Trans F] in
theorem verifyCompare_ok (out : GoMap String) (output : Out F) (es : List (String × GoVal F)) :
    verifyCompare out output es = .ok () ↔
      ∀ kv ∈ es, ∀ f, out[kv.1]? = some f → ∃ p, Row.get output f = some p ∧ Close kv.2.float64 p.float64 := by
  induction es with
  | nil => simp [verifyCompare]
  | cons e es ih =>
    obtain ⟨k, v⟩ := e
    rw [List.forall_mem_cons, verifyCompare]
    cases hk : out[k]? with
    | none =>
      simp only [ih]
      simp
    | some f =>
      simp only [Option.some.injEq, forall_eq']
      rw [show output.bind (fun m => m[f]?) = Row.get output f from rfl]
      cases hg : Row.get output f with
      | none => simp [fail]
      | some p =>
        simp only [Option.some.injEq, exists_eq_left']
        by_cases hc : Close v.float64 p.float64
        · rw [if_neg hc, ih]
          exact ⟨fun h => ⟨hc, h⟩, fun h => h.2⟩
        · rw [if_pos (not_not.mp hc)]
          exact ⟨fun h => (by simp [fail] at h), fun h => absurd h.1 hc⟩

omit [Arith F] [Lib F] [Trans F] in
theorem mem_range_iff (o : MapOrd) {V : Type} (m : GoMap V) (k : String) (v : V) :
    (k, v) ∈ o.range m ↔ m[k]? = some v := by
  rw [MapOrd.range, (o.perm [] m.toList).mem_iff, Std.ExtTreeMap.mem_toList_iff_getElem?_eq_some]

/-- The loop over the rows, for a model with the answers of `m₀`. -/
theorem verifyRows_iff {m₀ : EModel F} {mv : ModelVerification F} {inp out : GoMap String}
    (hi : ∀ k : String, k ∈ inp ↔ InputColumn mv k) (ho : ∀ k : String, out[k]? = outputField mv k)
    (o : MapOrd) (rows : List (GoMap (GoVal F))) (i : Nat) {m : EModel F} (hs : SameModel m₀ m) :
    ((verifyRows o inp out i rows m).1 = .ok () ↔
      ∀ j r, rows[j]? = some r → Agrees (o.at_ (3 * (i + j) + 1)) m₀ mv r) ∧
    SameModel m₀ (verifyRows o inp out i rows m).2 := by
  induction rows generalizing i m with
  | nil => simp [verifyRows, hs]
  | cons r rows ih =>
    have hst := evaluate_stable m₀ m (o.at_ (3 * i + 1))
      (some (verifyInput inp ((o.at_ (3 * i)).range r))) hs
    have hin : InputRow mv r (verifyInput inp ((o.at_ (3 * i)).range r)) := by
      intro k v
      rw [verifyInput_getElem?]
      by_cases hk : k ∈ inp
      · rw [if_pos hk]; simp [(hi k).mp hk]
      · rw [if_neg hk]; simp only [reduceCtorEq, false_iff, not_and]; exact fun h => absurd ((hi k).mpr h) hk
    have huniq : ∀ input, InputRow mv r input → input = verifyInput inp ((o.at_ (3 * i)).range r) := by
      intro input h
      apply Std.ExtTreeMap.ext_getElem?
      intro k
      apply Option.ext
      intro v
      rw [h k v, hin k v]
    have hrow : ∀ output, (m₀.evaluate (o.at_ (3 * i + 1)) (some (verifyInput inp ((o.at_ (3 * i)).range r)))).res =
        .ok output →
        (verifyCompare out output ((o.at_ (3 * i + 2)).range r) = .ok () ↔ Agrees (o.at_ (3 * i + 1)) m₀ mv r) := by
      intro output he
      rw [verifyCompare_ok]
      constructor
      · intro h
        refine ⟨_, output, hin, he, ?_⟩
        intro k v f hk hf
        exact h (k, v) ((mem_range_iff _ _ _ _).mpr hk) f (by rw [ho]; exact hf)
      · rintro ⟨input, output', hinp, he', h⟩ ⟨k, v⟩ hkv f hf
        rw [huniq input hinp, he] at he'
        cases he'
        exact h k v f ((mem_range_iff _ _ _ _).mp hkv) (by rw [← ho]; exact hf)
    have hall : (∀ j r', (r :: rows)[j]? = some r' → Agrees (o.at_ (3 * (i + j) + 1)) m₀ mv r') ↔
        Agrees (o.at_ (3 * i + 1)) m₀ mv r ∧
        ∀ j r', rows[j]? = some r' → Agrees (o.at_ (3 * (i + 1 + j) + 1)) m₀ mv r' := by
      constructor
      · intro h
        refine ⟨h 0 r rfl, fun j r' hj => ?_⟩
        have := h (j + 1) r' hj
        rwa [show i + (j + 1) = i + 1 + j by ring] at this
      · rintro ⟨h0, h⟩ j r' hj
        cases j with
        | zero => cases hj; exact h0
        | succ j => rw [show i + (j + 1) = i + 1 + j by ring]; exact h j r' hj
    rw [hall, verifyRows]
    cases he : (m.evaluate (o.at_ (3 * i + 1)) (some (verifyInput inp ((o.at_ (3 * i)).range r)))).res with
    | error e =>
      refine ⟨?_, hst.2.2⟩
      simp only [reduceCtorEq, false_iff, not_and]
      rintro ⟨input, output, hinp, heq, -⟩
      rw [huniq input hinp, ← hst.1, he] at heq
      cases heq
    | ok output =>
      have hr := hrow output (hst.1 ▸ he)
      simp only
      cases hc : verifyCompare out output ((o.at_ (3 * i + 2)).range r) with
      | error e =>
        refine ⟨?_, hst.2.2⟩
        rw [hc] at hr
        simp only [reduceCtorEq, false_iff, not_and] at hr ⊢
        exact fun h => absurd h hr
      | ok u =>
        obtain ⟨h1, h2⟩ := ih (i + 1) hst.2.2
        exact ⟨by rw [h1]; exact ⟨fun h => ⟨hr.mp hc, h⟩, fun h => h.2⟩, h2⟩

theorem verifyModel_iff {m₀ m : EModel F} (hs : SameModel m₀ m) (mv : ModelVerification F) (o : MapOrd) :
    ((verifyModel o m (some mv)).1 = .ok () ↔
      Prefixed mv ∧ ∀ j r, mv.rows[j]? = some r → Agrees (o.at_ (3 * j + 1)) m₀ mv r) ∧
    SameModel m₀ (verifyModel o m (some mv)).2 := by
  rw [verifyModel]
  cases hm : verifyMaps mv.fields ∅ ∅ with
  | error e =>
    refine ⟨?_, hs⟩
    simp only [reduceCtorEq, false_iff, not_and]
    intro hp
    obtain ⟨p, hp⟩ := verifyMaps_ok hp ∅ ∅
    rw [hp] at hm
    cases hm
  | ok p =>
    obtain ⟨inp, out⟩ := p
    obtain ⟨h1, h2, h3⟩ := verifyMaps_some hm
    have := verifyRows_iff (m₀ := m₀) (mv := mv) (inp := inp) (out := out)
      (by intro k; rw [h2]; simp [InputColumn])
      (by intro k; rw [h3]; simp [outputField]) o mv.rows 0 hs
    simp only [Nat.zero_add] at this
    exact ⟨by rw [this.1]; exact ⟨fun h => ⟨h1, h⟩, fun h => h.2⟩, this.2⟩

/-- A constructed model keeps the verification table of its document. -/
def verificationIn : EModel F → Option (ModelVerification F)
  | .tree t => t.model.verification
  | .regression d => d.verification
  | .mining s _ => s.head.verification

theorem verify_eq (o : MapOrd) (m : EModel F) : m.verify o = verifyModel o m (verificationIn m) := by
  cases m <;> rfl

omit [Arith F] [Lib F] [Trans F] in
theorem verificationIn_same {m m' : EModel F} (h : SameModel m m') : verificationIn m' = verificationIn m := by
  cases h with
  | tree _ _ h => rw [h]; rfl
  | regression d => rfl
  | mining h => rfl

end Gopmml

namespace Gopmml.Props
open Gopmml Spec

variable {F : Type} [Arith F] [Lib F] [Trans F] {dd : List DataField} {e : ModelElem F} {td td' : TD F}
  {m : EModel F}

omit [Trans F] in
theorem constructed_verification (h : newModel dd e td = (.ok m, td')) :
    verificationIn m = verificationOf e := by
  cases e with
  | tree d =>
    rw [newModel] at h
    rcases ht : newTreeModel dd td d with ⟨_ | t, td1⟩ <;> rw [ht] at h
    · simp at h
    · simp only [Prod.mk.injEq, Except.ok.injEq] at h
      obtain ⟨rfl, -⟩ := h
      simp only [verificationIn, verificationOf, (newTreeModel_ok ht).2.2.2.2.2.1]
  | regression d => simp [newModel] at h; obtain ⟨rfl, -⟩ := h; rfl
  | mining hd segs =>
    obtain ⟨s, ms, rfl, -, -, -, hh, -⟩ := newMining_ok h
    simp only [verificationIn, verificationOf, hh]
  | other k => simp [newModel] at h

/-- **C53**: without a verification table Verify succeeds. -/
theorem C53_none (h : newModel dd e td = (.ok m, td')) (hv : verificationOf e = none) (o : MapOrd) :
    (m.verify o).1 = .ok () := by
  rw [verify_eq, constructed_verification h, hv]
  rfl

/-- **C53**: Verify succeeds exactly when all columns are prefixed and the model agrees with every
row of the table, whatever the order in which maps are visited.  (`o.at_ (3 * j + 1)` are the
orders used inside the evaluation of the j-th row; the orders in which the columns of the row are
visited do not matter.) -/
theorem C53_verify (h : newModel dd e td = (.ok m, td')) {mv : ModelVerification F}
    (hv : verificationOf e = some mv) (o : MapOrd) :
    (m.verify o).1 = .ok () ↔
      Prefixed mv ∧ ∀ j r, mv.rows[j]? = some r → Agrees (o.at_ (3 * j + 1)) m mv r := by
  rw [verify_eq, constructed_verification h, hv]
  exact (verifyModel_iff (newModel_same dd e h) mv o).1

/-- **C53**: if no tree mixes the predictions of its nodes, the verdict is the same for all map
orders, and agreement can be read off any of them. -/
theorem C53_order (h : newModel dd e td = (.ok m, td')) (hn : NoMixingDoc e) {mv : ModelVerification F}
    (hv : verificationOf e = some mv) (o o' : MapOrd) :
    (m.verify o).1 = .ok () ↔ Prefixed mv ∧ ∀ r ∈ mv.rows, Agrees o' m mv r := by
  have hind : ∀ o₁ o₂ r, Agrees o₁ m mv r → Agrees o₂ m mv r := by
    rintro o₁ o₂ r ⟨input, out, h1, h2, h3⟩
    exact ⟨input, out, h1, by rw [C25_order_document hn h o₂ o₁]; exact h2, h3⟩
  rw [C53_verify h hv]
  constructor
  · rintro ⟨hp, H⟩
    refine ⟨hp, fun r hr => ?_⟩
    obtain ⟨j, hj⟩ := List.mem_iff_getElem?.mp hr
    exact hind _ _ r (H j r hj)
  · rintro ⟨hp, H⟩
    exact ⟨hp, fun j r hj => hind _ _ r (H r (List.mem_iff_getElem?.mpr ⟨j, hj⟩))⟩

/-- **C53** (finding), exact arithmetic: a negative expected value is never close to anything, not
even to itself. -/
theorem C53_negative {x y : ℝ} (h : x < 0) : ¬ Close x y := by
  unfold Close
  rw [not_not, Real'.lt_iff]
  have h1 : (Arith.lit 1 100000 : ℝ) = 1 / 100000 := by
    show ((1 : ℤ) : ℝ) / ((100000 : ℕ) : ℝ) = _
    norm_num
  rw [h1, Real'.mul_eq]
  have h2 : 0 ≤ (Arith.abs (Arith.sub x y) : ℝ) := abs_nonneg _
  linarith

/-- Exact arithmetic: for other expected values it is the relative error bound. -/
theorem C53_close {x y : ℝ} : Close x y ↔ |x - y| ≤ 1 / 100000 * x := by
  unfold Close
  have h1 : (Arith.lit 1 100000 : ℝ) = 1 / 100000 := by
    show ((1 : ℤ) : ℝ) / ((100000 : ℕ) : ℝ) = _
    norm_num
  rw [Real'.lt_iff, not_lt, h1, Real'.mul_eq]
  rfl

open F64 in
/-- **C53** (finding), float64: a finite negative expected value whose tolerance does not underflow
to zero is not close to any number. -/
theorem C53_negative_float {q : ℚ} {hq : Rep q} {y : F64}
    (hm : Arith.lt (Arith.mul (Arith.lit 1 100000) (F64.fin q hq)) (Arith.zero : F64) = true)
    (hy : y ≠ F64.nan) : ¬ Close (F64.fin q hq) y := by
  unfold Close
  rw [not_not]
  have hs : Arith.sub (F64.fin q hq) y ≠ F64.nan := by
    show F64.add _ (F64.neg y) ≠ _
    cases y with
    | nan => exact absurd rfl hy
    | inf b => simp [F64.neg, F64.add]
    | negZero =>
      simp only [F64.neg, F64.zero, F64.add]
      exact ofRat_ne_nan _ _
    | fin r hr =>
      simp only [F64.neg]
      split_ifs
      · simp [F64.add]
      · simp only [F64.add]; exact ofRat_ne_nan _ _
  have ha : NonNeg (Arith.abs (Arith.sub (F64.fin q hq) y)) := by
    show NonNeg (F64.abs _)
    cases hz : (Arith.sub (F64.fin q hq) y) with
    | nan => exact absurd hz hs
    | inf b => exact nonNeg_inf
    | negZero => exact nonNeg_fin.mpr (_root_.le_refl _)
    | fin r hr => exact nonNeg_fin.mpr (abs_nonneg r)
  have hn := lt_not_nan hm
  have h1 := (lt_iff hn.1 hn.2).mp hm
  rw [ext_zero] at h1
  exact (lt_iff hn.1 ha.1).mpr (lt_of_lt_of_le h1 ha.2)

open Replay in
-- The hypothesis holds for ordinary negative numbers; a tiny one whose tolerance underflows agrees with itself.
example : Arith.lt (Arith.mul (Arith.lit 1 100000) (num "-1")) (Arith.zero : F64) = true ∧
    Arith.lt (Arith.mul (Arith.lit 1 100000) (num "-1e-300")) (Arith.zero : F64) = true ∧
    Arith.lt (Arith.mul (Arith.lit 1 100000) (num "-5e-324"))
      (Arith.abs (Arith.sub (num "-5e-324") (num "-5e-324"))) = false := by
  decide +kernel

/-- **C53** (finding), float64: a NaN prediction passes whatever was expected. -/
theorem C53_nan (x : F64) : Close x F64.nan := by
  unfold Close
  have : (Arith.abs (Arith.sub x F64.nan) : F64) = F64.nan := by
    cases x with
    | inf b => cases b <;> rfl
    | _ => rfl
  rw [this]
  intro h
  exact (F64.lt_not_nan h).2 rfl

/-! ## C54: Verify does not disturb the model -/

/-- A call on a model. -/
inductive Call (F : Type) where
  | evaluate (o : MapOrd) (row : Row F)
  | verify (o : MapOrd)

/-- The model after a call. -/
def Call.run (m : EModel F) : Call F → EModel F
  | .evaluate o row => (EModel.evaluate o m row).model
  | .verify o => (m.verify o).2

/-- **C54**: after any sequence of Evaluate and Verify calls, whatever their outcomes, Evaluate
returns on any row what it returns on the fresh model, does to the row what it does there, and
Verify gives the verdict of the fresh model. -/
theorem C54_verify (h : newModel dd e td = (.ok m, td')) (calls : List (Call F)) (o : MapOrd) (row : Row F) :
    (EModel.evaluate o (calls.foldl Call.run m) row).res = (EModel.evaluate o m row).res ∧
    (EModel.evaluate o (calls.foldl Call.run m) row).row = (EModel.evaluate o m row).row ∧
    (((calls.foldl Call.run m).verify o).1 = .ok () ↔ (m.verify o).1 = .ok ()) := by
  have hstep : ∀ m' c, SameModel m m' → SameModel m (Call.run m' c) := by
    intro m' c hs
    cases c with
    | evaluate o row => exact (evaluate_stable m m' o row hs).2.2
    | verify o =>
      show SameModel m (m'.verify o).2
      rw [verify_eq]
      cases hv : verificationIn m' with
      | none => exact hs
      | some mv => exact (verifyModel_iff hs mv o).2
  have key : ∀ (calls : List (Call F)) m', SameModel m m' → SameModel m (calls.foldl Call.run m') := by
    intro calls
    induction calls with
    | nil => intro m' h; exact h
    | cons c calls ih => intro m' h; exact ih _ (hstep m' c h)
  have hs := key calls m (newModel_same dd e h)
  have := evaluate_stable m _ o row hs
  refine ⟨this.1, this.2.1, ?_⟩
  rw [verify_eq, verify_eq, verificationIn_same hs]
  cases hv : verificationIn m with
  | none => exact Iff.rfl
  | some mv => rw [(verifyModel_iff hs mv o).1, (verifyModel_iff (newModel_same dd e h) mv o).1]

section Examples
open Samples Replay

/-- x = 7 should give 10 (column `expect`, compared with the output `score`); the column `note` is
not declared. -/
def table (x expect : String) : ModelVerification F64 where
  fields := [⟨"x", "data:x", none⟩, ⟨"score", "data:expect", some (num "0.01")⟩]
  rows := [mk [("x", .str "3"), ("expect", .str "1")], mk [("x", .str x), ("expect", .str expect), ("note", .str "?")]]

def verified (x expect : String) : ModelElem F64 :=
  .tree { regTree "1" "10" with verification := some (table x expect) }

/-- Build a model and verify it. -/
def verify (o : MapOrd) (e : ModelElem F64) : Option (Res Unit) :=
  match newModel Samples.dd e [] with
  | (.ok m, _) => some (m.verify o).1
  | _ => none

-- C53/C54: the second row decides; within a relative error of 1e-5 the table is accepted.
example : verify .sorted (verified "7" "10") = some (.ok ()) ∧
    verify .reversed (verified "7" "10.00009") = some (.ok ()) ∧
    verify .sorted (verified "7" "10.0002") = some (fail (.verifyMismatch "expect")) ∧
    verify .sorted (verified "4" "10") = some (fail (.verifyMismatch "expect")) ∧
    NoMixingDoc (verified "7" "10") ∧ Prefixed (table "7" "10") := by
  refine ⟨by decide +kernel, by decide +kernel, by decide +kernel, by decide +kernel,
    .tree (by simp [regTree]) (by simp [regTree]), ?_⟩
  intro f hf
  simp only [table, List.mem_cons, List.not_mem_nil, or_false] at hf
  rcases hf with rfl | rfl
  · exact ⟨"x", rfl⟩
  · exact ⟨"expect", rfl⟩

/-- A table expecting -1 from a tree that answers -1. -/
def negative : ModelElem F64 :=
  .tree { regTree "-1" "-1" with
    verification := some {
      fields := [⟨"x", "data:x", none⟩, ⟨"score", "data:score", some (num "1")⟩]
      rows := [mk [("x", .str "3"), ("score", .str "-1")]] } }

/-- **C53** (finding): a model answering exactly the expected -1 is rejected. -/
theorem C53_negative_rejected :
    verify .sorted negative = some (fail (.verifyMismatch "score")) ∧
    eval .sorted negative [("x", .str "3")] = some (.ok (some (mk [("score", .f64 (num "-1"))]))) := by
  decide +kernel

end Examples

end Gopmml.Props
