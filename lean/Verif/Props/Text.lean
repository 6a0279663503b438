import Verif.Proofs.Text
import Verif.Proofs.F64Error
import Verif.Props.Values
import Verif.Props.Predicates

/-!
# Property C74: the constants written in a document; and float32 views (C52)
-/

namespace Gopmml.Props
open Gopmml Spec

/-- **C74**: a text is an integer constant exactly if it is an optional sign and digits and the
number fits int64; its value is that number. -/
theorem C74_int {s : String} {n : Int} : parseInt s = some n ↔ IntText s n := parseInt_iff

/-- **C74**: a text is a boolean constant exactly if it is one of twelve words. -/
theorem C74_bool {s : String} {b : Bool} : parseBool s = some b ↔ BoolText s b := parseBool_iff

/-- **C74**: the constant a document's text becomes, for every data type: booleans, integers, texts as
they are, and for double and float the nearest float64 (ties to even) of the number written, in base ten
or sixteen and possibly with underscores, or NaN or an infinity where a text says so.  Everything else
(other words, numbers too large for float64, empty text, spaces) is rejected. -/
theorem C74_constant {dt : DataType} {s : String} {v : GoVal F64} :
    getRawValue dt s = .ok v ↔ ConstText dt s v := getRawValue_iff

/-- **C74**: a text has one meaning. -/
theorem C74_unique {dt : DataType} {s : String} {v v' : GoVal F64} (h : ConstText dt s v)
    (h' : ConstText dt s v') : v = v' := by
  have h1 := getRawValue_iff.mpr h
  rw [getRawValue_iff.mpr h'] at h1
  cases h1; rfl

/-- **C74**: what a number or boolean attribute is read as: an absent text is zero (false); otherwise
the white space around it is dropped and the rest must be a constant. -/
theorem C74_attribute {s : String} :
    (∀ n, attrInt s = .ok n ↔ s = "" ∧ n = 0 ∨ s ≠ "" ∧ ∃ t, Trimmed s t ∧ IntText t n) ∧
    (∀ n, attrUint s = .ok n ↔ s = "" ∧ n = 0 ∨ s ≠ "" ∧ ∃ t, Trimmed s t ∧ UintText t n) ∧
    (∀ b, attrBool s = .ok b ↔ s = "" ∧ b = false ∨ s ≠ "" ∧ ∃ t, Trimmed s t ∧ BoolText t b) ∧
    (∀ x : F64, attrFloat s = .ok x ↔ s = "" ∧ x = F64.zero ∨
      s ≠ "" ∧ ∃ t, Trimmed s t ∧ FloatText t x) := by
  have key : ∀ {α : Type} {f : String → Option α} {P : String → α → Prop} {z : α},
      (∀ t a, f t = some a ↔ P t a) → ∀ a,
      ((if s = "" then (.ok z : Dec α) else parsed s (f (trimSpace s))) = .ok a ↔
        s = "" ∧ a = z ∨ s ≠ "" ∧ ∃ t, Trimmed s t ∧ P t a) := by
    intro α f P z hf a
    by_cases hs : s = ""
    · rw [if_pos hs]
      constructor
      · intro h; cases h; exact .inl ⟨hs, rfl⟩
      · rintro (⟨_, rfl⟩ | ⟨h, _⟩)
        · rfl
        · exact absurd hs h
    · rw [if_neg hs]
      constructor
      · intro h
        refine .inr ⟨hs, trimSpace s, trimSpace_iff.mp rfl, ?_⟩
        cases hx : f (trimSpace s) with
        | none => rw [hx] at h; cases h
        | some b => rw [hx] at h; cases h; exact (hf _ _).mp hx
      · rintro (⟨h, _⟩ | ⟨_, t, ht, hp⟩)
        · exact absurd h hs
        · rw [trimSpace_iff.mpr ht, (hf _ _).mpr hp]; rfl
  refine ⟨key fun _ _ => parseInt_iff, key fun _ _ => parseUint_iff, key fun _ _ => parseBool_iff, fun x => ?_⟩
  have h := key (f := Lib.parseFloat (F := F64)) (z := F64.zero)
    (P := fun t x => FloatText t x) (fun t x => parseF64_iff) x
  unfold attrFloat
  rw [F64.arith_zero, h]

/-- The numbers float64 values have are numbers of the format. -/
theorem val_binary {x : F64} {a : ℚ} (h : x.val = some a) : Binary 53 (-1074) a := by
  rw [binary_iff (by norm_num)]
  rcases F64.val_iff.mp h with ⟨_, rfl⟩ | ⟨hr, _⟩
  · exact .zero _ _
  · exact hr.1

/-- Rounding the threshold matters only for the value it is rounded to. -/
theorem nearest_threshold {p : Nat} {emin : Int} {a q r : ℚ} (ha : Binary p emin a) (hr : Nearest p emin q r)
    (hne : a ≠ r) : (a < r ↔ a < q) ∧ (a ≤ r ↔ a ≤ q) := by
  have hd := hr.2.1 a ha
  have hnq : a ≠ q := by
    rintro rfl
    rw [sub_self, abs_zero] at hd
    have : r - a = 0 := abs_eq_zero.mp (le_antisymm hd (abs_nonneg _))
    exact hne (by linarith)
  have key : a < r ↔ a < q := by
    constructor
    · intro h
      by_contra hc
      push Not at hc
      rw [abs_of_nonneg (by linarith), abs_of_nonneg (by linarith)] at hd
      linarith
    · intro h
      by_contra hc
      have hlt : r < a := lt_of_le_of_ne (not_lt.mp hc) (Ne.symm hne)
      rw [abs_of_neg (by linarith), abs_of_neg (by linarith)] at hd
      linarith
  exact ⟨key, by rw [le_iff_lt_or_eq, le_iff_lt_or_eq, key]; simp [hne, hnq]⟩

theorem lt_val {x y : F64} {a b : ℚ} (hx : x.val = some a) (hy : y.val = some b) :
    Arith.lt x y = decide (a < b) := by
  obtain ⟨h1, h2⟩ := F64.val_ext.mp hx
  obtain ⟨h3, h4⟩ := F64.val_ext.mp hy
  rw [F64.arith_lt, Bool.eq_iff_iff, F64.lt_iff h2 h4, h1, h3]
  simp

theorem le_val {x y : F64} {a b : ℚ} (hx : x.val = some a) (hy : y.val = some b) :
    Arith.le x y = decide (a ≤ b) := by
  obtain ⟨h1, h2⟩ := F64.val_ext.mp hx
  obtain ⟨h3, h4⟩ := F64.val_ext.mp hy
  rw [F64.arith_le, Bool.eq_iff_iff, F64.le_iff h2 h4, h1, h3]
  simp

/-- **C74**: an ordering test of a double or float field compares the row's number with the float64
nearest to the number written in the document; the answer is the one for the number as written
except possibly for the one value that is the rounded threshold itself.  A threshold may also be
written as an infinity, which is above or below every number, or as NaN, for which all four tests
are false. -/
theorem C74_threshold {types : FieldTypes} {p : SimplePred F64} {p' : Pred F64} {row : Row F64}
    {v : GoVal F64} {a : ℚ} (hc : compilePredicate types (.simple p) = .ok p')
    (hdt : types[p.field]? = some .double ∨ types[p.field]? = some .float)
    (hv : row.get p.field = some v) (ha : v.float64.val = some a) :
    (∃ neg q r, NumText p.value neg q ∧ Nearest 53 (-1074) q r ∧
      ((a < r ↔ a < q) ∧ (a ≤ r ↔ a ≤ q) ∨ a = r) ∧
      (p.op = .lessThan → runTest types (some p') row = .ok (if a < r then .t else .f)) ∧
      (p.op = .lessOrEqual → runTest types (some p') row = .ok (if a ≤ r then .t else .f)) ∧
      (p.op = .greaterThan → runTest types (some p') row = .ok (if r < a then .t else .f)) ∧
      (p.op = .greaterOrEqual → runTest types (some p') row = .ok (if r ≤ a then .t else .f))) ∨
    (∃ neg, FloatText p.value (.inf neg) ∧
      (p.op = .lessThan ∨ p.op = .lessOrEqual → runTest types (some p') row = .ok (if neg then .f else .t)) ∧
      (p.op = .greaterThan ∨ p.op = .greaterOrEqual →
        runTest types (some p') row = .ok (if neg then .t else .f))) ∨
    (FloatText p.value .nan ∧
      (p.op = .lessThan ∨ p.op = .lessOrEqual ∨ p.op = .greaterThan ∨ p.op = .greaterOrEqual →
        runTest types (some p') row = .ok .f)) := by
  obtain ⟨c, hpc, h1, h2, h3, h4⟩ := C01_ordering_float hc hdt hv
  have hft := parseF64_iff.mp hpc
  have hne : v.float64 ≠ .nan ∧ ∀ b, v.float64 ≠ .inf b := by
    constructor
    · intro h; rw [h] at ha; cases ha
    · intro b h; rw [h] at ha; cases ha
  cases hft with
  | nan hw =>
    refine .inr (.inr ⟨.nan hw, ?_⟩)
    have e1 : ∀ x : F64, Arith.lt x F64.nan = false := fun x => by cases x <;> rfl
    have e2 : ∀ x : F64, Arith.le x F64.nan = false := fun x => by cases x <;> rfl
    have e3 : ∀ x : F64, Arith.lt F64.nan x = false := fun x => rfl
    have e4 : ∀ x : F64, Arith.le F64.nan x = false := fun x => rfl
    rintro (h | h | h | h)
    · rw [h1 h, e1]; rfl
    · rw [h2 h, e2]; rfl
    · rw [h3 h, e3]; rfl
    · rw [h4 h, e4]; rfl
  | @inf sg w neg hs hsg hw =>
    refine .inr (.inl ⟨neg, .inf hs hsg hw, ?_, ?_⟩)
    · rintro (h | h)
      · rw [h1 h]
        generalize v.float64 = x at hne
        cases x with
        | nan => exact absurd rfl hne.1
        | inf b => exact absurd rfl (hne.2 b)
        | _ => cases neg <;> rfl
      · rw [h2 h]
        generalize v.float64 = x at hne
        cases x with
        | nan => exact absurd rfl hne.1
        | inf b => exact absurd rfl (hne.2 b)
        | _ => cases neg <;> rfl
    · rintro (h | h)
      · rw [h3 h]
        generalize v.float64 = x at hne
        cases x with
        | nan => exact absurd rfl hne.1
        | inf b => exact absurd rfl (hne.2 b)
        | _ => cases neg <;> rfl
      · rw [h4 h]
        generalize v.float64 = x at hne
        cases x with
        | nan => exact absurd rfl hne.1
        | inf b => exact absurd rfl (hne.2 b)
        | _ => cases neg <;> rfl
  | @number neg q _ hnum hround hfin =>
    left
    obtain ⟨r, hn, hr⟩ := hround
    have hcv : c.val = some r := by
      rcases hr with ⟨_, rfl⟩ | ⟨rfl, _, rfl⟩ | ⟨_, _, h, rfl⟩
      · exact absurd rfl (hfin _)
      · rfl
      · rfl
    refine ⟨neg, q, r, hnum, hn, ?_, fun h => ?_, fun h => ?_, fun h => ?_, fun h => ?_⟩
    · by_cases hne : a = r
      · exact .inr hne
      · exact .inl (nearest_threshold (val_binary ha) hn hne)
    · rw [h1 h, lt_val ha hcv]; simp
    · rw [h2 h, le_val ha hcv]; simp
    · rw [h3 h, lt_val hcv ha]; simp
    · rw [h4 h, le_val hcv ha]; simp

/-- **C74**: the number a text in a row stands for: what it says if it says a floating point number,
NaN and infinities included, and otherwise 0. -/
theorem C74_view {s : String} {x : F64} : (GoVal.str s).float64 = x ↔
    FloatText s x ∨ (¬ ∃ y, FloatText s y) ∧ x = F64.zero := by
  have hd : (GoVal.str s).float64 = (F64.parseF64 s).getD F64.zero := by
    simp only [GoVal.float64, F64.arith_zero]
    have hl : Lib.parseFloat (F := F64) s = F64.parseF64 s := rfl
    rw [hl]
    cases F64.parseF64 s <;> rfl
  rw [hd]
  simp only [← parseF64_iff]
  cases F64.parseF64 s with
  | some y => simp
  | none => simp [eq_comm]

/-- **C74** (finding): a row whose text is "NaN" fails every ordering test of a numeric field, so no
child of a node that splits on such tests is chosen. -/
theorem C74_nan_row {types : FieldTypes} {p : SimplePred F64} {p' : Pred F64} {row : Row F64} {s : String}
    (hc : compilePredicate types (.simple p) = .ok p')
    (hdt : types[p.field]? = some .double ∨ types[p.field]? = some .float)
    (hv : row.get p.field = some (.str s)) (hs : AnyCase "NAN" "nan" s.toList)
    (hop : p.op = .lessThan ∨ p.op = .lessOrEqual ∨ p.op = .greaterThan ∨ p.op = .greaterOrEqual) :
    runTest types (some p') row = .ok .f := by
  obtain ⟨c, hpc, h1, h2, h3, h4⟩ := C01_ordering_float hc hdt hv
  rw [C74_view.mpr (.inl (.nan hs))] at h1 h2 h3 h4
  have e1 : ∀ x : F64, Arith.lt x F64.nan = false := fun x => by cases x <;> rfl
  have e2 : ∀ x : F64, Arith.le x F64.nan = false := fun x => by cases x <;> rfl
  rcases hop with h | h | h | h
  · rw [h1 h]; rfl
  · rw [h2 h]; rfl
  · rw [h3 h, e1]; rfl
  · rw [h4 h, e2]; rfl

/-- **C74**: an ordering test of an integer field compares with the integer written, exactly. -/
theorem C74_integer_threshold {types : FieldTypes} {p : SimplePred F64} {p' : Pred F64} {row : Row F64}
    {v : GoVal F64} (hc : compilePredicate types (.simple p) = .ok p')
    (hdt : types[p.field]? = some .integer) (hv : row.get p.field = some v) :
    ∃ n, IntText p.value n ∧
      (p.op = .lessThan → runTest types (some p') row = .ok (if v.int64 < n then .t else .f)) ∧
      (p.op = .lessOrEqual → runTest types (some p') row = .ok (if v.int64 ≤ n then .t else .f)) ∧
      (p.op = .greaterThan → runTest types (some p') row = .ok (if n < v.int64 then .t else .f)) ∧
      (p.op = .greaterOrEqual → runTest types (some p') row = .ok (if n ≤ v.int64 then .t else .f)) := by
  obtain ⟨c, hpc, h⟩ := C01_ordering_int hc hdt hv
  exact ⟨c, parseInt_iff.mp hpc, h⟩

open Replay in
/-- **C74** (limit): the constant of a `float` field is not rounded to float32.  The float32 nearest
to 0.1 is not at most the constant written `0.1`. -/
theorem C74_float_not_rounded :
    ∃ (types : FieldTypes) (p' : Pred F64) (x : F64), types["x"]? = some .float ∧
      compilePredicate types (sp "x" .lessOrEqual "0.1") = .ok p' ∧
      Lib.parseFloat (F := F64) "0.1" = some x ∧
      runTest types (some p') (some ((∅ : GoMap (GoVal F64)).insert "x" (.f32 (Arith.toF32 x)))) = .ok .f := by
  have ht : ((∅ : FieldTypes).insert "x" .float)["x"]? = some .float := by decide +kernel
  have hp : Lib.parseFloat (F := F64) "0.1" = some (num "0.1") := by decide +kernel
  refine ⟨(∅ : FieldTypes).insert "x" .float, .simple ⟨"x", .lessOrEqual, "0.1", .f64 (num "0.1")⟩, num "0.1", ht, ?_, hp, ?_⟩
  · simp only [sp, compilePredicate, ht, getRawValue, hp]; rfl
  · decide +kernel

-- C74: a signed integer with a leading zero, one out of range, a decimal with point and exponent, a
-- number rounded to even, and texts that are no constants.
example : IntText "-042" (-42) ∧ ¬ (∃ n, IntText "9223372036854775808" n) ∧
    NumText "-12.50e-1" true (-5 / 4) ∧ NumText "0x_1.8P-1" false (3 / 4) ∧ NumText "1_000.5" false (2001 / 2) ∧
    FloatText "-iNF" (.inf true) ∧ FloatText "NaN" .nan ∧ (∀ v, ¬ ConstText .double "+nan" v) ∧
    (∀ v, ¬ ConstText .double "1__0" v) ∧ (∀ v, ¬ ConstText .double "0x10" v) ∧ ConstText .double "9007199254740993" (.f64 (Replay.num "9007199254740992")) ∧
    (∀ v, ¬ ConstText .double "1e400" v) ∧ (∀ v, ¬ ConstText .integer "1.0" v) ∧ ∀ v, ¬ ConstText .boolean "yes" v := by
  have hf : ∀ {dt : DataType} {s : String}, (getRawValue (F := F64) dt s).isOk = false → ∀ v, ¬ ConstText dt s v := by
    intro dt s h v hv
    rw [getRawValue_iff.mpr hv] at h
    exact absurd h (by simp [Except.isOk, Except.toBool])
  refine ⟨C74_int.mp (by decide +kernel), ?_, numText_iff.mp (by decide +kernel), numText_iff.mp (by decide +kernel),
    numText_iff.mp (by decide +kernel), parseF64_iff.mp (by decide +kernel), parseF64_iff.mp (by decide +kernel),
    hf (by decide +kernel), hf (by decide +kernel), hf (by decide +kernel), C74_constant.mp ?_,
    hf (by decide +kernel), hf (by decide +kernel), hf (by decide +kernel)⟩
  · rintro ⟨n, hn⟩
    have h1 := C74_int.mpr hn
    have h2 : parseInt "9223372036854775808" = none := by decide +kernel
    rw [h2] at h1; exact absurd h1 (by simp)
  · have hp : Lib.parseFloat (F := F64) "9007199254740993" = some (Replay.num "9007199254740992") := by decide +kernel
    simp only [getRawValue, hp]

/-! ## C52: the float32 view -/

section
variable {F : Type} [Arith F]

/-- **C52**: Float32 returns a float32 as it is, rounds a float64, converts integers from the int64
view, and is 0 (converted) for everything else. -/
theorem C52_float32 (v : GoVal F) :
    (∀ x, v = .f32 x → v.float32 = x) ∧ (∀ x, v = .f64 x → v.float32 = Arith.toF32 x) ∧
    (∀ k n, v = .int k n → -(2 ^ 63) ≤ n → n < 2 ^ 63 → v.float32 = Arith.ofInt32 n) ∧
    ((v = .nil ∨ (∃ b, v = .bool b) ∨ (∃ s, v = .str s) ∨ ∃ t s f, v = .other t s f) →
      v.float32 = Arith.ofInt32 0) := by
  refine ⟨?_, ?_, ?_, ?_⟩
  · rintro x rfl; rfl
  · rintro x rfl; rfl
  · rintro k n rfl h1 h2
    show Arith.ofInt32 (GoVal.int (F := F) k n).int64 = _
    rw [C51_fits h1 h2]
  · rintro (rfl | ⟨b, rfl⟩ | ⟨s, rfl⟩ | ⟨t, s, f, rfl⟩) <;> rfl
end

open F64 in
theorem ofRat_grid24 {s : Bool} {r : ℚ} (h : Grid 24 (-149) r) (hr : |r| < pow2 128) :
    (ofRat s r).val = some r := by
  have hrep : Rep r := by
    obtain ⟨m, e, hm, he, rfl⟩ := h
    refine ⟨⟨m, e, hm.trans (by norm_num), by omega, rfl⟩, lt_of_lt_of_le hr (pow2_le (by norm_num))⟩
  rw [val_ext]
  exact ⟨ext_ofRat_exact hrep s, ofRat_ne_nan _ _⟩

/-- **C52**: the float32 view of a float64 and of an integer is the nearest float32, ties to even;
numbers that round to 2^128 or more become an infinity. -/
theorem C52_float32_nearest {v : GoVal F64} {q : ℚ}
    (h : (∃ x, v = .f64 x ∧ x.val = some q) ∨ ∃ k n, v = .int k n ∧ -(2 ^ 63) ≤ n ∧ n < 2 ^ 63 ∧ q = n) :
    ∃ r, Nearest 24 (-149) q r ∧ (|r| < 2 ^ 128 → v.float32.val = some r) ∧
      (2 ^ 128 ≤ |r| → v.float32 = .inf (r < 0)) := by
  have hb : pow2 128 = (2 : ℚ) ^ 128 := by rw [pow2_eq]; exact zpow_natCast 2 128
  refine ⟨roundQ 24 (-149) q, roundQ_nearest (by norm_num) _ _, ?_⟩
  rw [← hb]
  rcases h with ⟨x, rfl, hx⟩ | ⟨k, n, rfl, h1, h2, rfl⟩
  · rw [(C52_float32 _).2.1 x rfl]
    show (_ → (F64.toF32 x).val = _) ∧ (_ → F64.toF32 x = _)
    rcases F64.val_iff.mp hx with ⟨rfl, rfl⟩ | ⟨hr, rfl⟩
    · have h0 : roundQ 24 (-149) 0 = 0 := by simp [roundQ]
      rw [h0]
      exact ⟨fun _ => rfl, fun h => absurd h (by rw [abs_zero, not_le]; exact pow2_pos _)⟩
    · unfold F64.toF32
      simp only
      constructor
      · intro h
        rw [if_pos h]; exact ofRat_grid24 (roundQ_grid _ _) h
      · intro h
        rw [if_neg (not_lt.mpr h)]
  · rw [(C52_float32 _).2.2.1 k n rfl h1 h2]
    have hlt : |roundQ 24 (-149) (n : ℚ)| < pow2 128 := by
      have hm : roundQ 24 (-149) (n : ℚ) ≤ pow2 63 ∧ -pow2 63 ≤ roundQ 24 (-149) (n : ℚ) := by
        have g : Grid 24 (-149) (pow2 63) := ⟨1, 63, by norm_num, by norm_num, by simp⟩
        have h63 : pow2 63 = ((2 ^ 63 : Int) : ℚ) := pow2_nat 63
        constructor
        · have := roundQ_mono (p := 24) (by norm_num) (emin := -149) (x := n) (y := pow2 63)
            (by rw [h63]; exact_mod_cast h2.le)
          rwa [roundQ_exact (by norm_num) g] at this
        · have := roundQ_mono (p := 24) (by norm_num) (emin := -149) (x := -pow2 63) (y := n)
            (by rw [h63]; exact_mod_cast h1)
          rwa [roundQ_exact (by norm_num) g.neg] at this
      have : pow2 63 < pow2 128 := pow2_lt_iff.mpr (by norm_num)
      rw [abs_lt]; constructor <;> linarith [hm.1, hm.2]
    exact ⟨fun h => ofRat_grid24 (roundQ_grid _ _) h, fun h => absurd hlt (not_lt.mpr h)⟩

/-- **C52** (limit): Float32 does not read numbers in texts, though Float64 does. -/
theorem C52_float32_text : (GoVal.str (F := F64) "7.5").float64 = Replay.num "7.5" ∧
    (GoVal.str (F := F64) "7.5").float32 = Replay.num "0" := by decide +kernel

end Gopmml.Props
