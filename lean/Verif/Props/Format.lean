import Verif.Proofs.FormatText
import Verif.Props.Forms
import Verif.Props.Expressions
import Verif.Model.Samples

/-!
# C77: the text of a number

`Value.String` (miningschema.go:101-111) writes a float with `%v`.  The text is looked up in the tables of
MapValues (evaluation/input.go:127-150).
-/

namespace Gopmml.Props
open Spec F64

/-- **C77** (what is written): a float64 is written as the shortest decimal that reads back as it, laid out
with an exponent below `1e-04` and from `1e+06` on. -/
theorem C77_written (x : F64) : Written 53 (-1074) x (GoVal.f64 x).string :=
  fmtFloat_written (by decide) (by decide) (inFormat53 x)

/-- A float64 that is a float32. -/
theorem toF32_inFormat (x : F64) : InFormat 24 (-149) (Arith.toF32 x) := by
  show InFormat 24 (-149) (toF32 x)
  cases x with
  | fin q h =>
    unfold toF32
    simp only
    split_ifs with hlt
    · have hg : Grid 24 (-149) (roundQ 24 (-149) q) := roundQ_grid _ _
      have hg53 : Grid 53 (-1074) (roundQ 24 (-149) q) := by
        obtain ⟨m, e, hm, he, h⟩ := hg
        exact ⟨m, e, hm.trans (by norm_num), by omega, h⟩
      have he := roundQ_exact (by decide) hg53
      generalize roundQ 24 (-149) q = r at *
      have hr : |roundQ 53 (-1074) r| < pow2 1024 := by rw [he]; exact hlt.trans (pow2_lt_iff.mpr (by decide))
      unfold ofRat
      simp only [he]
      split_ifs <;> trivial
    · trivial
  | _ => trivial

/-- **C77** (float32): and a float32 as the shortest decimal that reads back as that float32. -/
theorem C77_written32 (x : F64) : Written 24 (-149) (Arith.toF32 x) (GoVal.f32 (Arith.toF32 x)).string :=
  fmtFloat_written (by decide) (by decide) (toF32_inFormat x)

/-- **C77** (there and back): the text of a float64 stands for that float64, bit for bit (up to the payload of
a NaN), whatever the float64 is. -/
theorem C77_roundtrip (x : F64) :
    FloatText (GoVal.f64 x).string x ∧ getRawValue .double (GoVal.f64 x).string = .ok (.f64 x) := by
  have h := written_reads (C77_written x)
  exact ⟨h, getRawValue_iff.mpr (.real (.inl rfl) h)⟩

/-- **C77** (different texts): two float64 have the same text only if they are the same. -/
theorem C77_injective {x y : F64} (h : (GoVal.f64 x).string = (GoVal.f64 y).string) : x = y := by
  have hx := parseF64_iff.mpr (C77_roundtrip x).1
  have hy := parseF64_iff.mpr (C77_roundtrip y).1
  rw [h, hy] at hx
  exact (Option.some.inj hx).symm

/-- **C77** (in a row): a document that looks at `f` only as a number answers the same for a float64 and for
its text. -/
theorem C77_rows {dd : List DataField} {e : ModelElem F64} {td td' : TD F64} {m : EModel F64} [Trans F64]
    (h : newModel dd e td = (.ok m, td')) {form : String → Form} (hs : Sees (Declared dd td e) form e) {f : String}
    (hf : form f = .real) (o : MapOrd) (r : GoMap (GoVal F64)) (x : F64) :
    (EModel.evaluate o m (some (r.insert f (.str (GoVal.f64 x).string)))).res =
      (EModel.evaluate o m (some (r.insert f (.f64 x)))).res :=
  (C71_number h hs hf o r).2 _ x (parseF64_iff.mpr (C77_roundtrip x).1)

/-- The float64 of a whole number. -/
theorem ofInt_small {n : Int} (h : |n| ≤ 2 ^ 53) : ∃ hr, (Arith.ofInt n : F64) = .fin n hr := by
  show ∃ hr, ofRat false n = .fin n hr
  have he := roundQ_int h
  have hlt : |roundQ 53 (-1074) n| < pow2 1024 := by
    rw [he, pow2_eq]
    have : |(n : ℚ)| ≤ 2 ^ 53 := by exact_mod_cast h
    refine lt_of_le_of_lt this ?_
    have : (2 : ℚ) ^ 53 = 2 ^ (53 : Int) := by norm_cast
    rw [this]; exact zpow_lt_zpow_right₀ (by norm_num) (by norm_num)
  have hrep : Rep (n : ℚ) := ⟨he ▸ roundQ_grid _ _, he ▸ hlt⟩
  refine ⟨hrep, ?_⟩
  unfold ofRat
  simp only [he] at hlt ⊢
  simp [hlt]

theorem int_chars (n : Int) : ∀ c ∈ (toString n).toList, c = '-' ∨ isDigit c = true := by
  have hnat : ∀ m : Nat, ∀ c ∈ (Nat.repr m).toList, isDigit c = true := by
    intro m c hc
    rw [Nat.toList_repr] at hc
    exact List.all_eq_true.mp (digits_iff.mp (toDigits_digits m)).1 _ hc
  cases n with
  | ofNat m => exact fun c hc => .inr (hnat m c hc)
  | negSucc m =>
    show ∀ c ∈ ("-" ++ Nat.repr (m + 1)).toList, _
    rw [String.toList_append]
    intro c hc
    rcases List.mem_append.mp hc with hc | hc
    · left; simpa using hc
    · exact .inr (hnat _ c hc)

/-- Of a number of a million or more also the decimal written is a million or more. -/
theorem shortest_large {q : ℚ} {v : Nat} {k : Int} (hs : Shortest 53 (-1074) q v k) (hq : 10 ^ 6 ≤ q) :
    (10 : ℚ) ^ 6 ≤ Decimal v k := by
  by_contra hc
  push Not at hc
  have hr := (nearest_iff (by decide)).mp hs.reads
  have hm := roundQ_mono (p := 53) (by decide) (emin := -1074) hc.le
  have h6 : roundQ 53 (-1074) (10 ^ 6) = 10 ^ 6 := by
    have := roundQ_int (n := 10 ^ 6) (by norm_num)
    exact_mod_cast this
  have hv0 : v ≠ 0 := fun hc => hs.last (by rw [hc])
  rw [← hr, h6] at hm
  have heq : q = 10 ^ 6 := le_antisymm hm hq
  subst heq
  have e : Decimal 1 6 = 10 ^ 6 := by unfold Decimal; norm_cast
  have := hs.closest 1 6 ((nearest_iff (by decide)).mpr (by rw [e, h6])) (by
    intro n hn
    cases n with
    | zero => simp at hn; omega
    | succ n => exact Nat.one_lt_pow (by omega) (by decide))
  rw [e, sub_self, abs_zero] at this
  have := abs_nonpos_iff.mp this
  linarith

theorem large_e {q : ℚ} {h : Rep q} {s : String} (hw : Written 53 (-1074) (.fin q h) s) (hq : 10 ^ 6 ≤ |q|) :
    'e' ∈ s.toList := by
  cases hw with
  | zero => norm_num at hq
  | pos h0 hs hd hl =>
    rw [abs_of_pos h0] at hq
    rw [String.toList_ofList]
    exact laid_large hd hl (shortest_large hs hq)
  | neg h0 hs hd hl =>
    rw [abs_of_neg h0] at hq
    rw [String.toList_ofList]
    exact List.mem_cons_of_mem _ (laid_large hd hl (shortest_large hs hq))

/-- **C77** (large numbers): the text of a float64 of a million or more in absolute value, finite or not, is not
the text of any integer. -/
theorem C77_large {x : F64} (hx : x = .inf false ∨ x = .inf true ∨ ∃ q h, x = .fin q h ∧ 10 ^ 6 ≤ |q|) (k : IntKind)
    (n : Int) : (GoVal.f64 x).string ≠ (GoVal.int k n : GoVal F64).string := by
  have hch := int_chars n
  rcases hx with rfl | rfl | ⟨q, h, rfl, hq⟩
  · intro hc
    have := hch 'I' (by rw [show toString n = _ from hc.symm]; decide)
    exact absurd this (by decide)
  · intro hc
    have := hch 'I' (by rw [show toString n = _ from hc.symm]; decide)
    exact absurd this (by decide)
  · intro hc
    have he := large_e (C77_written (.fin q h)) hq
    have := hch 'e' (by rw [show toString n = _ from hc.symm]; exact he)
    exact absurd this (by decide)

theorem ofInt_large {n : Int} (h : 10 ^ 6 ≤ |n|) : (Arith.ofInt n : F64) = .inf false ∨ (Arith.ofInt n : F64) = .inf true ∨
    ∃ q h, (Arith.ofInt n : F64) = .fin q h ∧ 10 ^ 6 ≤ |q| := by
  show ofRat false n = _ ∨ ofRat false n = _ ∨ ∃ q h, ofRat false n = .fin q h ∧ 10 ^ 6 ≤ |q|
  have h6 : roundQ 53 (-1074) (10 ^ 6) = 10 ^ 6 := by
    have := roundQ_int (n := 10 ^ 6) (by norm_num)
    exact_mod_cast this
  have hq : (10 : ℚ) ^ 6 ≤ |roundQ 53 (-1074) n| := by
    rcases le_or_gt 0 n with hn | hn
    · rw [abs_of_nonneg hn] at h
      have h' : (10 : ℚ) ^ 6 ≤ n := by exact_mod_cast h
      have := roundQ_mono (p := 53) (by decide) (emin := -1074) h'
      rw [h6] at this; exact this.trans (le_abs_self _)
    · rw [abs_of_neg hn] at h
      have h' : (10 : ℚ) ^ 6 ≤ -(n : ℚ) := by exact_mod_cast h
      have := roundQ_mono (p := 53) (by decide) (emin := -1074) h'
      rw [h6, roundQ_neg] at this; exact this.trans (neg_le_abs _)
  by_cases hb : |roundQ 53 (-1074) (n : ℚ)| < pow2 1024
  · have hrep : Rep (roundQ 53 (-1074) (n : ℚ)) := ⟨roundQ_grid _ _, hb⟩
    refine .inr (.inr ⟨_, hrep, ?_, hq⟩)
    unfold ofRat
    simp [hb]
  · unfold ofRat
    simp only [hb, dite_false]
    cases decide (roundQ 53 (-1074) (n : ℚ) < 0) <;> simp

/-- **C77** (whole numbers): a whole number is written the same as an integer and as a float64 exactly if it is
below a million in absolute value.  (From a million on the float64 is written with an exponent, `1e+06`.) -/
theorem C77_whole (k : IntKind) (n : Int) :
    (GoVal.f64 (Arith.ofInt n : F64)).string = (GoVal.int k n : GoVal F64).string ↔ |n| < 10 ^ 6 := by
  constructor
  · intro h
    by_contra hc
    exact C77_large (ofInt_large (not_lt.mp hc)) k n h
  · intro h
    show _ = toString n
    obtain ⟨q, hr, hq, he⟩ : ∃ (q : ℚ) (hr : Rep q), (n : ℚ) = q ∧ (Arith.ofInt n : F64) = .fin q hr := by
      obtain ⟨hr, he⟩ := ofInt_small (n := n) (by omega)
      exact ⟨_, hr, rfl, he⟩
    have hw := C77_written (Arith.ofInt n : F64)
    generalize (GoVal.f64 (Arith.ofInt n : F64)).string = s at hw ⊢
    rw [he] at hw
    cases hw with
    | zero =>
      have : n = 0 := by exact_mod_cast hq
      subst this; rfl
    | @pos _ _ v j ds t h0 hs hd hl =>
      have hn : 0 < n := by rw [← hq] at h0; exact_mod_cast h0
      obtain ⟨m, rfl⟩ := Int.eq_ofNat_of_zero_le hn.le
      have hm : m < 10 ^ 6 := by rw [abs_of_pos hn] at h; exact_mod_cast h
      have hmq : q = (m : ℚ) := by rw [← hq]; simp
      rw [hmq] at hs
      obtain ⟨z, rfl, hz⟩ := shortest_whole (by omega) hm hs
      rw [laid_whole hd hl (by omega), ← hz]
      exact String.toList_injective (by rw [String.toList_ofList]; exact Nat.toList_repr.symm)
    | @neg _ _ v j ds t h0 hs hd hl =>
      have hn : n < 0 := by rw [← hq] at h0; exact_mod_cast h0
      obtain ⟨m, hm'⟩ := Int.eq_ofNat_of_zero_le (show 0 ≤ -n by omega)
      have hnm : n = -(m : Int) := by omega
      have hm : m < 10 ^ 6 := by rw [abs_of_neg hn] at h; omega
      have hmq : -q = (m : ℚ) := by rw [← hq, hnm]; simp
      rw [hmq] at hs
      obtain ⟨z, rfl, hz⟩ := shortest_whole (by omega) hm hs
      rw [laid_whole hd hl (by omega), ← hz]
      obtain ⟨i, rfl⟩ := Nat.exists_eq_succ_of_ne_zero (show m ≠ 0 by omega)
      have : n = Int.negSucc i := by omega
      subst this
      show _ = "-" ++ Nat.repr (i + 1)
      apply String.toList_injective
      rw [String.toList_ofList, String.toList_append, Nat.toList_repr]
      rfl

/-- **C77** (MapValues): a table that names its rows by whole numbers in plain digits finds nothing for a
float64 of a million or more: the default is the answer, or the input itself. -/
theorem C77_map_large (m : MapValues F64) (row : Row F64) {x : F64}
    (ho : ∀ p ∈ m.fieldColumnPairs, p.column = "data:output" → row.get p.field = none)
    (hin : mapInput m.fieldColumnPairs row = some (.f64 x))
    (hx : x = .inf false ∨ x = .inf true ∨ ∃ q h, x = .fin q h ∧ 10 ^ 6 ≤ |q|)
    (ht : ∀ t ∈ m.inlineTables, ∀ r ∈ t, ∀ s, r["input"]? = some (.str s) → ∃ n : Int, s = toString n) :
    handleExpression row (.mapValues m) =
      match m.defaultValue with
      | some d => getRawValue m.dataType d
      | none => .ok (.f64 x) := by
  rw [C33_map_values m row ho, hin]
  have : mapCell m.inlineTables (GoVal.f64 x).string = none := by
    unfold mapCell
    rw [List.filter_eq_nil_iff.mpr]
    · rfl
    · intro r hr
      obtain ⟨t, ht', hr'⟩ := List.mem_flatten.mp hr
      cases hi : r["input"]? with
      | none => simp
      | some v =>
        cases v with
        | str s =>
          obtain ⟨n, rfl⟩ := ht t ht' r hr' s hi
          simp only [beq_iff_eq]
          exact fun hc => C77_large hx .int n hc.symm
        | _ => simp
  simp only [Option.getD_some, this]
  cases m.defaultValue <;> rfl

/-- **C77** (MapValues): two different float64 are never mapped through the same row. -/
theorem C77_map_apart {x y : F64} (h : x ≠ y) (r : GoMap (GoVal F64))
    (hx : r["input"]? = some (.str (GoVal.f64 x).string)) : r["input"]? ≠ some (.str (GoVal.f64 y).string) := by
  rw [hx]
  intro hc
  simp only [Option.some.injEq, GoVal.str.injEq] at hc
  exact h (C77_injective hc)

section
open Replay Samples

-- C77: what is written for some numbers; a tie goes to the even digit.
example : (GoVal.f64 (num "0.1")).string = "0.1" ∧ (GoVal.f64 (num "-2.50")).string = "-2.5" ∧
    (GoVal.f64 (num "100000")).string = "100000" ∧ (GoVal.f64 (num "1000000")).string = "1e+06" ∧
    (GoVal.f64 (num "0.0001")).string = "0.0001" ∧ (GoVal.f64 (num "0.00001234")).string = "1.234e-05" ∧
    (GoVal.f64 (num "1125899906842624.25")).string = "1.1258999068426242e+15" ∧
    (GoVal.f64 (num "5e-324")).string = "5e-324" ∧ (GoVal.f64 (num "1e23")).string = "1e+23" ∧
    (GoVal.f64 (num "1.7976931348623157e308")).string = "1.7976931348623157e+308" ∧
    (GoVal.f64 (num "0.30000000000000004")).string = "0.30000000000000004" ∧
    (GoVal.f64 (num "-0")).string = "-0" ∧ (GoVal.f64 F64.nan).string = "NaN" ∧
    (GoVal.f64 (F64.inf true)).string = "-Inf" := by decide +kernel

-- C77: the float32 nearest to 0.1 is written 0.1, the float64 of the same value is not.
example : (GoVal.f32 (Arith.toF32 (num "0.1"))).string = "0.1" ∧
    (GoVal.f64 (Arith.toF32 (num "0.1"))).string = "0.10000000149011612" := by decide +kernel

-- C77: the hypothesis of C77_rows is met by the sample tree of C71.
example : eval .sorted ordered [("x", .f64 (num "0.1"))] =
    eval .sorted ordered [("x", .str (GoVal.f64 (num "0.1")).string)] := by decide +kernel

/-- A table of two codes. -/
def exCodes : MapValues F64 where
  defaultValue := some "other"
  dataType := .string
  fieldColumnPairs := [⟨"data:input", "code"⟩]
  inlineTables := [[mk [("input", .str "999999"), ("output", .str "a")],
    mk [("input", .str "1000000"), ("output", .str "b")]]]

/-- **C77** (finding): the same code is found or not depending on the Go type the caller passes it in, and for a
float64 only below a million. -/
theorem C77_codes :
    handleExpression (some (mk [("code", .int .int 1000000)])) (.mapValues exCodes) = .ok (.str "b") ∧
    handleExpression (some (mk [("code", .f64 (num "1000000"))])) (.mapValues exCodes) = .ok (.str "other") ∧
    handleExpression (some (mk [("code", .int .int 999999)])) (.mapValues exCodes) = .ok (.str "a") ∧
    handleExpression (some (mk [("code", .f64 (num "999999"))])) (.mapValues exCodes) = .ok (.str "a") := by
  decide +kernel

-- C77_map_large: its hypotheses hold for that table.
example : let row : Row F64 := some (mk [("code", .f64 (num "1000000"))])
    (∀ p ∈ exCodes.fieldColumnPairs, p.column = "data:output" → row.get p.field = none) ∧
    mapInput exCodes.fieldColumnPairs row = some (.f64 (num "1000000")) ∧
    (∃ q h, num "1000000" = .fin q h ∧ 10 ^ 6 ≤ |q|) ∧
    ∀ t ∈ exCodes.inlineTables, ∀ r ∈ t, ∀ s, r["input"]? = some (.str s) → ∃ n : Int, s = toString n := by
  refine ⟨by decide +kernel, by decide +kernel, ?_, ?_⟩
  · have : num "1000000" = Arith.ofInt 1000000 := by decide +kernel
    obtain ⟨h, he⟩ := ofInt_small (n := 1000000) (by norm_num)
    exact ⟨_, h, by rw [this, he], by norm_num⟩
  · intro t ht r hr s hs
    simp only [exCodes, List.mem_singleton] at ht
    subst ht
    simp only [List.mem_cons, List.not_mem_nil, or_false] at hr
    rcases hr with rfl | rfl
    · exact ⟨999999, by
        have : (mk [("input", GoVal.str "999999"), ("output", .str "a")] : GoMap (GoVal F64))["input"]? = some (.str "999999") := by
          decide +kernel
        rw [this] at hs; cases hs; rfl⟩
    · exact ⟨1000000, by
        have : (mk [("input", GoVal.str "1000000"), ("output", .str "b")] : GoMap (GoVal F64))["input"]? = some (.str "1000000") := by
          decide +kernel
        rw [this] at hs; cases hs; rfl⟩

end

end Gopmml.Props
