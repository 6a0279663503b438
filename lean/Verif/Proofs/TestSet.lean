import Verif.Spec.TestSet
import Verif.Props.Thresholds
import Verif.Props.ModelFrame
import Verif.Props.Format
import Verif.Proofs.Nearest
import Verif.Proofs.F64Error

/-!
# Every value passes the same tests as a sample value
-/

namespace Gopmml
open Spec F64 Props

theorem rep_le {q : ℚ} (h : Rep q) : |q| ≤ 9007199254740991 * pow2 971 := by
  obtain ⟨hg, hb⟩ := h
  obtain ⟨m, e, hm, -, rfl⟩ := (binary_iff (by norm_num)).mpr hg
  rw [← pow2_eq] at hb ⊢
  rw [abs_mul, abs_of_pos (pow2_pos e)] at hb ⊢
  have hmz : |m| ≤ 9007199254740991 := by omega
  have hmq : |(m : ℚ)| ≤ 9007199254740991 := by exact_mod_cast hmz
  rcases le_or_gt e 971 with he | he
  · exact mul_le_mul hmq (pow2_le he) (pow2_pos e).le (by norm_num)
  · obtain ⟨d, rfl⟩ : ∃ d : Nat, e = (d : Int) + 971 := ⟨(e - 971).toNat, by omega⟩
    rw [pow2_add, ← mul_assoc] at hb ⊢
    rw [show (1024 : Int) = ((53 : Nat) : Int) + 971 by norm_num, pow2_add] at hb
    have h1 := lt_of_mul_lt_mul_right hb (pow2_pos 971).le
    rw [pow2_nat, pow2_nat] at h1
    have h2 : |m| * 2 ^ d < 2 ^ 53 := by exact_mod_cast h1
    have h3 : |m| * 2 ^ d ≤ 9007199254740991 := by omega
    refine mul_le_mul_of_nonneg_right ?_ (pow2_pos 971).le
    rw [pow2_nat]
    exact_mod_cast h3

theorem rep_largest : Rep (9007199254740991 * pow2 971) := by
  refine ⟨⟨2 ^ 53 - 1, 971, by norm_num, by norm_num, by norm_num⟩, ?_⟩
  rw [show (1024 : Int) = ((53 : Nat) : Int) + 971 by norm_num, pow2_add, abs_of_pos (mul_pos (by norm_num) (pow2_pos _))]
  refine mul_lt_mul_of_pos_right ?_ (pow2_pos 971)
  rw [pow2_nat]; norm_num

theorem val_ofRat_rep {q : ℚ} (h : Rep q) : (ofRat false q).val = some q :=
  val_ext.mpr ⟨ext_ofRat_exact h _, ofRat_ne_nan _ _⟩

theorem val_neg' {x : F64} {q : ℚ} (h : x.val = some q) : (F64.neg x).val = some (-q) := by
  cases x <;> simp [F64.val, F64.neg] at h ⊢
  · subst h; rfl
  · subst h; split_ifs with h0 <;> simp [h0]

theorem rep_of_val {x : F64} {q : ℚ} (h : x.val = some q) : Rep q := by
  cases x <;> simp [F64.val] at h
  · subst h; exact rep_zero
  · subst h; assumption

/-- A float64 between two others makes the nearest one to their middle lie between them. -/
theorem middle_between {p q r : ℚ} (hq : Rep q) (h1 : p < q) (h2 : q < r) :
    p < roundQ 53 (-1074) ((p + r) / 2) ∧ roundQ 53 (-1074) ((p + r) / 2) < r := by
  have h := (roundQ_nearest (p := 53) (by norm_num) (-1074) ((p + r) / 2)).2.1 q ((binary_iff (by norm_num)).mpr hq.1)
  have h3 : |q - (p + r) / 2| < (r - p) / 2 := by rw [abs_lt]; constructor <;> linarith
  have h4 := abs_lt.mp (lt_of_le_of_lt h h3)
  constructor <;> linarith [h4.1, h4.2]

theorem exists_greatest {l : List ℚ} {q : ℚ} (h : ∃ p ∈ l, p < q) : ∃ p ∈ l, p < q ∧ ∀ p' ∈ l, p' < q → p' ≤ p := by
  classical
  obtain ⟨p, hp, hq⟩ := h
  obtain ⟨m, hm, hmax⟩ := Finset.exists_max_image (l.toFinset.filter (· < q)) id ⟨p, by simp [hp, hq]⟩
  simp only [Finset.mem_filter, List.mem_toFinset, id_eq, and_imp] at hm hmax
  exact ⟨m, hm.1, hm.2, hmax⟩

theorem exists_least {l : List ℚ} {q : ℚ} (h : ∃ p ∈ l, q < p) : ∃ p ∈ l, q < p ∧ ∀ p' ∈ l, q < p' → p ≤ p' := by
  classical
  obtain ⟨p, hp, hq⟩ := h
  obtain ⟨m, hm, hmax⟩ := Finset.exists_min_image (l.toFinset.filter (q < ·)) id ⟨p, by simp [hp, hq]⟩
  simp only [Finset.mem_filter, List.mem_toFinset, id_eq, and_imp] at hm hmax
  exact ⟨m, hm.1, hm.2, hmax⟩

/-- Every number lies like one of the points. -/
theorem points_cover (ks : List F64) {x : F64} (hx : x ≠ nan) :
    ∃ y ∈ points ks, y ≠ nan ∧ ∀ k ∈ ks, lt k x = lt k y ∧ le k x = le k y := by
  set base : List F64 := .inf true :: F64.neg largest :: largest :: .inf false :: ks with hbase
  have hks : ∀ k ∈ ks, k ∈ base := fun k hk => by simp [hbase, hk]
  have hsame : ∀ y : F64, y ≠ nan → (∀ k ∈ ks, k ≠ nan → (ext k < ext x ↔ ext k < ext y) ∧ (ext k ≤ ext x ↔ ext k ≤ ext y)) →
      ∀ k ∈ ks, lt k x = lt k y ∧ le k x = le k y := by
    intro y hy h k hk
    by_cases hkn : k = nan
    · subst hkn; simp
    · obtain ⟨h1, h2⟩ := h k hk hkn
      exact ⟨by rw [Bool.eq_iff_iff, F64.lt_iff hkn hx, F64.lt_iff hkn hy, h1],
        by rw [Bool.eq_iff_iff, F64.le_iff hkn hx, F64.le_iff hkn hy, h2]⟩
  by_cases hb : ∃ b ∈ base, b ≠ nan ∧ ext b = ext x
  · obtain ⟨b, hb, hbn, he⟩ := hb
    refine ⟨b, ?_, hbn, hsame b hbn fun k _ _ => by rw [he]; simp⟩
    simp only [points, List.mem_cons, List.mem_append]
    exact .inr (.inl (by simpa [hbase] using hb))
  · push Not at hb
    have hfin : ∃ q, x.val = some q := by
      cases x with
      | nan => exact absurd rfl hx
      | inf b => exact absurd rfl (hb (.inf b) (by cases b <;> simp [hbase]) (by simp))
      | negZero => exact ⟨_, rfl⟩
      | fin q _ => exact ⟨q, rfl⟩
    obtain ⟨q, hq⟩ := hfin
    have hrep := rep_of_val hq
    have hL : largest.val = some (9007199254740991 * pow2 971) := val_ofRat_rep rep_largest
    have hL' := val_neg' hL
    have hne : ∀ b ∈ base, ∀ p, b.val = some p → p ≠ q := by
      rintro b hbm p hp rfl
      obtain ⟨h1, h2⟩ := val_ext.mp hp
      exact hb b hbm h2 (h1.trans (val_ext.mp hq).1.symm)
    have habs := abs_le.mp (rep_le hrep)
    have hvals : ∀ p, p ∈ base.filterMap F64.val ↔ ∃ b ∈ base, b.val = some p := fun p => List.mem_filterMap
    obtain ⟨p1, hp1, hlt1, hmax⟩ := exists_greatest (l := base.filterMap F64.val) (q := q)
      ⟨_, (hvals _).mpr ⟨F64.neg largest, by simp [hbase], hL'⟩,
        lt_of_le_of_ne habs.1 (hne _ (by simp [hbase]) _ hL')⟩
    obtain ⟨p2, hp2, hlt2, hmin⟩ := exists_least (l := base.filterMap F64.val) (q := q)
      ⟨_, (hvals _).mpr ⟨largest, by simp [hbase], hL⟩,
        lt_of_le_of_ne habs.2 (hne _ (by simp [hbase]) _ hL).symm⟩
    obtain ⟨b1, hb1, hv1⟩ := (hvals _).mp hp1
    obtain ⟨b2, hb2, hv2⟩ := (hvals _).mp hp2
    have hr1 := rep_of_val hv1
    have hr2 := rep_of_val hv2
    obtain ⟨g1, g2⟩ := middle_between hrep hlt1 hlt2
    set r := roundQ 53 (-1074) ((p1 + p2) / 2) with hr
    have hrb : |r| < pow2 1024 := by
      have a1 := abs_lt.mp hr1.2
      have a2 := abs_lt.mp hr2.2
      rw [abs_lt]; constructor <;> linarith [a1.1, a2.2]
    have hye : ext (ofRat false ((p1 + p2) / 2)) = ((r : WithTop ℚ) : WithBot (WithTop ℚ)) := by
      rw [ext_ofRat, ← hr, if_pos hrb]
    have hyn := ofRat_ne_nan false ((p1 + p2) / 2)
    refine ⟨ofRat false ((p1 + p2) / 2), ?_, hyn, hsame _ hyn fun k hk hkn => ?_⟩
    · simp only [points, List.mem_cons, List.mem_append]
      refine .inr (.inr ?_)
      rw [List.mem_flatMap]
      refine ⟨b1, by simpa [hbase] using hb1, ?_⟩
      rw [List.mem_filterMap]
      refine ⟨b2, by simpa [hbase] using hb2, ?_⟩
      simp only [middle, hv1, hv2]
      rw [if_pos (hlt1.trans hlt2)]
    · rw [hye, (val_ext.mp hq).1]
      have hfinite : ∀ p, k.val = some p →
          (ext k < ((q : WithTop ℚ) : WithBot (WithTop ℚ)) ↔ ext k < ((r : WithTop ℚ) : WithBot (WithTop ℚ))) ∧
          (ext k ≤ ((q : WithTop ℚ) : WithBot (WithTop ℚ)) ↔ ext k ≤ ((r : WithTop ℚ) : WithBot (WithTop ℚ))) := by
        intro p hp
        have hm := (hvals p).mpr ⟨k, hks k hk, hp⟩
        rw [(val_ext.mp hp).1]
        have hside : p ≤ p1 ∨ p2 ≤ p := by
          rcases lt_or_gt_of_ne (hne k (hks k hk) p hp) with h | h
          · exact .inl (hmax p hm h)
          · exact .inr (hmin p hm h)
        simp only [WithBot.coe_lt_coe, WithTop.coe_lt_coe, WithBot.coe_le_coe, WithTop.coe_le_coe]
        rcases hside with h | h
        · exact ⟨iff_of_true (by linarith) (by linarith), iff_of_true (by linarith) (by linarith)⟩
        · exact ⟨iff_of_false (by linarith) (by linarith), iff_of_false (by linarith) (by linarith)⟩
      cases k with
      | nan => exact absurd rfl hkn
      | inf b => cases b <;> simp [ext]
      | negZero => exact hfinite 0 rfl
      | fin p _ => exact hfinite p rfl

/-- Every whole number lies like one of the sample numbers. -/
theorem wholes_cover (ns : List Int) (n : Int) :
    ∃ k ∈ wholes ns, ∀ i ∈ ns, (i < n ↔ i < k) ∧ (i ≤ n ↔ i ≤ k) := by
  by_cases hne : ns = []
  · exact ⟨0, by simp [wholes], by simp [hne]⟩
  · classical
    obtain ⟨a, ha, hmin⟩ := Finset.exists_min_image ns.toFinset (fun i => |i - n|) (by simpa using hne)
    simp only [List.mem_toFinset] at ha hmin
    have hmem : ∀ k, k = a - 1 ∨ k = a ∨ k = a + 1 → k ∈ wholes ns := by
      intro k hk
      simp only [wholes, List.mem_cons, List.mem_flatMap, List.not_mem_nil, or_false]
      exact .inr ⟨a, ha, hk⟩
    rcases lt_trichotomy a n with h | h | h
    · refine ⟨a + 1, hmem _ (by simp), fun i hi => ?_⟩
      have := hmin i hi
      rw [abs_sub_comm, abs_of_pos (by omega : 0 < n - a)] at this
      rcases le_abs'.mp this with h' | h' <;> constructor <;> omega
    · subst h; exact ⟨a, hmem _ (by simp), fun _ _ => ⟨Iff.rfl, Iff.rfl⟩⟩
    · refine ⟨a - 1, hmem _ (by simp), fun i hi => ?_⟩
      have := hmin i hi
      rw [abs_of_pos (by omega : 0 < a - n)] at this
      rcases le_abs'.mp this with h' | h' <;> constructor <;> omega

theorem parse_fmt (x : F64) : Lib.parseFloat (Lib.fmtF64 x) = some x := parseF64_iff.mpr (C77_roundtrip x).1

theorem denotes_other {dt : DataType} (hd : dt = .double ∨ dt = .float) (c : String) {v : GoVal F64}
    (hv : ∀ x, v ≠ .f64 x) : denotes dt c v = false := by
  rcases hd with rfl | rfl <;> cases v <;> first | rfl | exact absurd rfl (hv _)

/-- Every value of a field passes the same tests as one of the sample values. -/
theorem sample_cover (dt : DataType) (cs : List String) (v : Option (GoVal F64)) :
    ∃ w ∈ sampleValues dt cs, Option.Rel (fun v w => (v = .nil ↔ w = .nil) ∧
      ∀ op, ∀ c ∈ cs, satisfies dt op c v = satisfies dt op c w) v w := by
  cases v with
  | none => exact ⟨none, by simp [sampleValues], .none⟩
  | some v =>
    by_cases hv : v = .nil
    · subst hv
      exact ⟨some .nil, by simp [sampleValues], .some ⟨Iff.rfl, fun _ _ _ => rfl⟩⟩
    have key : ∀ w : GoVal F64, some w ∈ sampleValues dt cs → w ≠ .nil →
        (∀ op, ∀ c ∈ cs, satisfies dt op c v = satisfies dt op c w) →
        ∃ w ∈ sampleValues dt cs, Option.Rel (fun v w => (v = .nil ↔ w = .nil) ∧
          ∀ op, ∀ c ∈ cs, satisfies dt op c v = satisfies dt op c w) (some v) w :=
      fun w hm hn h => ⟨some w, hm, .some ⟨iff_of_false hv hn, h⟩⟩
    by_cases hf : dt = .double ∨ dt = .float
    · have hmem : ∀ x ∈ points (cs.filterMap fun c => Lib.parseFloat c), ∀ w : GoVal F64,
          w = .f64 x ∨ w = .str (Lib.fmtF64 x) → some w ∈ sampleValues dt cs := by
        intro x hx w hw
        have : some w ∈ List.map some ((points (cs.filterMap fun c => Lib.parseFloat c)).flatMap fun x =>
            [GoVal.f64 x, .str (Lib.fmtF64 x)]) :=
          List.mem_map_of_mem (List.mem_flatMap.mpr ⟨x, hx, by simpa using hw⟩)
        rcases hf with rfl | rfl <;> exact .tail _ (.tail _ this)
      have hstr : ∀ x : F64, (GoVal.str (Lib.fmtF64 x) : GoVal F64).float64 = x := fun x => by
        simp only [GoVal.float64, parse_fmt]
      by_cases hn : v.float64 = nan
      · have hp : nan ∈ points (cs.filterMap fun c => Lib.parseFloat c) := by simp [points]
        by_cases hx : ∃ x, v = .f64 x
        · obtain ⟨x, rfl⟩ := hx
          obtain rfl : x = nan := hn
          exact key (.f64 nan) (hmem _ hp _ (.inl rfl)) (by simp) fun _ _ _ => rfl
        · push Not at hx
          refine key (.str (Lib.fmtF64 nan)) (hmem _ hp _ (.inr rfl)) (by simp) fun op c _ => ?_
          by_cases ho : ByOrder op
          · exact same_float hf ho fun k _ => by rw [hstr, hn]; simp
          · cases op <;> first
              | exact absurd trivial ho
              | simp only [satisfies, denotes_other hf c hx, denotes_other hf c (v := .str _) (fun _ h => by cases h)]
      · obtain ⟨y, hy, hyn, hsame⟩ := points_cover (cs.filterMap fun c => Lib.parseFloat c) hn
        have hk : ∀ c ∈ cs, ∀ k, Lib.parseFloat c = some k →
            lt k v.float64 = lt k y ∧ le k v.float64 = le k y :=
          fun c hc k hk => hsame k (List.mem_filterMap.mpr ⟨c, hc, hk⟩)
        by_cases hx : ∃ x, v = .f64 x
        · obtain ⟨x, rfl⟩ := hx
          refine key (.f64 y) (hmem _ hy _ (.inl rfl)) (by simp) fun op c hc => ?_
          refine same_number hf hn hyn (fun k h => hk c hc k h) ?_
          have he : ∀ k, Lib.parseFloat c = some k → F64.eq x k = F64.eq y k := by
            intro k hkc
            obtain ⟨h1, h2⟩ := hk c hc k hkc
            obtain ⟨-, h4⟩ := sides_of_below hn hyn h1 h2
            rw [eq_of_sides, eq_of_sides]
            rw [show le x k = le y k from h4, show le k x = le k y from h2]
          cases hkc : Lib.parseFloat (F := F64) c with
          | none => rcases hf with rfl | rfl <;> simp only [denotes, hkc]
          | some k => rcases hf with rfl | rfl <;> simp only [denotes, hkc] <;> exact he k hkc
        · push Not at hx
          refine key (.str (Lib.fmtF64 y)) (hmem _ hy _ (.inr rfl)) (by simp) fun op c hc => ?_
          refine same_number hf hn (by rw [hstr]; exact hyn) (fun k h => by rw [hstr]; exact hk c hc k h) ?_
          rw [denotes_other hf c hx, denotes_other hf c (fun _ h => by cases h)]
    · cases dt with
      | double => exact absurd (.inl rfl) hf
      | float => exact absurd (.inr rfl) hf
      | boolean =>
        by_cases hb : ∃ b, v = .bool b
        · obtain ⟨b, rfl⟩ := hb
          exact key (.bool b) (by cases b <;> simp [sampleValues]) (by simp) fun _ _ _ => rfl
        · push Not at hb
          refine key (.int .int 0) (by simp [sampleValues]) (by simp) fun op c _ => ?_
          have : ∀ u : GoVal F64, (∀ b, u ≠ .bool b) → denotes .boolean c u = false := fun u hu => by
            cases u <;> first | rfl | exact absurd rfl (hu _)
          cases op <;> simp only [satisfies, this v hb, this (.int .int 0) (fun _ h => by cases h)]
      | string =>
        by_cases hb : ∃ c ∈ cs, v = .str c
        · obtain ⟨c, hc, rfl⟩ := hb
          exact key (.str c) (by simp [sampleValues, hc]) (by simp) fun _ _ _ => rfl
        · push Not at hb
          refine key (.int .int 0) (by simp [sampleValues]) (by simp) fun op c hc => ?_
          have : denotes .string c v = false := by
            cases v <;> first | rfl | skip
            rename_i s
            simp only [denotes, beq_eq_false_iff_ne]
            rintro rfl
            exact hb s hc rfl
          have h0 : denotes .string c (.int .int 0 : GoVal F64) = false := rfl
          cases op <;> simp only [satisfies, this, h0]
      | other s =>
        refine key (.int .int 0) (by simp [sampleValues]) (by simp) fun op c hc => ?_
        have : ∀ u : GoVal F64, denotes (.other s) c u = false := fun u => by cases u <;> rfl
        cases op <;> simp only [satisfies, this]
      | integer =>
        obtain ⟨n, hn, hsame⟩ := wholes_cover (cs.filterMap parseInt) v.int64
        have hmem : ∀ w : GoVal F64, w = .int .int64 n ∨ w = .int .int n → some w ∈ sampleValues .integer cs := by
          intro w hw
          have : some w ∈ List.map some ((wholes (cs.filterMap parseInt)).flatMap fun n =>
              [(GoVal.int .int64 n : GoVal F64), .int .int n]) :=
            List.mem_map_of_mem (List.mem_flatMap.mpr ⟨n, hn, by simpa using hw⟩)
          exact .tail _ (.tail _ this)
        have hw : ∀ w : GoVal F64, w.int64 = n → (∀ c ∈ cs, denotes .integer c v = denotes .integer c w) →
            ∀ op, ∀ c ∈ cs, satisfies .integer op c v = satisfies .integer op c w := by
          intro w hwn hd op c hc
          have hd := hd c hc
          cases hk : parseInt c with
          | none => cases op <;> simp only [satisfies, hk, hd]
          | some k =>
            obtain ⟨h1, h2⟩ := hsame k (List.mem_filterMap.mpr ⟨c, hc, hk⟩)
            have h3 : v.int64 < k ↔ n < k := by rw [← not_le, h2, not_le]
            have h4 : v.int64 ≤ k ↔ n ≤ k := by rw [← not_lt, h1, not_lt]
            cases op <;> simp only [satisfies, hk, hd, intCmp, hwn] <;>
              simp only [h1, h2, h3, h4, gt_iff_lt, ge_iff_le]
        by_cases hx : ∃ i, v = .int .int64 i
        · obtain ⟨i, rfl⟩ := hx
          refine key (.int .int64 n) (hmem _ (.inl rfl)) (by simp) (hw _ rfl fun c hc => ?_)
          simp only [denotes]
          cases hk : parseInt c with
          | none => rfl
          | some k =>
            obtain ⟨h1, h2⟩ := hsame k (List.mem_filterMap.mpr ⟨c, hc, hk⟩)
            simp only [GoVal.int64] at h1 h2
            rw [Bool.eq_iff_iff]
            simp only [beq_iff_eq, Option.some.injEq]
            constructor <;> intro h <;> omega
        · push Not at hx
          refine key (.int .int n) (hmem _ (.inr rfl)) (by simp) (hw _ rfl fun c hc => ?_)
          have : denotes .integer c v = false := by
            cases v <;> first | rfl | skip
            rename_i k i
            cases k <;> first | rfl | exact absurd rfl (hx i)
          rw [this]; rfl

theorem putValue_get (r : GoMap (GoVal F64)) (f : String) (v : Option (GoVal F64)) (g : String) :
    (putValue r f v)[g]? = if f = g then v else r[g]? := by
  cases v with
  | none =>
    simp only [putValue, Std.ExtTreeMap.getElem?_erase]
    by_cases h : f = g
    · simp [h]
    · rw [if_neg h, if_neg (by simpa [compare_eq_iff_eq] using h)]
  | some v =>
    simp only [putValue, Std.ExtTreeMap.getElem?_insert]
    by_cases h : f = g
    · simp [h]
    · rw [if_neg h, if_neg (by simpa [compare_eq_iff_eq] using h)]

/-- A choice of a sample value for every field is one of the rows. -/
theorem testRows_mem {ty : String → DataType} {cs : String → List String} (c : String → Option (GoVal F64)) :
    ∀ fs : List String, (∀ f ∈ fs, c f ∈ sampleValues (ty f) (cs f)) →
    ∃ t ∈ testRows ty cs fs, ∀ f, t[f]? = if f ∈ fs then c f else none := by
  intro fs
  induction fs with
  | nil => exact fun _ => ⟨∅, by simp [testRows], by simp⟩
  | cons g gs ih =>
    intro h
    obtain ⟨t, ht, htf⟩ := ih fun f hf => h f (.tail _ hf)
    refine ⟨putValue t g (c g), ?_, fun f => ?_⟩
    · rw [testRows, List.mem_flatMap]
      exact ⟨t, ht, List.mem_map_of_mem (h g (.head _))⟩
    · rw [putValue_get, htf]
      by_cases hg : g = f
      · subst hg; simp
      · rw [if_neg hg]
        simp [Ne.symm hg]

section
variable {F : Type}

mutual
theorem sub_allNodes {r : Node F} : (n : Node F) → Sub r n → r ∈ allNodes n
  | .mk id dc sc rc di ns pr, h => by
    rw [allNodes]
    cases h with
    | refl => exact .head _
    | child hc h => exact .tail _ (sub_allNodess ns hc h)
theorem sub_allNodess {r c : Node F} : (ns : List (Node F)) → c ∈ ns → Sub r c → r ∈ allNodes.allNodess ns
  | [], hc, _ => absurd hc (by simp)
  | n :: ns, hc, h => by
    rw [allNodes.allNodess, List.mem_append]
    by_cases hcn : c = n
    · exact .inl (sub_allNodes n (hcn ▸ h))
    · exact .inr (sub_allNodess ns ((List.mem_cons.mp hc).resolve_left hcn) h)
end

mutual
theorem simples_of_field : (p : Pred F) → ∀ f ∈ predFields p, ∃ s ∈ simples p, s.field = f
  | .simple p, f, h => ⟨p, by simp [simples], by simpa [predFields, eq_comm] using h⟩
  | .compound op ps, f, h => by
    rw [predFields] at h; rw [simples]
    exact simpless_of_field ps f h
  | .true_, f, h => by simp [predFields] at h
  | .false_, f, h => by simp [predFields] at h
  | .set _, f, h => by simp [predFields] at h
theorem simpless_of_field : (ps : List (Pred F)) → ∀ f ∈ predFields.predsFields ps, ∃ s ∈ simples.simpless ps, s.field = f
  | [], f, h => by simp [predFields.predsFields] at h
  | p :: ps, f, h => by
    rw [predFields.predsFields, List.mem_append] at h
    rw [simples.simpless]
    rcases h with h | h
    · obtain ⟨s, h1, h2⟩ := simples_of_field p f h; exact ⟨s, by simp [h1], h2⟩
    · obtain ⟨s, h1, h2⟩ := simpless_of_field ps f h; exact ⟨s, by simp [h1], h2⟩
end

theorem docsSimples_mem {e : ModelElem F} {es : List (ModelElem F)} (h : e ∈ es) {s} (hs : s ∈ docSimples e) :
    s ∈ docsSimples es := by
  induction es with
  | nil => simp at h
  | cons a es ih =>
    rw [docsSimples, List.mem_append]
    rcases List.mem_cons.mp h with rfl | h
    · exact .inl hs
    · exact .inr (ih h)

theorem segsSimples_mem {id ps es} {segs : List (SegDoc F)} (h : SegDoc.mk id ps es ∈ segs) {s}
    (hs : s ∈ docsSimples es) : s ∈ segsSimples segs := by
  induction segs with
  | nil => simp at h
  | cons a segs ih =>
    obtain ⟨id', ps', es'⟩ := a
    rw [segsSimples, List.mem_append]
    rcases List.mem_cons.mp h with h | h
    · cases h; exact .inl hs
    · exact .inr (ih h)

theorem docsComputed_mem {e : ModelElem F} {es : List (ModelElem F)} (h : e ∈ es) {s} (hs : s ∈ docComputed e) :
    s ∈ docsComputed es := by
  induction es with
  | nil => simp at h
  | cons a es ih =>
    rw [docsComputed, List.mem_append]
    rcases List.mem_cons.mp h with rfl | h
    · exact .inl hs
    · exact .inr (ih h)

theorem segsComputed_mem {id ps es} {segs : List (SegDoc F)} (h : SegDoc.mk id ps es ∈ segs) {s}
    (hs : s ∈ docsComputed es) : s ∈ segsComputed segs := by
  induction segs with
  | nil => simp at h
  | cons a segs ih =>
    obtain ⟨id', ps', es'⟩ := a
    rw [segsComputed, List.mem_append]
    rcases List.mem_cons.mp h with h | h
    · cases h; exact .inl hs
    · exact .inr (ih h)

theorem docsDerived_mem {e : ModelElem F} {es : List (ModelElem F)} (h : e ∈ es) {s} (hs : s ∈ docDerived e) :
    s ∈ docsDerived es := by
  induction es with
  | nil => simp at h
  | cons a es ih =>
    rw [docsDerived, List.mem_append]
    rcases List.mem_cons.mp h with rfl | h
    · exact .inl hs
    · exact .inr (ih h)

theorem segsDerived_mem {id ps es} {segs : List (SegDoc F)} (h : SegDoc.mk id ps es ∈ segs) {s}
    (hs : s ∈ docsDerived es) : s ∈ segsDerived segs := by
  induction segs with
  | nil => simp at h
  | cons a segs ih =>
    obtain ⟨id', ps', es'⟩ := a
    rw [segsDerived, List.mem_append]
    rcases List.mem_cons.mp h with h | h
    · cases h; exact .inl hs
    · exact .inr (ih h)

theorem predicateIn_mem {s : SimplePred F} {e : ModelElem F} (h : PredicateIn s e) : s ∈ docSimples e := by
  obtain ⟨d, hd, n, p, hn, hp, hs⟩ := h
  induction hd with
  | here =>
    rw [docSimples, List.mem_flatMap]
    exact ⟨n, sub_allNodes _ hn, by simpa [hp] using hs⟩
  | segment h1 h2 _ ih => rw [docSimples]; exact segsSimples_mem h1 (docsSimples_mem h2 ih)

theorem computes_mem {f : String} {e : ModelElem F} (h : Computes e f) : f ∈ docComputed e := by
  induction h with
  | treeDerived h1 h2 => rw [docComputed, List.mem_flatMap]; exact ⟨_, h1, h2⟩
  | predictor h1 h2 => rw [docComputed, List.mem_flatMap]; exact ⟨_, h1, List.mem_map_of_mem h2⟩
  | derived h1 h2 => rw [docComputed, List.mem_append, List.mem_flatMap]; exact .inl ⟨_, h1, h2⟩
  | segment h1 h2 _ ih => rw [docComputed, List.mem_append]; exact .inr (segsComputed_mem h1 (docsComputed_mem h2 ih))

theorem derivedIn_mem {d : DerivedField F} {e : ModelElem F} (h : DerivedIn d e) : d ∈ docDerived e := by
  induction h with
  | tree h => rw [docDerived]; exact h
  | mining h => rw [docDerived, List.mem_append]; exact .inl h
  | segment h1 h2 _ ih => rw [docDerived, List.mem_append]; exact .inr (segsDerived_mem h1 (docsDerived_mem h2 ih))

theorem mentioned_of_free {f : String} {e : ModelElem F} (h : Mentioned e f) (hf : ∀ f, ¬ Computes e f) :
    ∃ s, PredicateIn s e ∧ s.field = f := by
  induction h with
  | predicate hn hp hf' =>
    obtain ⟨s, hs, hsf⟩ := simples_of_field _ _ hf'
    exact ⟨s, ⟨_, .here, _, _, hn, hp, hs⟩, hsf⟩
  | treeDerived h1 h2 => exact absurd (.treeDerived h1 h2) (hf _)
  | predictor h1 h2 => exact absurd (.predictor h1 h2) (hf _)
  | derived h1 h2 => exact absurd (.derived h1 h2) (hf _)
  | segment h1 h2 _ ih =>
    obtain ⟨s, ⟨d, hd, hr⟩, hsf⟩ := ih fun f hc => hf f (.segment h1 h2 hc)
    exact ⟨s, ⟨d, .segment h1 h2 hd, hr⟩, hsf⟩

theorem typeOf_eq {ts : List (String × DataType)} (h : oneType ts = true) {f : String} {dt : DataType}
    (hm : (f, dt) ∈ ts) : dt = typeOf ts f := by
  have key : ∃ dt', (f, dt') ∈ ts ∧ ts.lookup f = some dt' := by
    clear h
    induction ts with
    | nil => simp at hm
    | cons a ts ih =>
      obtain ⟨g, d⟩ := a
      by_cases hg : f = g
      · subst hg; exact ⟨d, .head _, by simp [List.lookup]⟩
      · obtain ⟨dt', h1, h2⟩ := ih ((List.mem_cons.mp hm).resolve_left (by simp [hg]))
        exact ⟨dt', .tail _ h1, by rw [List.lookup, beq_eq_false_iff_ne.mpr hg]; exact h2⟩
  obtain ⟨dt', h1, h2⟩ := key
  simp only [oneType, List.all_eq_true] at h
  have := h _ hm _ h1
  simp only [bne_self_eq_false, Bool.false_or, beq_iff_eq] at this
  rw [typeOf, h2, this]; rfl

end

theorem testsOnly_of {dd : List DataField} {td : TD F64} {e : ModelElem F64} {ss : List (SimplePred F64)}
    {ts : List (String × DataType)} (hc : docComputed e = []) (hs : ∀ s ∈ docSimples e, s ∈ ss)
    (ht : ∀ t ∈ docTypes dd td e, t ∈ ts) (h1 : oneType ts = true) :
    TestsOnly (ss.map (·.field)).dedup (typeOf ts) (constantsOf ss) dd td e := by
  have hfree : ∀ f, ¬ Computes e f := fun f h => by
    have := computes_mem h
    rw [hc] at this
    simp at this
  refine ⟨fun f hf => ?_, fun f dt hd => typeOf_eq h1 (ht _ ?_), fun s h => ?_, hfree⟩
  · obtain ⟨s, h, rfl⟩ := mentioned_of_free hf hfree
    rw [List.mem_dedup]
    exact List.mem_map_of_mem (hs s (predicateIn_mem h))
  · simp only [docTypes, List.mem_append, List.mem_map, Prod.mk.injEq]
    rcases hd with ⟨d, h, h2⟩ | ⟨d, h, h2⟩ | ⟨d, h, h2⟩
    · exact .inl (.inl ⟨d, h, h2⟩)
    · exact .inl (.inr ⟨d, h, h2⟩)
    · exact .inr ⟨d, derivedIn_mem h, h2⟩
  · rw [constantsOf, List.mem_dedup, List.mem_map]
    exact ⟨s, by simpa using hs s (predicateIn_mem h), rfl⟩

end Gopmml
