import Mathlib.Data.List.FinRange
import Mathlib.Algebra.Order.BigOperators.Group.List
import Verif.Proofs.Thresholds
import Verif.Proofs.F64Ext
import Verif.Props.Forms

/-!
# Property C79: of a number a tree sees only where it lies among the thresholds
-/

namespace Gopmml.Props
open Gopmml Spec

section
variable {F : Type} [Arith F] [Lib F] [Trans F]

/-- **C79**: if the fields in `S` are used only in tests, an accepted model gives the same answer, or the
same error, for rows that agree elsewhere and whose values of these fields pass the same tests. -/
theorem C79_tests {dd : List DataField} {e : ModelElem F} {td td' : TD F} {m : EModel F}
    (h : newModel dd e td = (.ok m, td')) {S : String → Prop} {ts : String → List (DataType × SimpleOp × String)}
    (hS : ∀ f, S f → OnlyTested (Declared dd td e) e f (ts f)) (o : MapOrd) {r r' : GoMap (GoVal F)}
    (hr : ∀ f, ¬ S f → r[f]? = r'[f]?)
    (ht : ∀ f, S f → Option.Rel (fun v w => (v = .nil ↔ w = .nil) ∧
      ∀ t ∈ ts f, satisfies t.1 t.2.1 t.2.2 v = satisfies t.1 t.2.1 t.2.2 w) r[f]? r'[f]?) :
    (EModel.evaluate o m (some r)).res = (EModel.evaluate o m (some r')).res := by
  classical
  refine (newModel_blind h (sees_of_onlyTested h hS) o r r' fun f => ?_).1
  by_cases hf : S f
  · simp only [if_pos hf]; exact ht f hf
  · simp only [if_neg hf]; rw [hr f hf]
    cases r'[f]? with
    | none => exact .none
    | some v => exact .some rfl

omit [Trans F] in
theorem same_float {dt : DataType} (hd : dt = .double ∨ dt = .float) {op : SimpleOp} (ho : ByOrder op) {c : String}
    {v w : GoVal F} (h : ∀ k, Lib.parseFloat (F := F) c = some k →
      Arith.lt v.float64 k = Arith.lt w.float64 k ∧ Arith.le v.float64 k = Arith.le w.float64 k ∧
      Arith.lt k v.float64 = Arith.lt k w.float64 ∧ Arith.le k v.float64 = Arith.le k w.float64) :
    satisfies dt op c v = satisfies dt op c w := by
  cases hk : Lib.parseFloat (F := F) c with
  | none => rcases hd with rfl | rfl <;> cases op <;> first | exact ho.elim | simp only [satisfies, hk]
  | some k =>
    obtain ⟨h1, h2, h3, h4⟩ := h k hk
    rcases hd with rfl | rfl <;> cases op <;>
      first | exact ho.elim | simp only [satisfies, floatCmp, hk, h1, h2, h3, h4]

theorem same_of_compared {dd : List DataField} {e : ModelElem F} {td td' : TD F} {m : EModel F}
    (h : newModel dd e td = (.ok m, td')) {f : String} {dts : List DataType} {cs : List String}
    (hf : OnlyCompared (Declared dd td e) e f dts cs) {Q : SimpleOp → Prop}
    (hQ : ∀ s, PredicateIn s e → s.field = f → Q s.op) (o : MapOrd) (r : GoMap (GoVal F)) {v w : GoVal F}
    (hv : v ≠ .nil) (hw : w ≠ .nil)
    (hs : ∀ dt ∈ dts, ∀ op, Q op → ∀ c ∈ cs, satisfies dt op c v = satisfies dt op c w) :
    (EModel.evaluate o m (some (r.insert f v))).res = (EModel.evaluate o m (some (r.insert f w))).res := by
  classical
  let ops : List SimpleOp :=
    [.lessThan, .lessOrEqual, .greaterThan, .greaterOrEqual, .equal, .notEqual].filter (Q ·)
  have hops : ∀ op, Looks op → Q op → op ∈ ops := by
    intro op h1 h2
    cases op <;> first | exact h1.elim | simp [ops, h2]
  refine C79_tests h (S := (· = f))
    (ts := fun _ => dts.flatMap fun dt => ops.flatMap fun op => cs.map fun c => (dt, op, c)) ?_ o ?_ ?_
  · rintro _ rfl
    refine ⟨fun s hs he hl dt hd => ?_, hf.free⟩
    simp only [List.mem_flatMap, List.mem_map]
    exact ⟨dt, hf.type dt hd, s.op, hops _ hl (hQ s hs he), s.value, hf.tests s hs he, rfl⟩
  · intro g hg
    rw [GoMap.getElem?_insert, GoMap.getElem?_insert, if_neg (fun h => hg h.symm), if_neg (fun h => hg h.symm)]
  · rintro _ rfl
    rw [GoMap.getElem?_insert, GoMap.getElem?_insert, if_pos rfl, if_pos rfl]
    refine .some ⟨⟨fun h => absurd h hv, fun h => absurd h hw⟩, fun t ht => ?_⟩
    simp only [List.mem_flatMap, List.mem_map] at ht
    obtain ⟨dt, hdt, op, hop, c, hc, rfl⟩ := ht
    exact hs dt hdt op (by simpa using (List.mem_filter.mp hop).2) c hc

/-- **C79** (same side): two values of a double or float field that is only compared by order get the same
answer if they lie on the same side of every constant it is compared with. -/
theorem C79_same_side {dd : List DataField} {e : ModelElem F} {td td' : TD F} {m : EModel F}
    (h : newModel dd e td = (.ok m, td')) {f : String} {cs : List String}
    (hf : OnlyCompared (Declared dd td e) e f [.double, .float] cs)
    (ho : ∀ s, PredicateIn s e → s.field = f → ByOrder s.op) (o : MapOrd) (r : GoMap (GoVal F)) {v w : GoVal F}
    (hv : v ≠ .nil) (hw : w ≠ .nil)
    (hs : ∀ c ∈ cs, ∀ k, Lib.parseFloat (F := F) c = some k →
      Arith.lt v.float64 k = Arith.lt w.float64 k ∧ Arith.le v.float64 k = Arith.le w.float64 k ∧
      Arith.lt k v.float64 = Arith.lt k w.float64 ∧ Arith.le k v.float64 = Arith.le k w.float64) :
    (EModel.evaluate o m (some (r.insert f v))).res = (EModel.evaluate o m (some (r.insert f w))).res :=
  same_of_compared h hf ho o r hv hw fun dt hdt op ho c hc => same_float (by simpa using hdt) ho (hs c hc)

/-- **C79** (integers): the answer does not change between two integer values without a constant between
or at them. -/
theorem C79_between_int {dd : List DataField} {e : ModelElem F} {td td' : TD F} {m : EModel F}
    (h : newModel dd e td = (.ok m, td')) {f : String} {cs : List String}
    (hf : OnlyCompared (Declared dd td e) e f [.integer] cs) (o : MapOrd) (r : GoMap (GoVal F)) {v w : GoVal F}
    (hv : v ≠ .nil) (hw : w ≠ .nil) (hle : v.int64 ≤ w.int64)
    (hs : ∀ c ∈ cs, ∀ k, parseInt c = some k → ¬ (v.int64 ≤ k ∧ k ≤ w.int64)) :
    (EModel.evaluate o m (some (r.insert f v))).res = (EModel.evaluate o m (some (r.insert f w))).res := by
  refine same_of_compared h hf (Q := fun _ => True) (fun _ _ _ => trivial) o r hv hw fun dt hdt op _ c hc => ?_
  obtain rfl : dt = .integer := by simpa using hdt
  have hd : ∀ u : GoVal F, v.int64 ≤ u.int64 → u.int64 ≤ w.int64 → denotes .integer c u = false := by
    intro u h1 h2
    rw [← Bool.not_eq_true]
    intro hu
    unfold denotes at hu
    split at hu
    · simp at *
    · simp at *
    · simp at *
    · rename_i n _
      exact hs c hc n (by simpa using hu) ⟨h1, h2⟩
    · simp at *
    · simp at hu
  cases op with
  | equal => simp only [satisfies, hd v le_rfl hle, hd w hle le_rfl]
  | notEqual => simp only [satisfies, hd v le_rfl hle, hd w hle le_rfl]
  | isMissing | isNotMissing | other => rfl
  | lessThan | lessOrEqual | greaterThan | greaterOrEqual =>
    cases hk : parseInt c with
    | none => simp only [satisfies, hk]
    | some k =>
      have := hs c hc k hk
      simp only [satisfies, intCmp, hk, decide_eq_decide]; omega

end

section
open F64

theorem eq_comm' (x y : F64) : F64.eq x y = F64.eq y x := by
  cases x <;> cases y <;> simp only [F64.eq, decide_eq_decide] <;> first | rfl | exact Bool.beq_comm | exact eq_comm

theorem eq_sides {x y : F64} (h : F64.eq x y = true) : le x y = true ∧ le y x = true := by
  have h' := h
  rw [eq_comm'] at h'
  simp [le, h, h']

theorem lt_asymm' {x y : F64} (h : lt x y = true) : lt y x = false := by
  obtain ⟨h1, h2⟩ := lt_not_nan h
  rw [← Bool.not_eq_true, F64.lt_iff h2 h1]
  rw [F64.lt_iff h1 h2] at h
  exact h.not_gt

theorem eq_of_sides {x y : F64} : F64.eq x y = (le x y && le y x) := by
  rw [Bool.eq_iff_iff, Bool.and_eq_true]
  refine ⟨eq_sides, fun ⟨h1, h2⟩ => ?_⟩
  simp only [le, Bool.or_eq_true] at h1 h2
  rcases h1 with h1 | h1
  · rcases h2 with h2 | h2
    · simp [lt_asymm' h1] at h2
    · rw [eq_comm']; exact h2
  · exact h1

theorem lt_eq_not_le' {x y : F64} (hx : x ≠ nan) (hy : y ≠ nan) : lt x y = !le y x := by
  rw [le_eq_not_lt hy hx, Bool.not_not]

theorem sides_of_below {x y k : F64} (hx : x ≠ nan) (hy : y ≠ nan) (h1 : lt k x = lt k y) (h2 : le k x = le k y) :
    lt x k = lt y k ∧ le x k = le y k := by
  by_cases hk : k = nan
  · subst hk; simp
  · rw [lt_eq_not_le' hx hk, lt_eq_not_le' hy hk, le_eq_not_lt hx hk, le_eq_not_lt hy hk, h1, h2]
    exact ⟨rfl, rfl⟩

theorem same_number {dt : DataType} (hd : dt = .double ∨ dt = .float) {op : SimpleOp} {c : String} {v w : GoVal F64}
    (hv : v.float64 ≠ nan) (hw : w.float64 ≠ nan) (h : ∀ k, Lib.parseFloat c = some k →
      lt k v.float64 = lt k w.float64 ∧ le k v.float64 = le k w.float64)
    (he : denotes dt c v = denotes dt c w) : satisfies dt op c v = satisfies dt op c w := by
  by_cases ho : ByOrder op
  · exact same_float hd ho fun k hk => by
      obtain ⟨h1, h2⟩ := h k hk
      obtain ⟨h3, h4⟩ := sides_of_below hv hw h1 h2
      exact ⟨h3, h4, h1, h2⟩
  · cases op <;> first | exact absurd trivial ho | simp only [satisfies, he]

/-- **C79** (between): the answer does not change between two numbers without a constant between or at
them. -/
theorem C79_between [Trans F64] {dd : List DataField} {e : ModelElem F64} {td td' : TD F64} {m : EModel F64}
    (h : newModel dd e td = (.ok m, td')) {f : String} {cs : List String}
    (hf : OnlyCompared (Declared dd td e) e f [.double, .float] cs) (o : MapOrd) (r : GoMap (GoVal F64))
    {v w : GoVal F64} (hv : v ≠ .nil) (hw : w ≠ .nil) (hle : le v.float64 w.float64 = true)
    (hs : ∀ c ∈ cs, ∀ k, Lib.parseFloat c = some k → ¬ (le v.float64 k = true ∧ le k w.float64 = true)) :
    (EModel.evaluate o m (some (r.insert f v))).res = (EModel.evaluate o m (some (r.insert f w))).res := by
  obtain ⟨hvn, hwn⟩ := le_not_nan hle
  refine same_of_compared h hf (Q := fun _ => True) (fun _ _ _ => trivial) o r hv hw fun dt hdt op _ c hc => ?_
  have hdt : dt = .double ∨ dt = .float := by simpa using hdt
  have hd : ∀ u : GoVal F64, le v.float64 u.float64 = true → le u.float64 w.float64 = true →
      denotes dt c u = false := by
    intro u h1 h2
    rw [← Bool.not_eq_true]
    intro hu
    have : ∃ x, u = .f64 x ∧ ∃ k, Lib.parseFloat c = some k ∧ F64.eq x k = true := by
      unfold denotes at hu
      split at hu
      · simp at hdt
      · split at hu
        · exact ⟨_, rfl, _, ‹_›, hu⟩
        · simp at hu
      · split at hu
        · exact ⟨_, rfl, _, ‹_›, hu⟩
        · simp at hu
      · simp at hdt
      · simp at hdt
      · simp at hu
    obtain ⟨x, rfl, k, hk, hx⟩ := this
    have hxk := eq_sides hx
    exact hs c hc k hk ⟨F64.le_trans h1 hxk.1, F64.le_trans hxk.2 h2⟩
  refine same_number hdt hvn hwn (fun k hk => ?_) ((hd v (F64.le_refl hvn) hle).trans (hd w hle (F64.le_refl hwn)).symm)
  have hno := hs c hc k hk
  by_cases hkn : k = nan
  · subst hkn; simp
  · rw [F64.le_iff hvn hkn, F64.le_iff hkn hwn] at hno
    rw [F64.le_iff hvn hwn] at hle
    suffices (F64.ext k < F64.ext v.float64 ↔ F64.ext k < F64.ext w.float64) ∧
        (F64.ext k ≤ F64.ext v.float64 ↔ F64.ext k ≤ F64.ext w.float64) by
      rwa [← F64.lt_iff hkn hvn, ← F64.lt_iff hkn hwn, ← F64.le_iff hkn hvn, ← F64.le_iff hkn hwn, ← Bool.eq_iff_iff,
        ← Bool.eq_iff_iff] at this
    by_cases hc : F64.ext v.float64 ≤ F64.ext k
    · have hc' := lt_of_not_ge fun h => hno ⟨hc, h⟩
      exact ⟨⟨fun h => absurd (h.trans_le hc) (lt_irrefl _), fun h => absurd (h.trans hc') (lt_irrefl _)⟩,
        ⟨fun h => h.trans hle, fun h => absurd (h.trans_lt hc') (lt_irrefl _)⟩⟩
    · have hc := lt_of_not_ge hc
      exact ⟨⟨fun _ => hc.trans_le hle, fun _ => hc⟩, ⟨fun _ => hc.le.trans hle, fun _ => hc.le⟩⟩

/-! Counting the places among the constants. -/

/-- How many of the constants are below the number, those at or below it counted once more. -/
def place (ks : List F64) (x : F64) : Nat :=
  (ks.map fun k => (if lt k x then 1 else 0) + (if le k x then 1 else 0)).sum

theorem place_le (ks : List F64) (x : F64) : place ks x ≤ 2 * ks.length := by
  unfold place
  induction ks with
  | nil => simp
  | cons k ks ih =>
    simp only [List.map_cons, List.sum_cons, List.length_cons]
    split <;> split <;> omega

theorem below_mono {k x y : F64} (h : le x y = true) : (lt k x = true → lt k y = true) ∧ (le k x = true → le k y = true) := by
  obtain ⟨h1, h2⟩ := le_not_nan h
  refine ⟨fun hk => ?_, fun hk => F64.le_trans hk h⟩
  obtain ⟨h3, -⟩ := lt_not_nan hk
  rw [F64.lt_iff h3 h1] at hk
  rw [F64.le_iff h1 h2] at h
  rw [F64.lt_iff h3 h2]
  exact hk.trans_le h

theorem place_mono (ks : List F64) {x y : F64} (h : le x y = true) : place ks x ≤ place ks y := by
  unfold place
  induction ks with
  | nil => simp
  | cons k ks ih =>
    simp only [List.map_cons, List.sum_cons]
    have := below_mono (k := k) h
    split <;> split <;> split <;> split <;> simp_all <;> omega

theorem place_inj (ks : List F64) {x y : F64} (h : le x y = true) (hp : place ks x = place ks y) :
    ∀ k ∈ ks, lt k x = lt k y ∧ le k x = le k y := by
  induction ks with
  | nil => simp
  | cons k ks ih =>
    have hm := place_mono ks h
    have hb := below_mono (k := k) h
    have hx : ∀ z, place (k :: ks) z = ((if lt k z then 1 else 0) + (if le k z then 1 else 0)) + place ks z := by
      intro z; simp [place]
    rw [hx, hx] at hp
    have key : place ks x = place ks y ∧ lt k x = lt k y ∧ le k x = le k y := by
      cases h1 : lt k x <;> cases h2 : lt k y <;> cases h3 : le k x <;> cases h4 : le k y <;> simp_all <;> omega
    intro k' hk'
    rcases List.mem_cons.mp hk' with rfl | hk'
    · exact key.2
    · exact ih key.1 k' hk'

theorem le_total' {x y : F64} (hx : x ≠ nan) (hy : y ≠ nan) : le x y = true ∨ le y x = true := by
  rw [F64.le_iff hx hy, F64.le_iff hy hx]; exact le_total _ _

/-- **C79** (few answers): however a float64 input varies that is only compared with `n` constants, at most
`2 n + 2` different answers come out: one between any two neighbouring constants, one at each of them, one
for NaN. -/
theorem C79_few [Trans F64] {dd : List DataField} {e : ModelElem F64} {td td' : TD F64} {m : EModel F64}
    (h : newModel dd e td = (.ok m, td')) {f : String} {cs : List String}
    (hf : OnlyCompared (Declared dd td e) e f [.double, .float] cs) (o : MapOrd) (r : GoMap (GoVal F64)) :
    ∃ answers : List (Res (Out F64)), answers.length = 2 * cs.length + 2 ∧
      ∀ x, (EModel.evaluate o m (some (r.insert f (.f64 x)))).res ∈ answers := by
  classical
  let ks : List F64 := cs.filterMap Lib.parseFloat
  let out : F64 → Res (Out F64) := fun x => (EModel.evaluate o m (some (r.insert f (.f64 x)))).res
  have hks : ks.length ≤ cs.length := List.length_filterMap_le _ _
  have same : ∀ x y, x ≠ nan → y ≠ nan → place ks x = place ks y → le x y = true → out x = out y := by
    intro x y hx hy hp hle
    refine same_of_compared h hf (Q := fun _ => True) (fun _ _ _ => trivial) o r (by simp) (by simp)
      fun dt hdt op _ c hc => ?_
    have hdt : dt = .double ∨ dt = .float := by simpa using hdt
    have hk : ∀ k, Lib.parseFloat c = some k → lt k x = lt k y ∧ le k x = le k y := fun k hk =>
      place_inj ks hle hp k (List.mem_filterMap.mpr ⟨c, hc, hk⟩)
    refine same_number hdt (by simpa [GoVal.float64] using hx) (by simpa [GoVal.float64] using hy)
      (by simpa [GoVal.float64] using hk) ?_
    have he : ∀ k, Lib.parseFloat c = some k → F64.eq x k = F64.eq y k := by
      intro k hk'
      obtain ⟨h1, h2⟩ := hk k hk'
      obtain ⟨-, h4⟩ := sides_of_below hx hy h1 h2
      rw [eq_of_sides, eq_of_sides, h2, h4]
    cases hc : Lib.parseFloat (F := F64) c with
    | none => rcases hdt with rfl | rfl <;> simp only [denotes, hc]
    | some k => rcases hdt with rfl | rfl <;> simp only [denotes, hc] <;> exact he k hc
  refine ⟨out nan :: (List.range (2 * cs.length + 1)).map fun i =>
    if hi : ∃ x, x ≠ nan ∧ place ks x = i then out hi.choose else out nan, by simp, fun x => ?_⟩
  by_cases hx : x = nan
  · subst hx; exact List.mem_cons_self
  · refine List.mem_cons_of_mem _ (List.mem_map.mpr ⟨place ks x, ?_, ?_⟩)
    · rw [List.mem_range]; have := place_le ks x; omega
    · have hi : ∃ y, y ≠ nan ∧ place ks y = place ks x := ⟨x, hx, rfl⟩
      rw [dif_pos hi]
      obtain ⟨h1, h2⟩ := hi.choose_spec
      rcases le_total' h1 hx with hle | hle
      · exact same _ _ h1 hx h2 hle
      · exact (same _ _ hx h1 h2.symm hle).symm

end

section
open Samples Replay F64

-- C79: the sample tree only compares x, with 5; there are at most four answers, whatever x is.
theorem ordered_compared : OnlyCompared (Declared Samples.dd ([] : TD F64) ordered) ordered "x" [.double, .float] ["5"] := by
  refine ⟨fun dt hd => ?_, fun s hs hx => ?_, fun hc => ?_⟩
  · rcases hd with ⟨d, h1, h2, h3⟩ | ⟨d, h1, -⟩ | ⟨d, h1, -⟩
    · simp only [Samples.dd, List.mem_cons, List.not_mem_nil, or_false] at h1
      rcases h1 with rfl | rfl | rfl <;> simp_all
    · simp at h1
    · cases h1 with
      | tree h => simp [regTree] at h
  · obtain ⟨d, hd, n, p, hn, hp, hs⟩ := hs
    cases hd
    unfold regTree at hn
    cases hn with
    | refl => simp only [Node.pred, Option.some.injEq] at hp; subst hp; simp [simples] at hs
    | child hc hn =>
      simp only [Node.nodes, List.mem_cons, List.not_mem_nil, or_false] at hc
      rcases hc with rfl | rfl <;> cases hn with
      | refl =>
        simp only [Node.pred, Option.some.injEq] at hp; subst hp
        simp only [simples, sp, List.mem_singleton] at hs
        subst hs; simp
      | child hc _ => simp [Node.nodes] at hc
  · cases hc with
    | treeDerived h _ => simp [regTree] at h

example : (newModel Samples.dd ordered []).1.isOk ∧
    le (num "5.5") (num "7") = true ∧ ¬ (le (num "5.5") (num "5") = true ∧ le (num "5") (num "7") = true) ∧
    eval .sorted ordered [("x", .f64 (num "5.5"))] = eval .sorted ordered [("x", .f64 (num "7"))] ∧
    eval .sorted ordered [("x", .f64 (num "4"))] ≠ eval .sorted ordered [("x", .f64 (num "7"))] := by
  decide +kernel

/-- A tree that compares with 5 not x but y = x + x. -/
def doubled : ModelElem F64 :=
  .tree { regTree "1" "2" with
    localTransformations := [⟨"y", .double, .continuous, .apply "+" [.fieldRef "x", .fieldRef "x"]⟩]
    node := .mk "" "" "0" (num "0") [] [
      .mk "" "" "1" (num "0") [] [] (some (sp "y" .lessThan "5")),
      .mk "" "" "2" (num "0") [] [] (some (sp "y" .greaterOrEqual "5"))] (some .true_) }

/-- **C79** (the proviso is needed): where a field is computed with, the answer can change between two
values although no constant it is compared with lies between them. -/
theorem C79_computed : Computes doubled "x" ∧
    eval .sorted doubled [("x", .f64 (num "2"))] = some (.ok (some (mk [("score", .f64 (num "1"))]))) ∧
    eval .sorted doubled [("x", .f64 (num "3"))] = some (.ok (some (mk [("score", .f64 (num "2"))]))) :=
  ⟨.treeDerived (List.mem_singleton.mpr rfl) (by simp [exprFields, exprFields.exprsFields]), by decide +kernel⟩

end

end Gopmml.Props
