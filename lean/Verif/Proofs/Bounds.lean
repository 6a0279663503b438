import Verif.Spec.Bounds
import Verif.Proofs.F64Up
import Verif.Proofs.Specialise
import Verif.Props.Expressions

/-!
# Facts for bounding answers (C102)
-/

namespace Gopmml
open Spec F64

namespace F64

/-- A finite number and its value. -/
def IsFin (x : F64) (a : ℚ) : Prop := x = negZero ∧ a = 0 ∨ ∃ h, x = fin a h

theorem IsFin.ext {x : F64} {a : ℚ} (h : IsFin x a) : x ≠ nan ∧ F64.ext x = ((a : WithTop ℚ) : WithBot (WithTop ℚ)) := by
  rcases h with ⟨rfl, rfl⟩ | ⟨h, rfl⟩
  · exact ⟨nofun, rfl⟩
  · exact ⟨nofun, rfl⟩

theorem finite_iff {x : F64} : Span.finite x = true ↔ ∃ a, IsFin x a := by
  cases x with
  | nan => simp [Span.finite, IsFin]
  | inf b => simp [Span.finite, IsFin]
  | negZero => simp [Span.finite, IsFin]
  | fin q h => simp only [Span.finite, true_iff]; exact ⟨q, .inr ⟨h, rfl⟩⟩

theorem IsFin.le_iff {x y : F64} {a b : ℚ} (hx : IsFin x a) (hy : IsFin y b) : le x y = true ↔ a ≤ b := by
  rw [F64.le_iff hx.ext.1 hy.ext.1, hx.ext.2, hy.ext.2]
  exact_mod_cast Iff.rfl

theorem IsFin.between {lo x hi : F64} {a b : ℚ} (hl : IsFin lo a) (hh : IsFin hi b) (h1 : le lo x = true) (h2 : le x hi = true) :
    ∃ q, IsFin x q ∧ a ≤ q ∧ q ≤ b := by
  rcases finite_or (le_not_nan h1).2 with rfl | rfl | ⟨q, -, hq⟩
  · rw [eq_negInf_of_le h1] at hl
    rcases hl with ⟨h, -⟩ | ⟨_, h⟩ <;> cases h
  · rw [eq_posInf_of_le h2] at hh
    rcases hh with ⟨h, -⟩ | ⟨_, h⟩ <;> cases h
  · exact ⟨q, hq, (IsFin.le_iff hl hq).1 h1, (IsFin.le_iff hq hh).1 h2⟩

theorem rat_le {x y : F64} {p q : ℚ} (hx : x ≠ nan ∧ F64.ext x = F64.ext (ofRat false p))
    (hy : y ≠ nan ∧ F64.ext y = F64.ext (ofRat false q)) (h : p ≤ q) : le x y = true := by
  rw [F64.le_iff hx.1 hy.1, hx.2, hy.2]
  exact ext_ofRat_mono h _ _

theorem IsFin.neg {x : F64} {a : ℚ} (h : IsFin x a) : IsFin (F64.neg x) (-a) := ext_neg h

theorem IsFin.sub {x y : F64} {a b : ℚ} (hx : IsFin x a) (hy : IsFin y b) :
    F64.sub x y ≠ nan ∧ F64.ext (F64.sub x y) = F64.ext (ofRat false (a - b)) := by
  rw [sub_eq_add_neg]
  exact add_finite hx hy.neg

theorem IsFin.div {x y : F64} {a b : ℚ} (hx : IsFin x a) (hy : IsFin y b) (h0 : b ≠ 0) :
    F64.div x y ≠ nan ∧ F64.ext (F64.div x y) = F64.ext (ofRat false (a / b)) := by
  rcases hy with ⟨rfl, rfl⟩ | ⟨hb, rfl⟩
  · exact absurd rfl h0
  rcases hx with ⟨rfl, rfl⟩ | ⟨ha, rfl⟩
  · simp only [F64.div, if_neg h0, zero_div, ext_ofRat_exact rep_zero]
    exact ⟨by cases (F64.fin b hb).isNeg <;> simp [zeroOf, zero], ext_zeroOf _⟩
  · simp only [F64.div, if_neg h0]
    exact ⟨ofRat_ne_nan _ _, by rw [ext_ofRat, ext_ofRat]⟩

end F64

/-! ### Spans -/

namespace Spec.Span

theorem least_le {x y : F64} (hx : F64.le x x = true) (hy : F64.le y y = true) :
    F64.le (least x y) x = true ∧ F64.le (least x y) y = true := by
  unfold least
  split_ifs with h
  · exact ⟨hx, h⟩
  · refine ⟨?_, hy⟩
    have h1 := (le_not_nan hx).1
    have h2 := (le_not_nan hy).1
    rw [F64.le_iff h1 h2] at h
    rw [F64.le_iff h2 h1]
    exact _root_.le_of_lt (not_le.1 h)

theorem le_greatest {x y : F64} (hx : F64.le x x = true) (hy : F64.le y y = true) :
    F64.le x (greatest x y) = true ∧ F64.le y (greatest x y) = true := by
  unfold greatest
  split_ifs with h
  · exact ⟨h, hy⟩
  · refine ⟨hx, ?_⟩
    have h1 := (le_not_nan hx).1
    have h2 := (le_not_nan hy).1
    rw [F64.le_iff h1 h2] at h
    rw [F64.le_iff h2 h1]
    exact _root_.le_of_lt (not_le.1 h)

theorem le_self_of_finite {x : F64} (h : finite x = true) : F64.le x x = true := by
  obtain ⟨a, ha⟩ := finite_iff.1 h
  exact F64.le_refl ha.ext.1

theorem of_holds {lo hi x : F64} (h1 : finite lo = true → finite hi = true → F64.le lo x = true)
    (h2 : finite lo = true → finite hi = true → F64.le x hi = true) : (of lo hi).Holds x := by
  unfold of
  split_ifs with h
  · rw [Bool.and_eq_true] at h
    exact ⟨h1 h.1 h.2, h2 h.1 h.2⟩
  · trivial

theorem point_holds (x : F64) : (point x).Holds x :=
  of_holds (fun h _ => le_self_of_finite h) (fun h _ => le_self_of_finite h)

theorem join_left {s s' : Span} {x : F64} (h : s.Holds x) : (s.join s').Holds x := by
  rcases s with _ | ⟨l, u⟩ <;> rcases s' with _ | ⟨l', u'⟩ <;> simp only [join]
  · trivial
  · trivial
  · trivial
  · split_ifs with hc
    · simp only [Bool.and_eq_true] at hc
      obtain ⟨⟨⟨c1, c2⟩, c3⟩, c4⟩ := hc
      exact ⟨F64.le_trans (least_le c1 c2).1 h.1, F64.le_trans h.2 (le_greatest c3 c4).1⟩
    · trivial

theorem join_right {s s' : Span} {x : F64} (h : s'.Holds x) : (s.join s').Holds x := by
  rcases s with _ | ⟨l, u⟩ <;> rcases s' with _ | ⟨l', u'⟩ <;> simp only [join]
  · trivial
  · trivial
  · trivial
  · split_ifs with hc
    · simp only [Bool.and_eq_true] at hc
      obtain ⟨⟨⟨c1, c2⟩, c3⟩, c4⟩ := hc
      exact ⟨F64.le_trans (least_le c1 c2).2 h.1, F64.le_trans h.2 (le_greatest c3 c4).2⟩
    · trivial

/-- What is added to a finite result is finite. -/
theorem finite_add {x y : F64} (h : finite (Arith.add x y) = true) : finite x = true ∧ finite y = true := by
  change finite (F64.add x y) = true at h
  cases x <;> cases y <;> simp_all [F64.add, finite]
  split_ifs at h

theorem add_holds {s s' : Span} {x y : F64} (h : s.Holds x) (h' : s'.Holds y) : (s.add s').Holds (Arith.add x y) := by
  rcases s with _ | ⟨l, u⟩ <;> rcases s' with _ | ⟨l', u'⟩ <;> simp only [add] <;> try trivial
  have key : finite (Arith.add l l') = true → finite (Arith.add u u') = true →
      F64.le (Arith.add l l') (Arith.add x y) = true ∧ F64.le (Arith.add x y) (Arith.add u u') = true := by
    intro h1 h2
    obtain ⟨a, ha⟩ := finite_iff.1 (finite_add h1).1
    obtain ⟨a', ha'⟩ := finite_iff.1 (finite_add h1).2
    obtain ⟨b, hb⟩ := finite_iff.1 (finite_add h2).1
    obtain ⟨b', hb'⟩ := finite_iff.1 (finite_add h2).2
    obtain ⟨p, hp, p1, p2⟩ := IsFin.between ha hb h.1 h.2
    obtain ⟨q, hq, q1, q2⟩ := IsFin.between ha' hb' h'.1 h'.2
    exact ⟨rat_le (add_finite ha ha') (add_finite hp hq) (add_le_add p1 q1),
      rat_le (add_finite hp hq) (add_finite hb hb') (add_le_add p2 q2)⟩
  exact of_holds (fun h1 h2 => (key h1 h2).1) (fun h1 h2 => (key h1 h2).2)

theorem finite_neg {x : F64} (h : finite (F64.neg x) = true) : finite x = true := by
  cases x <;> simp_all [F64.neg, finite]

theorem sub_holds {s s' : Span} {x y : F64} (h : s.Holds x) (h' : s'.Holds y) : (s.sub s').Holds (Arith.sub x y) := by
  rcases s with _ | ⟨l, u⟩ <;> rcases s' with _ | ⟨l', u'⟩ <;> simp only [sub] <;> try trivial
  have key : finite (Arith.sub l u') = true → finite (Arith.sub u l') = true →
      F64.le (Arith.sub l u') (Arith.sub x y) = true ∧ F64.le (Arith.sub x y) (Arith.sub u l') = true := by
    intro h1 h2
    have e1 := finite_add (x := l) (y := F64.neg u') h1
    have e2 := finite_add (x := u) (y := F64.neg l') h2
    obtain ⟨a, ha⟩ := finite_iff.1 e1.1
    obtain ⟨a', ha'⟩ := finite_iff.1 (finite_neg e2.2)
    obtain ⟨b, hb⟩ := finite_iff.1 e2.1
    obtain ⟨b', hb'⟩ := finite_iff.1 (finite_neg e1.2)
    obtain ⟨p, hp, p1, p2⟩ := IsFin.between ha hb h.1 h.2
    obtain ⟨q, hq, q1, q2⟩ := IsFin.between ha' hb' h'.1 h'.2
    exact ⟨rat_le (IsFin.sub ha hb') (IsFin.sub hp hq) (by linarith),
      rat_le (IsFin.sub hp hq) (IsFin.sub hb ha') (by linarith)⟩
  exact of_holds (fun h1 h2 => (key h1 h2).1) (fun h1 h2 => (key h1 h2).2)

/-- A product lies between products of bounds. -/
theorem corner {a b c d p q : ℚ} (h1 : a ≤ p) (h2 : p ≤ b) (h3 : c ≤ q) (h4 : q ≤ d) :
    (a * c ≤ p * q ∨ a * d ≤ p * q ∨ b * c ≤ p * q ∨ b * d ≤ p * q) ∧
    (p * q ≤ a * c ∨ p * q ≤ a * d ∨ p * q ≤ b * c ∨ p * q ≤ b * d) := by
  constructor
  · rcases le_total 0 q with hq | hq
    · have : a * q ≤ p * q := mul_le_mul_of_nonneg_right h1 hq
      rcases le_total 0 a with ha | ha
      · exact .inl ((mul_le_mul_of_nonneg_left h3 ha).trans this)
      · exact .inr (.inl ((mul_le_mul_of_nonpos_left h4 ha).trans this))
    · have : b * q ≤ p * q := mul_le_mul_of_nonpos_right h2 hq
      rcases le_total 0 b with hb | hb
      · exact .inr (.inr (.inl ((mul_le_mul_of_nonneg_left h3 hb).trans this)))
      · exact .inr (.inr (.inr ((mul_le_mul_of_nonpos_left h4 hb).trans this)))
  · rcases le_total 0 q with hq | hq
    · have : p * q ≤ b * q := mul_le_mul_of_nonneg_right h2 hq
      rcases le_total 0 b with hb | hb
      · exact .inr (.inr (.inr (this.trans (mul_le_mul_of_nonneg_left h4 hb))))
      · exact .inr (.inr (.inl (this.trans (mul_le_mul_of_nonpos_left h3 hb))))
    · have : p * q ≤ a * q := mul_le_mul_of_nonpos_right h1 hq
      rcases le_total 0 a with ha | ha
      · exact .inr (.inl (this.trans (mul_le_mul_of_nonneg_left h4 ha)))
      · exact .inl (this.trans (mul_le_mul_of_nonpos_left h3 ha))

theorem corners_holds {op : F64 → F64 → F64} {l h l' h' z : F64}
    (h1 : F64.le (op l l') z = true ∨ F64.le (op l h') z = true ∨ F64.le (op h l') z = true ∨ F64.le (op h h') z = true)
    (h2 : F64.le z (op l l') = true ∨ F64.le z (op l h') = true ∨ F64.le z (op h l') = true ∨ F64.le z (op h h') = true) :
    (corners op (l, h) (l', h')).Holds z := by
  simp only [corners]
  split_ifs with hf
  · simp only [Bool.and_eq_true] at hf
    obtain ⟨⟨⟨f1, f2⟩, f3⟩, f4⟩ := hf
    have s1 := le_self_of_finite f1
    have s2 := le_self_of_finite f2
    have s3 := le_self_of_finite f3
    have s4 := le_self_of_finite f4
    have l1 := least_le s1 s2
    have l2 := least_le s3 s4
    have l3 := least_le (F64.le_refl (le_not_nan l1.1).1) (F64.le_refl (le_not_nan l2.1).1)
    have g1 := le_greatest s1 s2
    have g2 := le_greatest s3 s4
    have g3 := le_greatest (F64.le_refl (le_not_nan g1.1).2) (F64.le_refl (le_not_nan g2.1).2)
    constructor
    · rcases h1 with h | h | h | h
      · exact F64.le_trans l3.1 (F64.le_trans l1.1 h)
      · exact F64.le_trans l3.1 (F64.le_trans l1.2 h)
      · exact F64.le_trans l3.2 (F64.le_trans l2.1 h)
      · exact F64.le_trans l3.2 (F64.le_trans l2.2 h)
    · rcases h2 with h | h | h | h
      · exact F64.le_trans h (F64.le_trans g1.1 g3.1)
      · exact F64.le_trans h (F64.le_trans g1.2 g3.1)
      · exact F64.le_trans h (F64.le_trans g2.1 g3.2)
      · exact F64.le_trans h (F64.le_trans g2.2 g3.2)
  · trivial

theorem mul_holds {s s' : Span} {x y : F64} (h : s.Holds x) (h' : s'.Holds y) : (s.mul s').Holds (Arith.mul x y) := by
  rcases s with _ | ⟨l, u⟩ <;> rcases s' with _ | ⟨l', u'⟩ <;> simp only [mul] <;> try trivial
  split_ifs with hf
  · simp only [Bool.and_eq_true] at hf
    obtain ⟨⟨⟨f1, f2⟩, f3⟩, f4⟩ := hf
    obtain ⟨a, ha⟩ := finite_iff.1 f1
    obtain ⟨b, hb⟩ := finite_iff.1 f2
    obtain ⟨c, hc⟩ := finite_iff.1 f3
    obtain ⟨d, hd⟩ := finite_iff.1 f4
    obtain ⟨p, hp, p1, p2⟩ := IsFin.between ha hb h.1 h.2
    obtain ⟨q, hq, q1, q2⟩ := IsFin.between hc hd h'.1 h'.2
    obtain ⟨k1, k2⟩ := corner p1 p2 q1 q2
    have hz := mul_finite hp hq
    refine corners_holds ?_ ?_
    · exact k1.imp (rat_le (mul_finite ha hc) hz) (.imp (rat_le (mul_finite ha hd) hz)
        (.imp (rat_le (mul_finite hb hc) hz) (rat_le (mul_finite hb hd) hz)))
    · exact k2.imp (rat_le hz (mul_finite ha hc)) (.imp (rat_le hz (mul_finite ha hd))
        (.imp (rat_le hz (mul_finite hb hc)) (rat_le hz (mul_finite hb hd))))
  · trivial

theorem div_holds {s s' : Span} {x y : F64} (h : s.Holds x) (h' : s'.Holds y) : (s.div s').Holds (Arith.div x y) := by
  rcases s with _ | ⟨l, u⟩ <;> rcases s' with _ | ⟨l', u'⟩ <;> simp only [div] <;> try trivial
  split_ifs with hf
  · simp only [Bool.and_eq_true, Bool.or_eq_true] at hf
    obtain ⟨⟨⟨⟨f1, f2⟩, f3⟩, f4⟩, f5⟩ := hf
    obtain ⟨a, ha⟩ := finite_iff.1 f1
    obtain ⟨b, hb⟩ := finite_iff.1 f2
    obtain ⟨c, hc⟩ := finite_iff.1 f3
    obtain ⟨d, hd⟩ := finite_iff.1 f4
    obtain ⟨p, hp, p1, p2⟩ := IsFin.between ha hb h.1 h.2
    obtain ⟨q, hq, q1, q2⟩ := IsFin.between hc hd h'.1 h'.2
    have hs : 0 < c ∨ d < 0 := by
      refine f5.imp (fun h => ?_) (fun h => ?_)
      · rw [arith_lt, F64.lt_iff zero_ne_nan hc.ext.1, ext_zero, hc.ext.2] at h
        exact_mod_cast h
      · rw [arith_lt, F64.lt_iff hd.ext.1 zero_ne_nan, ext_zero, hd.ext.2] at h
        exact_mod_cast h
    have hc0 : c ≠ 0 := by rcases hs with h | h; exact ne_of_gt h; intro e; subst e; linarith
    have hd0 : d ≠ 0 := by rcases hs with h | h; (intro e; subst e; linarith); exact ne_of_lt h
    have hq0 : q ≠ 0 := by rcases hs with h | h <;> (intro e; subst e; linarith)
    have hinv : d⁻¹ ≤ q⁻¹ ∧ q⁻¹ ≤ c⁻¹ := by
      rcases hs with h | h
      · exact ⟨inv_anti₀ (by linarith) q2, inv_anti₀ h q1⟩
      · exact ⟨(inv_le_inv_of_neg h (by linarith)).2 q2, (inv_le_inv_of_neg (by linarith) (by linarith)).2 q1⟩
    obtain ⟨k1, k2⟩ := corner p1 p2 hinv.1 hinv.2
    simp only [← div_eq_mul_inv] at k1 k2
    have hz := IsFin.div hp hq hq0
    have z1 := IsFin.div ha hc hc0
    have z2 := IsFin.div ha hd hd0
    have z3 := IsFin.div hb hc hc0
    have z4 := IsFin.div hb hd hd0
    refine corners_holds ?_ ?_
    · rcases k1 with k | k | k | k
      · exact .inr (.inl (rat_le z2 hz k))
      · exact .inl (rat_le z1 hz k)
      · exact .inr (.inr (.inr (rat_le z4 hz k)))
      · exact .inr (.inr (.inl (rat_le z3 hz k)))
    · rcases k2 with k | k | k | k
      · exact .inr (.inl (rat_le hz z2 k))
      · exact .inl (rat_le hz z1 k)
      · exact .inr (.inr (.inr (rat_le hz z4 k)))
      · exact .inr (.inr (.inl (rat_le hz z3 k)))
  · trivial

theorem ofSpan_holds {s : Span} {x : F64} (h : s.Holds x) : (Region.ofSpan s).Holds (some (.f64 x)) := by
  rcases s with _ | ⟨lo, hi⟩
  · trivial
  · exact ⟨x, rfl, h.1, h.2⟩

theorem number_ofSpan (s : Span) : (Region.ofSpan s).number = s := by
  rcases s with _ | ⟨lo, hi⟩ <;> rfl

end Spec.Span

/-! ### Regions -/

namespace Spec.Region

theorem number_holds {r : Region} {v : Option (GoVal F64)} (h : r.Holds v) : r.number.Holds (v.getD .nil).float64 := by
  cases r with
  | any => trivial
  | absent => trivial
  | is w => rw [show v = some w from h]; exact Span.point_holds _
  | between lo hi =>
    obtain ⟨x, rfl, h1, h2⟩ := h
    exact ⟨h1, h2⟩

theorem join_left {r r' : Region} {v : Option (GoVal F64)} (h : r.Holds v) : (r.join r').Holds v := by
  unfold join
  split <;> try trivial
  · split_ifs with he
    · exact h
    · split <;> try trivial
      rw [show v = some _ from h]
      exact Span.ofSpan_holds (Span.join_left (Span.point_holds _))
  · rw [show v = some _ from h]
    exact Span.ofSpan_holds (Span.join_left (Span.point_holds _))
  · obtain ⟨x, rfl, h1, h2⟩ := h
    exact Span.ofSpan_holds (Span.join_left ⟨h1, h2⟩)
  · obtain ⟨x, rfl, h1, h2⟩ := h
    exact Span.ofSpan_holds (Span.join_left ⟨h1, h2⟩)

theorem join_right {r r' : Region} {v : Option (GoVal F64)} (h : r'.Holds v) : (r.join r').Holds v := by
  unfold join
  split <;> try trivial
  · split_ifs with he
    · rw [he]; exact h
    · split <;> try trivial
      rw [show v = some _ from h]
      exact Span.ofSpan_holds (Span.join_right (Span.point_holds _))
  · obtain ⟨x, rfl, h1, h2⟩ := h
    exact Span.ofSpan_holds (Span.join_right ⟨h1, h2⟩)
  · rw [show v = some _ from h]
    exact Span.ofSpan_holds (Span.join_right (Span.point_holds _))
  · obtain ⟨x, rfl, h1, h2⟩ := h
    exact Span.ofSpan_holds (Span.join_right ⟨h1, h2⟩)

theorem arith_holds {op : F64 → F64 → F64} {span : Span → Span → Span}
    (hs : ∀ {s s' : Span} {x y : F64}, s.Holds x → s'.Holds y → (span s s').Holds (op x y)) {r r' : Region}
    {v w : GoVal F64} (h : r.Holds (some v)) (h' : r'.Holds (some w)) :
    (arith op span r r').Holds (some (.f64 (op v.float64 w.float64))) := by
  unfold arith
  split
  · cases h; cases h'; rfl
  · exact Span.ofSpan_holds (hs (number_holds h) (number_holds h'))

theorem joinAll_holds {v : Option (GoVal F64)} : {rs : List Region} → {r : Region} → r ∈ rs → r.Holds v →
    (joinAll rs).Holds v
  | [], _, h, _ => absurd h (by simp)
  | [r'], r, h, hr => by
    rw [List.mem_singleton] at h; subst h
    exact hr
  | r' :: r'' :: rs, r, h, hr => by
    rw [joinAll]
    · rcases List.mem_cons.mp h with rfl | h
      · exact join_left hr
      · exact join_right (joinAll_holds h hr)
    · simp

theorem entry_holds (v : Option (GoVal F64)) : (entry v).Holds v := by cases v <;> rfl

end Spec.Region

theorem hull_holds : {xs : List F64} → {x : F64} → x ∈ xs → (hull xs).Holds x
  | [], _, h => absurd h (by simp)
  | [y], x, h => by
    rw [List.mem_singleton] at h; subst h
    exact Span.point_holds _
  | y :: y' :: xs, x, h => by
    rw [hull]
    · rcases List.mem_cons.mp h with rfl | h
      · exact Span.join_left (Span.point_holds _)
      · exact Span.join_right (hull_holds h)
    · simp

/-! ### Expressions and derived fields -/

theorem knownRow_spec {B : Box} {row : Row F64} (h : B.Has row) {fs : List String} :
    ∀ {r}, knownRow B fs = some r → ∀ f ∈ fs, row.get f = r[f]? := by
  induction fs with
  | nil => simp
  | cons g fs ih =>
    intro r hr f hf
    simp only [knownRow, List.foldr_cons] at hr
    have hB := h g
    split at hr
    · rename_i r0 h0 hg
      rw [hg] at hB
      cases hr
      by_cases hfg : f = g
      · subst hfg; rw [show row.get f = none from hB]; simp
      · have := ih h0 f (by simpa [hfg] using hf)
        rw [this, Std.ExtTreeMap.getElem?_erase]
        simp [Ne.symm hfg]
    · rename_i r0 v h0 hg
      rw [hg] at hB
      cases hr
      by_cases hfg : f = g
      · subst hfg; rw [show row.get f = some v from hB]; simp
      · have := ih h0 f (by simpa [hfg] using hf)
        rw [this, Std.ExtTreeMap.getElem?_insert]
        simp [Ne.symm hfg]
    · cases hr

theorem mapValues_known {B : Box} {row : Row F64} (h : B.Has row) {m : MapValues F64} {r}
    (hr : knownRow B (m.fieldColumnPairs.map (·.field)) = some r) :
    handleMapValues m row = handleMapValues m (some r) := by
  have : mapColumns m.fieldColumnPairs row = mapColumns m.fieldColumnPairs (some r) :=
    Props.mapColumns_congr _ (fun p hp => by
      rw [knownRow_spec h hr p.field (List.mem_map_of_mem hp)]; rfl)
  simp only [handleMapValues, this]

mutual
theorem exprRegion_holds {B : Box} {row : Row F64} (h : B.Has row) : (e : Expr F64) → ∀ {v},
    handleExpression row e = .ok v → (exprRegion B e).Holds (some v)
  | .fieldRef f, v, hv => by
    simp only [handleExpression, Except.ok.injEq] at hv
    subst hv
    have hB := h f
    rw [exprRegion]
    split
    · rename_i hf
      rw [hf] at hB
      rw [Row.getD, show row.get f = none from hB]; rfl
    · rename_i hf
      rw [Row.getD]
      generalize row.get f = w at hB
      cases w with
      | some w => exact hB
      | none =>
        cases hr : B f with
        | any => trivial
        | absent => exact absurd hr hf
        | is u => rw [hr] at hB; cases hB
        | between lo hi => rw [hr] at hB; obtain ⟨x, hx, -⟩ := hB; cases hx
  | .const dt t, v, hv => by
    simp only [handleExpression] at hv
    simp only [exprRegion, hv]
    rfl
  | .mapValues m, v, hv => by
    simp only [handleExpression] at hv
    rw [exprRegion]
    split
    · trivial
    · rename_i r hr
      rw [← mapValues_known h hr, hv]
      rfl
  | .other k, v, hv => by rw [exprRegion]; trivial
  | .apply fn args, v, hv => by
    unfold handleExpression at hv
    unfold exprRegion
    by_cases h1 : fn = "sum"
    · rw [if_pos h1] at hv ⊢
      cases hs : sumLoop row Arith.zero args with
      | error e => rw [hs] at hv; cases hv
      | ok s =>
        rw [hs] at hv
        cases hv
        exact sumRegion_holds h args (r := .is (.f64 Arith.zero)) rfl hs
    rw [if_neg h1] at hv ⊢
    by_cases h2 : fn = "*" ∨ fn = "+" ∨ fn = "-" ∨ fn = "/"
    · rw [if_pos h2] at hv ⊢
      match args, hv with
      | [a, b], hv =>
        simp only at hv ⊢
        cases ha : handleExpression row a with
        | error e => rw [ha] at hv; cases hv
        | ok x =>
          cases hb : handleExpression row b with
          | error e => rw [ha, hb] at hv; cases hv
          | ok y =>
            rw [ha, hb] at hv
            have ia := exprRegion_holds h a ha
            have ib := exprRegion_holds h b hb
            simp only [bind, Except.bind] at hv
            split_ifs at hv ⊢ <;> cases hv
            · exact Region.arith_holds Span.mul_holds ia ib
            · exact Region.arith_holds Span.add_holds ia ib
            · exact Region.arith_holds Span.sub_holds ia ib
            · exact Region.arith_holds Span.div_holds ia ib
      | [], hv => cases hv
      | [_], hv => cases hv
      | _ :: _ :: _ :: _, hv => cases hv
    rw [if_neg h2] at hv ⊢
    by_cases h3 : fn = "isMissing" ∨ fn = "isNotMissing"
    · rw [if_pos h3]
      match args with
      | [a] =>
        simp only at hv ⊢
        cases ha : handleExpression row a with
        | error e => rw [ha] at hv; rcases h3 with rfl | rfl <;> simp [bind, Except.bind] at hv
        | ok x =>
          have ia := exprRegion_holds h a ha
          rw [ha] at hv
          cases hr : exprRegion B a with
          | any => trivial
          | absent => trivial
          | is w =>
            rw [hr] at ia
            cases ia
            rcases h3 with rfl | rfl <;> simp [bind, Except.bind, pure, Except.pure] at hv <;> subst hv <;>
              cases x <;> rfl
          | between lo hi =>
            rw [hr] at ia
            obtain ⟨y, hy, -⟩ := ia
            cases hy
            rcases h3 with rfl | rfl <;> simp [bind, Except.bind, pure, Except.pure] at hv <;> subst hv <;> rfl
      | [] => trivial
      | _ :: _ :: _ => trivial
    rw [if_neg h3]
    rw [not_or] at h3
    rw [if_neg h3.1, if_neg h3.2] at hv
    by_cases h4 : fn = "if"
    · rw [if_pos h4] at hv ⊢
      match args, hv with
      | [c, a, b], hv =>
        simp only at hv ⊢
        cases hc : handleExpression row c with
        | error e => rw [hc] at hv; cases hv
        | ok x =>
          rw [hc] at hv
          have ic := exprRegion_holds h c hc
          simp only [bind, Except.bind] at hv
          split
          · rename_i w hw
            rw [hw] at ic
            cases ic
            split_ifs at hv ⊢
            · exact exprRegion_holds h a hv
            · exact exprRegion_holds h b hv
          · split_ifs at hv
            · exact Region.join_left (exprRegion_holds h a hv)
            · exact Region.join_right (exprRegion_holds h b hv)
      | [], hv => cases hv
      | [_], hv => cases hv
      | [_, _], hv => cases hv
      | _ :: _ :: _ :: _ :: _, hv => cases hv
    · rw [if_neg h4]; trivial
theorem sumRegion_holds {B : Box} {row : Row F64} (h : B.Has row) : (es : List (Expr F64)) → ∀ {r : Region} {s t : F64},
    r.Holds (some (.f64 s)) → sumLoop row s es = .ok t → (sumRegion B r es).Holds (some (.f64 t))
  | [], r, s, t, hr, hs => by
    simp only [sumLoop, Except.ok.injEq] at hs
    subst hs
    rw [sumRegion]; exact hr
  | e :: es, r, s, t, hr, hs => by
    rw [sumLoop] at hs
    rw [sumRegion]
    cases he : handleExpression row e with
    | error e => rw [he] at hs; cases hs
    | ok v =>
      rw [he] at hs
      exact sumRegion_holds h es (Region.arith_holds Span.add_holds hr (exprRegion_holds h e he)) hs
end

theorem storeRegion_holds {r : Region} {v : GoVal F64} (h : r.Holds (some v)) (op : OpType) :
    (storeRegion op r).Holds (some (storeValue op v)) := by
  cases op with
  | other s => cases r <;> exact h
  | continuous =>
    cases r with
    | any => trivial
    | absent => cases h
    | is w => cases h; rfl
    | between lo hi =>
      obtain ⟨x, hx, h1, h2⟩ := h
      cases hx
      exact ⟨x, rfl, h1, h2⟩

theorem set_has {B : Box} {row row' : Row F64} (h : B.Has row) {f : String} {v : GoVal F64}
    (hs : row.set f v = .ok row') {r : Region} (hr : r.Holds (some v)) : (B.set f r).Has row' := by
  cases row with
  | none => cases hs
  | some m =>
    cases hs
    intro g
    unfold Box.set
    split_ifs with hg
    · subst hg; simpa [Row.get] using hr
    · have := h g
      simp only [Row.get, Option.bind_some] at this ⊢
      rw [Std.ExtTreeMap.getElem?_insert]
      simpa [Ne.symm hg] using this

theorem derivedBox_has : (dfs : List (DerivedField F64)) → ∀ {B : Box} {row row' : Row F64}, B.Has row →
    handleInput dfs row = (.ok (), row') → (derivedBox dfs B).Has row'
  | [], B, row, row', h, hi => by
    simp only [handleInput, Prod.mk.injEq, true_and] at hi
    subst hi
    exact h
  | df :: dfs, B, row, row', h, hi => by
    rw [handleInput] at hi
    cases he : handleExpression row df.expr with
    | error e => rw [he] at hi; simp at hi
    | ok v =>
      rw [he] at hi
      simp only at hi
      cases hs : row.set df.name (storeValue df.opType v) with
      | error e => rw [hs] at hi; simp at hi
      | ok row1 =>
        rw [hs] at hi
        rw [derivedBox]
        exact derivedBox_has dfs (set_has h hs (storeRegion_holds (exprRegion_holds h _ he) _)) hi

theorem imputedBox_has {B : Box} {h : MiningHead F64} {row row2 : Row F64} (hB : B.Has row)
    (hp : Prepared h row (.ok ()) row2) :
    (derivedBox h.localTransformations (imputedBox h.miningFields B)).Has row2 := by
  cases hp with
  | nilRow hn hi =>
    refine derivedBox_has _ (fun f => ?_) hi
    simp only [imputedBox, hn f]
    exact hB f
  | @row row row1 _ _ hm hi =>
    refine derivedBox_has _ (fun f => ?_) hi
    have hf := hB f
    simp only [Row.get, Option.bind_some] at hf ⊢
    rw [hm f]
    unfold imputedBox
    cases replacement h.miningFields f with
    | none => exact hf
    | some t =>
      cases hr : B f with
      | any => trivial
      | absent => rw [hr] at hf; rw [show row[f]? = none from hf]; rfl
      | is w =>
        rw [hr] at hf
        rw [show row[f]? = some w from hf]
        cases w <;> rfl
      | between lo hi =>
        rw [hr] at hf
        obtain ⟨x, hx, h1⟩ := hf
        rw [hx]
        exact ⟨x, rfl, h1⟩

/-! ### Outlook -/

theorem written_has {a : Outlook} {B : Box} {out : Out F64} {row row' : Row F64} (ha : a.Holds out) (hB : B.Has row)
    (he : Extended row (out.getD ∅) row') : (a.written B).Has row' := by
  intro f
  have hf := hB f
  rw [he.2.2 f]
  unfold Outlook.written
  cases out with
  | none =>
    have hn : a.none = true := ha
    simp only [Option.getD_none, Std.ExtTreeMap.getElem?_empty, hn, if_true]
    cases a.entry f with
    | any => trivial
    | absent => exact hf
    | is w => exact Region.join_left hf
    | between lo hi => exact Region.join_left hf
  | some out =>
    have hk := ha f
    simp only [Option.getD_some]
    cases hr : a.entry f with
    | any => trivial
    | absent => rw [hr] at hk; rw [show out[f]? = none from hk]; exact hf
    | is w =>
      rw [hr] at hk
      rw [show out[f]? = some w from hk]
      dsimp only
      split_ifs
      · exact Region.join_right (r' := .is w) rfl
      · rfl
    | between lo hi =>
      rw [hr] at hk
      obtain ⟨x, hx, h1⟩ := hk
      rw [hx]
      dsimp only
      split_ifs
      · exact Region.join_right (r' := .between lo hi) ⟨x, rfl, h1⟩
      · exact ⟨x, rfl, h1⟩

theorem addSpan_holds {key : String} {s : Span} {x : F64} (hs : s.Holds x) {a : Outlook} {out : Out F64}
    (ha : a.Holds out) : (addSpan key s a).Holds
      (match (out.bind fun m => m[key]?).map GoVal.float64 with | some y => Arith.add x y | none => x) := by
  unfold addSpan
  cases out with
  | none =>
    have hn : a.none = true := ha
    simp only [Option.bind_none, Option.map_none, hn, if_true]
    split
    · exact hs
    · exact Span.join_left hs
  | some out =>
    have hk := ha key
    simp only [Option.bind_some]
    cases hv : out[key]? with
    | none =>
      rw [hv] at hk
      simp only [Option.map_none]
      cases hr : a.entry key with
      | absent => exact hs
      | any =>
        simp only [Region.number]
        split_ifs
        · exact Span.join_left hs
        · rcases s with _ | s <;> trivial
      | is w => rw [hr] at hk; cases hk
      | between lo hi => rw [hr] at hk; obtain ⟨y, hy, -⟩ := hk; cases hy
    | some v =>
      rw [hv] at hk
      simp only [Option.map_some]
      have hn := Region.number_holds hk
      simp only [Option.getD_some] at hn
      split
      · rename_i hr; rw [hr] at hk; cases hk
      · split_ifs
        · exact Span.join_right (Span.add_holds hs hn)
        · exact Span.add_holds hs hn

theorem sumSpan_holds (key : String) {as : List Outlook} {outs : List (Out F64)} (h : List.Forall₂ Outlook.Holds as outs) :
    ∀ {s : Span} {x : F64}, s.Holds x → (as.foldl (addSpan key) s).Holds
      ((outs.filterMap fun out => (out.bind fun m => m[key]?).map GoVal.float64).foldl Arith.add x) := by
  induction h with
  | nil => intro s x hs; exact hs
  | @cons a out as outs ha _ ih =>
    intro s x hs
    rw [List.foldl_cons, List.filterMap_cons]
    have := addSpan_holds (key := key) hs ha
    cases hv : (out.bind fun m => m[key]?).map GoVal.float64 with
    | none => rw [hv] at this; exact ih this
    | some y => rw [hv] at this; exact ih this

theorem rescaledSpan_holds : (ts : List (Target F64)) → ∀ {s : Span} {x : F64}, s.Holds x →
    (rescaledSpan s ts).Holds (rescaled x ts)
  | [], s, x, h => h
  | t :: ts, s, x, h => by
    rw [rescaledSpan, rescaled]
    refine rescaledSpan_holds ts ?_
    cases t.rescaleFactor with
    | none =>
      cases t.rescaleConstant with
      | none => exact h
      | some k => exact Span.add_holds h (Span.point_holds k)
    | some f =>
      cases t.rescaleConstant with
      | none => exact Span.mul_holds h (Span.point_holds f)
      | some k => exact Span.add_holds (Span.mul_holds h (Span.point_holds f)) (Span.point_holds k)

theorem ensembleSpan_holds {h : MiningHead F64} {as : List Outlook} {outs : List (Out F64)}
    (ha : List.Forall₂ Outlook.Holds as outs) (k : String) :
    (rescaledSpan (as.foldl (addSpan (if h.functionName = .classification then k else "score"))
      (.point Arith.zero)) (h.targets.filter (fun t => t.field = k))).Holds (ensembleSum h outs k) := by
  unfold ensembleSum
  refine rescaledSpan_holds _ ?_
  unfold sum
  unfold contribution
  generalize hz : (Arith.zero : F64) = z
  exact sumSpan_holds _ ha (Span.point_holds z)

theorem sumAnswers_holds {h : MiningHead F64} {as : List Outlook} {outs : List (Out F64)}
    (ha : List.Forall₂ Outlook.Holds as outs) {out : GoMap (GoVal F64)}
    (ho : ∀ k, out[k]? = if k ∈ ensembleKeys h then some (.f64 (ensembleSum h outs k)) else none) :
    (sumAnswers h as).Holds (some out) := by
  intro k
  rw [ho k]
  unfold sumAnswers
  dsimp only
  by_cases hk : k ∈ ensembleKeys h
  · rw [if_pos hk, if_pos hk]
    exact Span.ofSpan_holds (ensembleSpan_holds ha k)
  · rw [if_neg hk, if_neg hk]; exact rfl

theorem averageAnswers_holds {h : MiningHead F64} {n : Nat} {as : List Outlook} {outs : List (Out F64)}
    (ha : List.Forall₂ Outlook.Holds as outs) {out : GoMap (GoVal F64)}
    (ho : ∀ k, out[k]? = if k ∈ ensembleKeys h then
      some (.f64 (Arith.div (ensembleSum h outs k) (Arith.ofInt n))) else none) :
    (averageAnswers h n as).Holds (some out) := by
  intro k
  rw [ho k]
  unfold averageAnswers
  dsimp only
  by_cases hk : k ∈ ensembleKeys h
  · rw [if_pos hk, if_pos hk]
    refine Span.ofSpan_holds (Span.div_holds ?_ (Span.point_holds _))
    unfold sumAnswers
    simp only [if_pos hk, Span.number_ofSpan]
    exact ensembleSpan_holds ha k
  · rw [if_neg hk, if_neg hk]; exact rfl

theorem linearSpan_holds {B : Box} {row : Row F64} (h : B.Has row) (t : RegressionTable F64) :
    (linearSpan B t).Holds (linear row t) := by
  unfold linearSpan linear
  have : ∀ (l : List (NumericPredictor F64)) {s : Span} {x : F64}, s.Holds x →
      (l.foldl (fun s np => s.add (.mul (.point np.coefficient) (B np.name).number)) s).Holds
        ((l.map fun np => Arith.mul np.coefficient (valueOf row np.name)).foldl Arith.add x) := by
    intro l
    induction l with
    | nil => intro s x hs; exact hs
    | cons np l ih =>
      intro s x hs
      exact ih (Span.add_holds hs (Span.mul_holds (Span.point_holds _) (Region.number_holds (h np.name))))
  exact this _ (Span.point_holds _)

end Gopmml
