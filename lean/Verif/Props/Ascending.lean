import Verif.Spec.Ascending
import Verif.Spec.Reached
import Verif.Model.Samples
import Verif.Props.Range
import Verif.Props.Strategies
import Verif.Props.ModelFrame
import Verif.Props.Ensemble
import Verif.Proofs.Forms

/-!
# Property C88: forests that ascend with a field

A regression tree whose splits on a field send larger numbers to larger scores never answers less for a
larger number, and neither does a sum or average of such trees, in float64 arithmetic.
-/

namespace Gopmml.Props
open Gopmml Spec F64

variable {dd : List DataField}

/-! ### Tests -/

theorem lt_of_lt_le {a b c : F64} (h : Arith.lt a b = true) (h' : Arith.le b c = true) : Arith.lt a c = true := by
  have hb := le_not_nan h'
  have ha : a ≠ nan := by
    rintro rfl
    have : lt nan b = true := h
    simp at this
  by_contra hc
  have h1 : le c a = true := by
    rw [le_eq_not_lt hb.2 ha]
    have : lt a c = false := Bool.eq_false_iff.2 hc
    simp [this]
  have h2 : le b a = true := F64.le_trans h' h1
  rw [le_eq_not_lt hb.1 ha] at h2
  have h3 : lt a b = true := h
  simp [h3] at h2

theorem lt_of_le_lt {a b c : F64} (h : Arith.le a b = true) (h' : Arith.lt b c = true) : Arith.lt a c = true := by
  have hb := le_not_nan h
  have hcn : c ≠ nan := by
    rintro rfl
    have : lt b nan = true := h'
    simp at this
  by_contra hc
  have h1 : le c a = true := by
    rw [le_eq_not_lt hcn hb.1]
    have : lt a c = false := Bool.eq_false_iff.2 hc
    simp [this]
  have h2 : le c b = true := F64.le_trans h1 h
  rw [le_eq_not_lt hcn hb.2] at h2
  have h3 : lt b c = true := h'
  simp [h3] at h2

/-- The larger number satisfies an upward test if the smaller one does. -/
theorem satisfies_up {dt : DataType} {op : SimpleOp} (hop : Towards true op) (text : String) {v v' : GoVal F64}
    (h : NotLess dt v v') (hs : satisfies dt op text v = true) : satisfies dt op text v' = true := by
  cases op with
  | greaterThan =>
    cases dt with
    | double =>
      simp only [satisfies, floatCmp] at hs ⊢
      cases hp : Lib.parseFloat (F := F64) text with
      | none => rw [hp] at hs; simp at hs
      | some c => rw [hp] at hs; exact lt_of_lt_le hs h
    | float =>
      simp only [satisfies, floatCmp] at hs ⊢
      cases hp : Lib.parseFloat (F := F64) text with
      | none => rw [hp] at hs; simp at hs
      | some c => rw [hp] at hs; exact lt_of_lt_le hs h
    | integer =>
      simp only [satisfies, intCmp] at hs ⊢
      cases hp : parseInt text with
      | none => rw [hp] at hs; simp at hs
      | some c =>
        rw [hp] at hs
        have : v.int64 ≤ v'.int64 := h
        simp only [decide_eq_true_eq] at hs ⊢
        omega
    | _ => simp [satisfies] at hs
  | greaterOrEqual =>
    cases dt with
    | double =>
      simp only [satisfies, floatCmp] at hs ⊢
      cases hp : Lib.parseFloat (F := F64) text with
      | none => rw [hp] at hs; simp at hs
      | some c => rw [hp] at hs; exact F64.le_trans hs h
    | float =>
      simp only [satisfies, floatCmp] at hs ⊢
      cases hp : Lib.parseFloat (F := F64) text with
      | none => rw [hp] at hs; simp at hs
      | some c => rw [hp] at hs; exact F64.le_trans hs h
    | integer =>
      simp only [satisfies, intCmp] at hs ⊢
      cases hp : parseInt text with
      | none => rw [hp] at hs; simp at hs
      | some c =>
        rw [hp] at hs
        have : v.int64 ≤ v'.int64 := h
        simp only [decide_eq_true_eq] at hs ⊢
        omega
    | _ => simp [satisfies] at hs
  | lessThan => exact absurd hop (by simp [Towards])
  | lessOrEqual => exact absurd hop (by simp [Towards])
  | equal => exact hop.elim
  | notEqual => exact hop.elim
  | isMissing => exact hs
  | isNotMissing => exact hs
  | other s => exact hs

/-- The smaller number satisfies a downward test if the larger one does. -/
theorem satisfies_down {dt : DataType} {op : SimpleOp} (hop : Towards false op) (text : String) {v v' : GoVal F64}
    (h : NotLess dt v v') (hs : satisfies dt op text v' = true) : satisfies dt op text v = true := by
  cases op with
  | lessThan =>
    cases dt with
    | double =>
      simp only [satisfies, floatCmp] at hs ⊢
      cases hp : Lib.parseFloat (F := F64) text with
      | none => rw [hp] at hs; simp at hs
      | some c => rw [hp] at hs; exact lt_of_le_lt h hs
    | float =>
      simp only [satisfies, floatCmp] at hs ⊢
      cases hp : Lib.parseFloat (F := F64) text with
      | none => rw [hp] at hs; simp at hs
      | some c => rw [hp] at hs; exact lt_of_le_lt h hs
    | integer =>
      simp only [satisfies, intCmp] at hs ⊢
      cases hp : parseInt text with
      | none => rw [hp] at hs; simp at hs
      | some c =>
        rw [hp] at hs
        have : v.int64 ≤ v'.int64 := h
        simp only [decide_eq_true_eq] at hs ⊢
        omega
    | _ => simp [satisfies] at hs
  | lessOrEqual =>
    cases dt with
    | double =>
      simp only [satisfies, floatCmp] at hs ⊢
      cases hp : Lib.parseFloat (F := F64) text with
      | none => rw [hp] at hs; simp at hs
      | some c => rw [hp] at hs; exact F64.le_trans h hs
    | float =>
      simp only [satisfies, floatCmp] at hs ⊢
      cases hp : Lib.parseFloat (F := F64) text with
      | none => rw [hp] at hs; simp at hs
      | some c => rw [hp] at hs; exact F64.le_trans h hs
    | integer =>
      simp only [satisfies, intCmp] at hs ⊢
      cases hp : parseInt text with
      | none => rw [hp] at hs; simp at hs
      | some c =>
        rw [hp] at hs
        have : v.int64 ≤ v'.int64 := h
        simp only [decide_eq_true_eq] at hs ⊢
        omega
    | _ => simp [satisfies] at hs
  | greaterThan => exact absurd hop (by simp [Towards])
  | greaterOrEqual => exact absurd hop (by simp [Towards])
  | equal => exact hop.elim
  | notEqual => exact hop.elim
  | isMissing => exact hs
  | isNotMissing => exact hs
  | other s => exact hs

section
variable {F : Type}

/-- `b` is true whenever `a` is, and unknown exactly if `a` is. -/
def Leaf (a b : PredRes) : Prop := (a = .t → b = .t) ∧ (a = .u ↔ b = .u)

theorem firstKnown_follows {l l' : List PredRes} (h : List.Forall₂ Leaf l l') (ht : firstKnown l = .t) :
    firstKnown l' = .t := by
  induction h with
  | nil => exact ht
  | @cons a b l l' h1 _ ih =>
    unfold firstKnown at ht ih ⊢
    by_cases ha : a = .u
    · have hb := h1.2.1 ha
      subst ha hb
      simpa using ih (by simpa using ht)
    · have hb : b ≠ .u := fun h => ha (h1.2.2 h)
      rw [List.find?_cons_of_pos (by simpa using ha)] at ht
      rw [List.find?_cons_of_pos (by simpa using hb)]
      exact h1.1 ht

theorem all3_eq_t {l : List PredRes} : all3 l = .t ↔ ∀ a ∈ l, a = .t := by
  unfold all3
  constructor
  · intro h
    split_ifs at h with h1 h2
    intro a ha
    cases a with
    | t => rfl
    | f => exact absurd ha h1
    | u => exact absurd ha h2
  · intro h
    rw [if_neg (fun hf => by have := h _ hf; simp at this), if_neg (fun hf => by have := h _ hf; simp at this)]

theorem any3_eq_t {l : List PredRes} : any3 l = .t ↔ .t ∈ l := by
  unfold any3
  split_ifs with h1 h2 <;> simp [h1]

theorem followsAll_iff {up : Bool} {x : String} {ps : List (Pred F)} :
    Follows.FollowsAll up x ps ↔ ∀ p ∈ ps, Follows up x p := by
  induction ps with
  | nil => simp [Follows.FollowsAll]
  | cons p ps ih => simp [Follows.FollowsAll, ih]

mutual
/-- The truth of predicates follows that of their leaves. -/
theorem operand_follows {up : Bool} {x : String} {leaf leaf' : SimplePred F → PredRes}
    (hx : ∀ s, (s.field = x → Towards up s.op) → Leaf (leaf s) (leaf' s))
    (hs : ∀ s, s.field ≠ x → leaf s = leaf' s) : ∀ p : Pred F, Follows up x p →
    operandValue leaf p = .t → operandValue leaf' p = .t
  | .true_, _, h => by simp [operandValue] at h
  | .false_, _, h => by simp [operandValue] at h
  | .set _, _, h => by simp [operandValue] at h
  | .simple s, hf, h => by
    simp only [operandValue] at h ⊢
    exact (hx s hf).1 h
  | .compound .and ps, hf, h => by
    simp only [operandValue, combine, all3_eq_t] at h ⊢
    exact operands_follow_all hx hs ps hf h
  | .compound .or ps, hf, h => by
    simp only [operandValue, combine, any3_eq_t] at h ⊢
    exact operands_follow_any hx hs ps hf h
  | .compound .surrogate ps, hf, h => by
    simp only [operandValue, combine] at h ⊢
    simp only [Follows] at hf
    refine firstKnown_follows ?_ h
    obtain ⟨h1, h2⟩ := hf
    rw [followsAll_iff] at h2
    clear h
    induction ps with
    | nil => exact .nil
    | cons p ps ih =>
      obtain ⟨s, rfl⟩ := h1 p (by simp)
      simp only [operandValue.operandValues]
      refine .cons ?_ (ih (fun q hq => h1 q (by simp [hq])) (fun q hq => h2 q (by simp [hq])))
      simp only [operandValue]
      exact hx s (h2 (.simple s) (by simp) : Follows up x (.simple s))
  | .compound .xor ps, hf, h => by
    simp only [operandValue] at h ⊢
    rw [← operands_same hs ps hf]; exact h
  | .compound (.other o) ps, hf, h => by
    simp only [operandValue, combine] at h
    exact absurd h (by simp)
theorem operands_follow_all {up : Bool} {x : String} {leaf leaf' : SimplePred F → PredRes}
    (hx : ∀ s, (s.field = x → Towards up s.op) → Leaf (leaf s) (leaf' s))
    (hs : ∀ s, s.field ≠ x → leaf s = leaf' s) : ∀ ps : List (Pred F), Follows.FollowsAll up x ps →
    (∀ a ∈ operandValue.operandValues leaf ps, a = .t) → ∀ a ∈ operandValue.operandValues leaf' ps, a = .t
  | [], _, _ => by simp [operandValue.operandValues]
  | p :: ps, hf, h => by
    simp only [operandValue.operandValues, List.mem_cons, forall_eq_or_imp] at h ⊢
    exact ⟨operand_follows hx hs p hf.1 h.1, operands_follow_all hx hs ps hf.2 h.2⟩
theorem operands_follow_any {up : Bool} {x : String} {leaf leaf' : SimplePred F → PredRes}
    (hx : ∀ s, (s.field = x → Towards up s.op) → Leaf (leaf s) (leaf' s))
    (hs : ∀ s, s.field ≠ x → leaf s = leaf' s) : ∀ ps : List (Pred F), Follows.FollowsAll up x ps →
    .t ∈ operandValue.operandValues leaf ps → .t ∈ operandValue.operandValues leaf' ps
  | [], _, h => by simp [operandValue.operandValues] at h
  | p :: ps, hf, h => by
    simp only [operandValue.operandValues, List.mem_cons] at h ⊢
    rcases h with h | h
    · exact .inl (operand_follows hx hs p hf.1 h.symm).symm
    · exact .inr (operands_follow_any hx hs ps hf.2 h)
theorem operand_same {x : String} {leaf leaf' : SimplePred F → PredRes}
    (hs : ∀ s, s.field ≠ x → leaf s = leaf' s) : ∀ p : Pred F, x ∉ predFields p →
    operandValue leaf p = operandValue leaf' p
  | .true_, _ => by simp [operandValue]
  | .false_, _ => by simp [operandValue]
  | .set _, _ => by simp [operandValue]
  | .simple s, h => by
    simp only [operandValue]
    exact hs s (fun e => h (by simp [predFields, e]))
  | .compound op ps, h => by
    simp only [operandValue]
    rw [operands_same hs ps (by simpa [predFields] using h)]
theorem operands_same {x : String} {leaf leaf' : SimplePred F → PredRes}
    (hs : ∀ s, s.field ≠ x → leaf s = leaf' s) : ∀ ps : List (Pred F), x ∉ predFields.predsFields ps →
    operandValue.operandValues leaf ps = operandValue.operandValues leaf' ps
  | [], _ => rfl
  | p :: ps, h => by
    simp only [predFields.predsFields, List.mem_append, not_or] at h
    simp only [operandValue.operandValues]
    rw [operand_same hs p h.1, operands_same hs ps h.2]
end

theorem test_follows {up : Bool} {x : String} {leaf leaf' : SimplePred F → PredRes}
    (hx : ∀ s, (s.field = x → Towards up s.op) → Leaf (leaf s) (leaf' s))
    (hs : ∀ s, s.field ≠ x → leaf s = leaf' s) (p : Pred F) (hf : Follows up x p)
    (h : testValue leaf p = .t) : testValue leaf' p = .t := by
  cases p with
  | true_ => rfl
  | false_ => simp [testValue] at h
  | simple s => exact operand_follows hx hs _ hf h
  | compound op ps => exact operand_follows hx hs _ hf h
  | set s => exact operand_follows hx hs _ hf h

/-- `T` and `T'` are the tests on two rows: what follows `up` stays true, what follows down was true. -/
structure Moves (x : String) (T T' : Node F → PredRes) : Prop where
  up : ∀ n, NodeFollows true x n → T n = .t → T' n = .t
  down : ∀ n, NodeFollows false x n → T' n = .t → T n = .t

theorem firstTrue_ascends [Arith F] [Lib F] {dt : Option DataType} {x : String} {num : Node F → Option F}
    {T T' : Node F → PredRes} (hm : Moves x T T') (hst : ∀ n, (∀ c ∈ n.nodes, T c ≠ .t) → MayStop dt x n)
    (hst' : ∀ n, (∀ c ∈ n.nodes, T' c ≠ .t) → MayStop dt x n) {n r : Node F} (h : FirstTrue T n r) : Ascending dt x num n →
    ∀ {r'}, FirstTrue T' n r' → (∀ y y', r = r' → num r = some y → num r' = some y' → Arith.le y y' = true) →
    ∀ y y', num r = some y → num r' = some y' → Arith.le y y' = true := by
  induction h with
  | @stop n hn =>
    intro ha r' h' hrefl y y' hy hy'
    cases h' with
    | stop hn' => exact hrefl y y' rfl hy hy'
    | @step _ c _ pre post he hp hc hr =>
      cases ha with
      | node hch hpw hown =>
        have hmem : c ∈ n.nodes := by rw [he]; simp
        rcases (hown (hst n hn) c hmem).2 with hd | ho
        · exact absurd (hm.down c hd hc) (hn c hmem)
        · exact ho _ (firstTrue_sub hr) y' hy' y hy
  | @step n c r pre post he hp hc hr ih =>
    intro ha r' h' hrefl y y' hy hy'
    cases ha with
    | node hch hpw hown =>
      have hmem : c ∈ n.nodes := by rw [he]; simp
      cases h' with
      | stop hn' =>
        rcases (hown (hst' n hn') c hmem).1 with hu | ho
        · exact absurd (hm.up c hu hc) (hn' c hmem)
        · exact ho _ (firstTrue_sub hr) y hy y' hy'
      | @step _ c' _ pre' post' he' hp' hc' hr' =>
        have hcmp := he.symm.trans he'
        rw [List.append_eq_append_iff] at hcmp
        rcases hcmp with ⟨l, h1, h2⟩ | ⟨l, h1, h2⟩
        · cases l with
          | nil =>
            simp only [List.nil_append, List.cons.injEq] at h2
            obtain ⟨rfl, -⟩ := h2
            exact ih (hch c hmem) hr' hrefl y y' hy hy'
          | cons a l =>
            simp only [List.cons_append, List.cons.injEq] at h2
            obtain ⟨rfl, h2⟩ := h2
            -- `c` comes before `c'`
            have hc0 : T' c ≠ .t := hp' c (by rw [h1]; simp)
            rw [he, List.pairwise_append] at hpw
            have hb := (List.pairwise_cons.1 hpw.2.1).1 c' (by rw [h2]; simp)
            rcases hb.1 with hu | hb
            · exact absurd (hm.up c hu hc) hc0
            · exact hb _ (firstTrue_sub hr) _ (firstTrue_sub hr') y hy y' hy'
        · cases l with
          | nil =>
            simp only [List.nil_append, List.cons.injEq] at h2
            obtain ⟨rfl, -⟩ := h2
            exact ih (hch _ hmem) hr' hrefl y y' hy hy'
          | cons a l =>
            simp only [List.cons_append, List.cons.injEq] at h2
            obtain ⟨rfl, h2⟩ := h2
            -- `c'` comes before `c`
            have hc0 : T c' ≠ .t := hp c' (by rw [h1]; simp)
            rw [he', List.pairwise_append] at hpw
            have hb := (List.pairwise_cons.1 hpw.2.1).1 c (by rw [h2]; simp)
            rcases hb.2 with hd | hb
            · exact absurd (hm.down c' hd hc') hc0
            · exact hb _ (firstTrue_sub hr) _ (firstTrue_sub hr') y hy y' hy'

end

/-! ### Rows -/

section
variable {F : Type} [Arith F] [Lib F]

/-- Derived fields that leave `x` alone are computed alike, and the second row still has the larger
number. -/
theorem handleInput_larger {dts : DataType → Prop} {x : String} {dfs : List (DerivedField F)} (hu : Untouched x dfs)
    {r r' : GoMap (GoVal F)} (hl : Larger dts x r r') :
    (handleInput dfs (some r)).1 = (handleInput dfs (some r')).1 ∧
    ∃ q q', (handleInput dfs (some r)).2 = some q ∧ (handleInput dfs (some r')).2 = some q' ∧ Larger dts x q q' := by
  obtain ⟨h1, h2⟩ := handleInput_agree (· ≠ x) dfs (fun df hd f hf e => (hu df hd).2 (e ▸ hf)) r r'
    (fun f hf => hl.same f hf)
  obtain ⟨q, hq⟩ := handleInput_some dfs r
  obtain ⟨q', hq'⟩ := handleInput_some dfs r'
  have f1 := (handleInput_frame x dfs (fun df hd => (hu df hd).1) (some r)).1
  have f2 := (handleInput_frame x dfs (fun df hd => (hu df hd).1) (some r')).1
  rw [hq, hq'] at h2
  rw [hq] at f1
  rw [hq'] at f2
  obtain ⟨v, v', e1, e2, e3⟩ := hl.grows
  exact ⟨h1, q, q', hq, hq', h2, v, v', f1.trans e1, f2.trans e2, e3⟩

/-- Replacements are for missing values, and `x` is not missing. -/
theorem imputed_larger {dts : DataType → Prop} {x : String} {fs : List MiningField} {r r' q q' : GoMap (GoVal F)}
    (hl : Larger dts x r r') (h : Imputed fs r q) (h' : Imputed fs r' q') : Larger dts x q q' := by
  refine ⟨imputed_agree (S := (· ≠ x)) hl.same h h', ?_⟩
  obtain ⟨v, v', e1, e2, n1, n2, e3⟩ := hl.grows
  refine ⟨v, v', ?_, ?_, n1, n2, e3⟩
  · rw [h x, e1]; split <;> simp_all
  · rw [h' x, e2]; split <;> simp_all

omit [Arith F] [Lib F] in
theorem declaredType_untouched {dd : List DataField} {td dfs : TD F} {x : String} (h : ∀ df ∈ dfs, df.name ≠ x) :
    declaredType dd (td ++ dfs) x = declaredType dd td x := by
  unfold declaredType
  have : dfs.filter (fun f => decide (f.name = x)) = [] := by
    rw [List.filter_eq_nil_iff]
    intro f hf
    simpa using h f hf
  rw [List.filter_append, this, List.append_nil]

end

/-- The tests on two rows of which the second has the larger number. -/
theorem nodeTest_moves {types : FieldTypes} {x : String} {r r' : GoMap (GoVal F64)}
    (hl : Larger (fun dt => types[x]? = some dt) x r r') :
    Moves x (nodeTest types (some r)) (nodeTest types (some r')) := by
  obtain ⟨v, v', e1, e2, -, -, e3⟩ := hl.grows
  have e1' : Row.get (some r) x = some v := e1
  have e2' : Row.get (some r') x = some v' := e2
  have same : ∀ s : SimplePred F64, s.field ≠ x → simpleVal types (some r) s = simpleVal types (some r') s := by
    intro s hs
    have : Row.get (some r) s.field = Row.get (some r') s.field := hl.same _ hs
    simp only [simpleVal, this]
  have isBool : ∀ b : Bool, (ofBool b : PredRes) ≠ .u := by intro b; cases b <;> simp [ofBool]
  have isTrue : ∀ b : Bool, ofBool b = PredRes.t ↔ b = true := by intro b; cases b <;> simp [ofBool]
  constructor
  · intro n hn ht
    unfold nodeTest at ht ⊢
    cases hp : n.pred with
    | none => rw [hp] at ht; simp at ht
    | some p =>
      rw [hp] at ht
      refine test_follows ?_ same p (hn p hp) ht
      intro s hs
      by_cases hsx : s.field = x
      · unfold Leaf simpleVal
        rw [hsx, e1', e2']
        simp only
        cases hty : types[x]? with
        | none => simp
        | some dt =>
          simp only [isBool, iff_self, and_true, isTrue]
          exact satisfies_up (hs hsx) _ (e3 dt hty)
      · rw [same s hsx]; exact ⟨id, Iff.rfl⟩
  · intro n hn ht
    unfold nodeTest at ht ⊢
    cases hp : n.pred with
    | none => rw [hp] at ht; simp at ht
    | some p =>
      rw [hp] at ht
      refine test_follows ?_ (fun s hs => (same s hs).symm) p (hn p hp) ht
      intro s hs
      by_cases hsx : s.field = x
      · unfold Leaf simpleVal
        rw [hsx, e1', e2']
        simp only
        cases hty : types[x]? with
        | none => simp
        | some dt =>
          simp only [isBool, iff_self, and_true, isTrue]
          exact satisfies_down (hs hsx) _ (e3 dt hty)
      · rw [same s hsx]; exact ⟨id, Iff.rfl⟩

/-- Where no child is true the node may stop, if `x` is there with a number. -/
theorem mayStop_of {types : FieldTypes} {x : String} {q : GoMap (GoVal F64)} {v : GoVal F64} (hv : q[x]? = some v)
    (hn : ∀ dt, types[x]? = some dt → NotLess dt v v) {n : Node F64}
    (h : ∀ c ∈ n.nodes, nodeTest types (some q) c ≠ .t) : MayStop types[x]? x n := by
  have hv' : Row.get (some q) x = some v := hv
  constructor
  · intro c hc hp
    exact h c hc (by simp [nodeTest, hp, testValue])
  · rintro ⟨c, hc, d, hd, t, op, op', raw, raw', hcp, hdp, hop, hdt⟩
    have h1 := h c hc
    have h2 := h d hd
    simp only [nodeTest, hcp, hdp, testValue, operandValue, simpleVal, hv'] at h1 h2
    cases hty : types[x]? with
    | none => rw [hty] at hdt; exact hdt
    | some dt =>
      rw [hty] at hdt h1 h2
      have hnn := hn dt hty
      have isTrue : ∀ b : Bool, ofBool b ≠ PredRes.t ↔ b = false := by intro b; cases b <;> simp [ofBool]
      rw [isTrue] at h1 h2
      have fl : dt = .double ∨ dt = .float → False := by
        intro hd
        have hdt' : ∃ y : F64, Lib.parseFloat t = some y ∧ Arith.le y y = true := by
          rcases hd with rfl | rfl <;> exact hdt
        have hnn' : Arith.le v.float64 v.float64 = true := by
          rcases hd with rfl | rfl <;> exact hnn
        obtain ⟨y, hy, hyn⟩ := hdt'
        have e : ∀ a b : F64, Arith.le a b = le a b := fun _ _ => rfl
        have e' : ∀ a b : F64, Arith.lt a b = lt a b := fun _ _ => rfl
        rw [e] at hnn' hyn
        have a1 := (le_not_nan hnn').1
        have a2 := (le_not_nan hyn).1
        rcases hop with ⟨rfl, rfl⟩ | ⟨rfl, rfl⟩ <;> rcases hd with rfl | rfl <;>
          simp only [satisfies, floatCmp, hy, e, e', le_eq_not_lt a1 a2, le_eq_not_lt a2 a1] at h1 h2 <;>
          simp_all
      cases dt with
      | double => exact fl (.inl rfl)
      | float => exact fl (.inr rfl)
      | integer =>
        simp only at hdt
        obtain ⟨c, hc⟩ := Option.isSome_iff_exists.1 hdt
        rcases hop with ⟨rfl, rfl⟩ | ⟨rfl, rfl⟩ <;>
          simp only [satisfies, intCmp, hc, decide_eq_false_iff_not] at h1 h2 <;> omega
      | _ => exact hdt

/-- A regression answer is the number of the answering node. -/
theorem report_number {d : TreeDoc F64} (hf : d.functionName = .regression) {n : Node F64} {out : GoMap (GoVal F64)}
    (h : report d.functionName (targetOf d.miningFields) (ownDist dd d n, .t) = .ok (some out)) :
    ∃ y, numberOf dd d n = some y ∧ out = (∅ : GoMap (GoVal F64)).insert "score" (.f64 y) := by
  unfold numberOf
  rw [hf] at h
  cases hd : ownDist dd d n with
  | nil => rw [hd] at h; simp [report] at h
  | cons s l =>
    rw [hd] at h
    simp only [report, ne_eq, not_true_eq_false, if_false] at h
    cases hp : Lib.parseFloat (F := F64) s.value with
    | none => rw [hp] at h; simp at h
    | some y =>
      rw [hp] at h
      simp at h
      exact ⟨y, by simpa using hp, h.symm⟩

theorem notLess_self {dt : DataType} {v v' : GoVal F64} (h : NotLess dt v v') : NotLess dt v v ∧ NotLess dt v' v' := by
  cases dt with
  | double => exact ⟨F64.le_refl (le_not_nan h).1, F64.le_refl (le_not_nan h).2⟩
  | float => exact ⟨F64.le_refl (le_not_nan h).1, F64.le_refl (le_not_nan h).2⟩
  | integer => exact ⟨Int.le_refl _, Int.le_refl _⟩
  | _ => exact ⟨trivial, trivial⟩

theorem tree_ascends {td td' : TD F64} {d : TreeDoc F64} {m : TreeModel F64}
    (h : newTreeModel dd td d = (.ok m, td')) {x : String} (ha : AscendingTree dd (declaredType dd td x) x d) (hs : DefaultStrategy d)
    {r r' : GoMap (GoVal F64)} (hl : Larger (fun dt => declaredType dd td x = some dt) x r r') (o o' : MapOrd) :
    ((m.evaluate o (some r)).res = .ok none ↔ (m.evaluate o' (some r')).res = .ok none) ∧
    ∀ out out', (m.evaluate o (some r)).res = .ok (some out) → (m.evaluate o' (some r')).res = .ok (some out') →
      ∃ y y' : F64, out = (∅ : GoMap (GoVal F64)).insert "score" (.f64 y) ∧
        out' = (∅ : GoMap (GoVal F64)).insert "score" (.f64 y') ∧ Arith.le y y' = true := by
  obtain ⟨h1, q, q', hq, hq', hl'⟩ := handleInput_larger ha.untouched hl
  rcases hi : handleInput d.localTransformations (some r) with ⟨e | ⟨⟨⟩⟩, row1⟩
  · rw [hi] at h1
    have hi' : handleInput d.localTransformations (some r') = (.error e, some q') := Prod.ext h1.symm hq'
    obtain ⟨-, -, hv, hc, hk, hm, -⟩ := newTreeModel_ok h
    have hk' : KeysOk m.outKeys := by rw [hk]; exact keysOk_empty
    have a1 := (evaluate_eq hv hc hk' o (some r)).2.1
    have a2 := (evaluate_eq hv hc hk' o' (some r')).2.1
    rw [hm, hi] at a1
    rw [hm, hi'] at a2
    simp only at a1 a2
    rw [a1, a2]
    simp
  · rw [hi] at h1 hq
    simp only at hq
    subst hq
    have hi' : handleInput d.localTransformations (some r') = (.ok (), some q') := Prod.ext h1.symm hq'
    have hdt : (treeTypes dd td d)[x]? = declaredType dd td x := by
      rw [buildTypes_getElem?, declaredType_untouched (fun df hd => (ha.untouched df hd).1)]
    have hty : Larger (fun dt => (treeTypes dd td d)[x]? = some dt) x q q' := by rw [hdt]; exact hl'
    obtain ⟨v, v', e1, e2, -, -, e3⟩ := hty.grows
    have hn1 : ∀ dt, (treeTypes dd td d)[x]? = some dt → NotLess dt v v := fun dt h => (notLess_self (e3 dt h)).1
    have hn2 : ∀ dt, (treeTypes dd td d)[x]? = some dt → NotLess dt v' v' := fun dt h => (notLess_self (e3 dt h)).2
    have st1 : ∀ n, (∀ c ∈ n.nodes, nodeTest (treeTypes dd td d) (some q) c ≠ .t) → MayStop (declaredType dd td x) x n :=
      fun n h => hdt ▸ mayStop_of e1 hn1 h
    have st2 : ∀ n, (∀ c ∈ n.nodes, nodeTest (treeTypes dd td d) (some q') c ≠ .t) → MayStop (declaredType dd td x) x n :=
      fun n h => hdt ▸ mayStop_of e2 hn2 h
    have hmv := nodeTest_moves hty
    obtain ⟨n1, c1⟩ := C12_first_true_child h ha.preds hs hi o
    obtain ⟨n2, c2⟩ := C12_first_true_child h ha.preds hs hi' o'
    have hroot : nodeTest (treeTypes dd td d) (some q) d.node = .t ↔ nodeTest (treeTypes dd td d) (some q') d.node = .t :=
      ⟨hmv.up _ ha.root.1, hmv.down _ ha.root.2⟩
    refine ⟨by rw [← n1, ← n2, ne_eq, ne_eq, hroot], fun out out' ho ho' => ?_⟩
    have ht : nodeTest (treeTypes dd td d) (some q) d.node = .t := by
      by_contra hc
      rw [n1.1 hc] at ho; simp at ho
    obtain ⟨s, hr, -, e⟩ := c1 ht
    obtain ⟨s', hr', -, e'⟩ := c2 (hroot.1 ht)
    rw [e] at ho
    rw [e'] at ho'
    obtain ⟨y, hy, rfl⟩ := report_number ha.regression ho
    obtain ⟨y', hy', rfl⟩ := report_number ha.regression ho'
    refine ⟨y, y', rfl, rfl, firstTrue_ascends hmv st1 st2 hr ha.ascending hr' ?_ y y' hy hy'⟩
    rintro a b rfl hb hb'
    rw [hb] at hb'
    simp only [Option.some.injEq] at hb'
    subst hb'
    exact ha.numbers _ (firstTrue_sub hr) _ hb

/-- With nullPrediction an answer is the answer by default. -/
theorem null_answer {td td' : TD F64} {d : TreeDoc F64} {m : TreeModel F64}
    (h : newTreeModel dd td d = (.ok m, td')) (hp : AllPreds d.node) (hs : d.missingValueStrategy = .nullPrediction)
    (o : MapOrd) {row : Row F64} {out : GoMap (GoVal F64)} (ho : (m.evaluate o row).res = .ok (some out)) :
    ∃ m₀ td₀, newTreeModel dd td { d with missingValueStrategy := .none } = (.ok m₀, td₀) ∧
      (m₀.evaluate o row).res = .ok (some out) := by
  rcases hi : handleInput d.localTransformations row with ⟨e | ⟨⟨⟩⟩, row1⟩
  · obtain ⟨-, -, hv, hc, hk, hm, -⟩ := newTreeModel_ok h
    have a1 := (evaluate_eq hv hc (by rw [hk]; exact keysOk_empty) o row).2.1
    rw [hm, hi] at a1
    simp only at a1
    rw [a1] at ho; simp at ho
  · obtain ⟨h1, h2, h3⟩ := C13_null_prediction h hp hs hi o
    by_cases hu : ∃ r, Visits (nodeTest (treeTypes dd td d) row1) r d.node ∧ nodeTest (treeTypes dd td d) row1 r = .u
    · rw [h1 hu] at ho; simp at ho
    · by_cases hf : nodeTest (treeTypes dd td d) row1 d.node = .f
      · rw [h2 hf] at ho; simp at ho
      · obtain ⟨-, m₀, td₀, hm, he⟩ := h3 (fun r hv hr => hu ⟨r, hv, hr⟩) hf
        exact ⟨m₀, td₀, hm, he.symm.trans ho⟩

theorem answers_ascend {td td' : TD F64} {d : TreeDoc F64} {m : TreeModel F64}
    (h : newTreeModel dd td d = (.ok m, td')) {x : String} (ha : AscendingTree dd (declaredType dd td x) x d)
    (hs : DefaultStrategy d ∨ d.missingValueStrategy = .nullPrediction)
    {r r' : GoMap (GoVal F64)} (hl : Larger (fun dt => declaredType dd td x = some dt) x r r') (o o' : MapOrd)
    {out out' : GoMap (GoVal F64)} (ho : (m.evaluate o (some r)).res = .ok (some out))
    (ho' : (m.evaluate o' (some r')).res = .ok (some out')) :
    ∃ y y' : F64, out = (∅ : GoMap (GoVal F64)).insert "score" (.f64 y) ∧
      out' = (∅ : GoMap (GoVal F64)).insert "score" (.f64 y') ∧ Arith.le y y' = true := by
  rcases hs with hs | hs
  · exact (tree_ascends h ha hs hl o o').2 out out' ho ho'
  · obtain ⟨m₀, td₀, hm, e⟩ := null_answer h ha.preds hs o ho
    obtain ⟨m₁, td₁, hm', e'⟩ := null_answer h ha.preds hs o' ho'
    rw [hm] at hm'
    simp only [Prod.mk.injEq, Except.ok.injEq] at hm'
    obtain ⟨rfl, -⟩ := hm'
    exact (tree_ascends hm ⟨ha.regression, ha.preds, ha.root, ha.ascending, ha.numbers, ha.untouched⟩ (.inl rfl) hl o o').2
      out out' e e'

/-- **C88** (trees): a regression tree that ascends with `x`, evaluated on two rows that differ in `x` alone,
the second having the larger number. If both answer, the second score is not smaller; and by default both
answer or neither does. -/
theorem C88_tree {td td' : TD F64} {d : TreeDoc F64} {m : TreeModel F64}
    (h : newTreeModel dd td d = (.ok m, td')) {x : String} (ha : AscendingTree dd (declaredType dd td x) x d)
    (hs : DefaultStrategy d ∨ d.missingValueStrategy = .nullPrediction) {r r' : GoMap (GoVal F64)}
    (hl : Larger (fun dt => declaredType dd td x = some dt) x r r') (o o' : MapOrd) :
    (DefaultStrategy d →
      ((m.evaluate o (some r)).res = .ok none ↔ (m.evaluate o' (some r')).res = .ok none)) ∧
    ∀ out out', (m.evaluate o (some r)).res = .ok (some out) → (m.evaluate o' (some r')).res = .ok (some out') →
      ∃ y y' : F64, out["score"]? = some (.f64 y) ∧ out'["score"]? = some (.f64 y') ∧ Arith.le y y' = true := by
  refine ⟨fun hd => (tree_ascends h ha hd hl o o').1, fun out out' ho ho' => ?_⟩
  obtain ⟨y, y', rfl, rfl, hle⟩ := answers_ascend h ha hs hl o o' ho ho'
  exact ⟨y, y', by simp, by simp, hle⟩

/-! ### Forests -/

/-- The segment is a regression tree that ascends with `x`. -/
def AscendingSeg (dd : List DataField) (dt : Option DataType) (x : String) (seg : SegDoc F64) : Prop :=
  ∃ id ps d, seg = .mk id ps [.tree d] ∧ AscendingTree dd dt x d ∧
    (DefaultStrategy d ∨ d.missingValueStrategy = .nullPrediction)

/-- The segment is a tree with the default strategy. -/
def DefaultSeg (seg : SegDoc F64) : Prop := ∃ id ps d, seg = .mk id ps [.tree d] ∧ DefaultStrategy d

/-- Both give a prediction or neither does. -/
def BothAnswer (out out' : Out F64) : Prop := out = none ↔ out' = none

section
variable [Trans F64]

theorem segs_ascend {fn : MiningFunction} (hfn : fn ≠ .classification) {k x : String} {td0 : TD F64} :
    ∀ {segs : List (SegDoc F64)} {td td' : TD F64} {ms : List (EModel F64)} {r r' : GoMap (GoVal F64)}
      {outs outs' : List (Out F64)} {rowE rowE' : Row F64},
    (∀ s ∈ segs, AscendingSeg dd (declaredType dd td0 x) x s) → SegModels dd segs td ms td' →
    declaredType dd td x = declaredType dd td0 x →
    Larger (fun dt => declaredType dd td0 x = some dt) x r r' →
    SegsRun ms (some r) (.ok outs) rowE → SegsRun ms (some r') (.ok outs') rowE' →
    ((∀ s ∈ segs, DefaultSeg s) → List.Forall₂ BothAnswer outs outs') ∧
    (List.Forall₂ BothAnswer outs outs' → List.Forall₂ (NotAbove fn k) outs outs') := by
  intro segs
  induction segs with
  | nil =>
    intro td td' ms r r' outs outs' rowE rowE' _ hms _ _ h1 h2
    cases hms
    cases h1
    cases h2
    exact ⟨fun _ => .nil, fun _ => .nil⟩
  | cons seg segs ih =>
    intro td td' ms r r' outs outs' rowE rowE' hs hms hty hl h1 h2
    obtain ⟨id, ps, d, rfl, ha, hst⟩ := hs seg (by simp)
    cases hms with
    | @cons _ _ _ _ _ td1 _ m ms hm hms =>
      rw [newModel] at hm
      rcases ht : newTreeModel dd td d with ⟨_ | t, td2⟩ <;> rw [ht] at hm
      · simp at hm
      · simp at hm
        obtain ⟨rfl, rfl⟩ := hm
        obtain ⟨-, htd, hv, hc, hk, hmd, -⟩ := newTreeModel_ok ht
        have hk' : KeysOk t.outKeys := by rw [hk]; exact keysOk_empty
        generalize hr1 : (Except.ok outs : Res (List (Out F64))) = e1 at h1
        generalize hr2 : (Except.ok outs' : Res (List (Out F64))) = e2 at h2
        cases h1 with
        | fail he => simp at hr1
        | @cons _ _ _ o out rs _ he hrest =>
        cases h2 with
        | fail he => simp at hr2
        | @cons _ _ _ o' out' rs' _ he' hrest' =>
          cases rs with
          | error e => simp [Except.map] at hr1
          | ok l =>
          cases rs' with
          | error e => simp [Except.map] at hr2
          | ok l' =>
            simp [Except.map] at hr1 hr2
            subst hr1 hr2
            rw [← hty] at ha
            have hl0 : Larger (fun dt => declaredType dd td x = some dt) x r r' := by rw [hty]; exact hl
            simp only [EModel.evaluate] at he he' hrest hrest'
            obtain ⟨-, q, q', hq, hq', hl'⟩ := handleInput_larger ha.untouched hl
            have b1 := (evaluate_eq hv hc hk' o (some r)).1
            have b2 := (evaluate_eq hv hc hk' o' (some r')).1
            rw [hmd, hq] at b1
            rw [hmd, hq'] at b2
            rw [b1] at hrest
            rw [b2] at hrest'
            have hrec := ih (fun s h => hs s (by simp [h])) hms (by
              rw [htd, declaredType_untouched (fun df hd => (ha.untouched df hd).1)]
              exact hty) hl' hrest hrest'
            refine ⟨fun hd => .cons ?_ (hrec.1 (fun s h => hd s (by simp [h]))), fun hb => ?_⟩
            · obtain ⟨_, _, d', e, hd⟩ := hd _ List.mem_cons_self
              simp only [SegDoc.mk.injEq, List.cons.injEq, ModelElem.tree.injEq, and_true] at e
              obtain ⟨-, -, rfl⟩ := e
              have := (tree_ascends ht ha hd hl0 o o').1
              rw [he, he'] at this
              simpa [BothAnswer] using this
            · cases hb with
              | cons hb1 hb2 =>
                refine .cons ?_ (hrec.2 hb2)
                cases out with
                | none =>
                  obtain rfl := hb1.1 rfl
                  exact .inl ⟨rfl, rfl⟩
                | some w =>
                  cases out' with
                  | none => exact absurd (hb1.2 rfl) (by simp)
                  | some w' =>
                    obtain ⟨y, y', rfl, rfl, hle⟩ := answers_ascend ht ha hst hl0 o o' he he'
                    refine .inr ⟨y, y', ?_, ?_, hle⟩ <;> simp [contribution, hfn, GoVal.float64]

/-- **C88** (forests, any trees): a sum or average of regression trees that ascend with `x`, with factors that
are not negative and no derived field called `x` or computed from it. On two rows that differ in `x` alone, the
second having the larger number, if the same trees give a prediction on both rows, then the second answer is
not smaller, in float64 arithmetic with its rounding, unless one of them is NaN. -/
theorem C88_same_trees {h : MiningHead F64} {segs : List (SegDoc F64)} {td td' : TD F64} {M : EModel F64}
    (hM : newModel dd (.mining h segs) td = (.ok M, td')) (hm : usesMethod h .sum ∨ usesMethod h .average)
    (hfn : h.functionName ≠ .classification) {k : String} (hk : k ∈ ensembleKeys h)
    (hf : ∀ t ∈ h.targets, t.field = k → ∀ c, t.rescaleFactor = some c → Arith.le Arith.zero c = true)
    {x : String} (hu : Untouched x h.localTransformations) (hs : ∀ s ∈ segs, AscendingSeg dd (declaredType dd td x) x s)
    {r r' : GoMap (GoVal F64)} (hl : Larger (fun dt => declaredType dd td x = some dt) x r r') (o o' : MapOrd)
    {out out' : GoMap (GoVal F64)} (h1 : (EModel.evaluate o M (some r)).res = .ok (some out))
    (h2 : (EModel.evaluate o' M (some r')).res = .ok (some out')) :
    ∃ ms outs outs' row2 row2' rowE rowE', SegModels dd segs (td ++ h.localTransformations) ms td' ∧
      Prepared h (some r) (.ok ()) row2 ∧ SegsRun ms row2 (.ok outs) rowE ∧
      Prepared h (some r') (.ok ()) row2' ∧ SegsRun ms row2' (.ok outs') rowE' ∧
      ((∀ s ∈ segs, DefaultSeg s) → List.Forall₂ BothAnswer outs outs') ∧
      (List.Forall₂ BothAnswer outs outs' → ∃ y y' : F64, out[k]? = some (.f64 y) ∧ out'[k]? = some (.f64 y') ∧
        (y ≠ nan → y' ≠ nan → Arith.le y y' = true)) := by
  obtain ⟨s, ms0, -, -, -, -, -, -, hev⟩ := constructed_mining hM
  rcases hev o (some r) with ⟨e, row3, -, he⟩ | ⟨row2, hp, -⟩
  · rw [he] at h1; simp at h1
  rcases hev o' (some r') with ⟨e, row3, -, he⟩ | ⟨row2', hp', -⟩
  · rw [he] at h2; simp at h2
  obtain ⟨ms, outs, outs', rowE, rowE', hms, hrun, hrun', hle⟩ := C84_order hM hm hk hf hp hp' o o' h1 h2
  refine ⟨ms, outs, outs', row2, row2', rowE, rowE', hms, hp, hrun, hp', hrun', ?_⟩
  cases hp with
  | row i1 g1 =>
    cases hp' with
    | row i2 g2 =>
      have hl1 := imputed_larger hl i1 i2
      obtain ⟨-, q, q', hq, hq', hl2⟩ := handleInput_larger hu hl1
      rw [g1] at hq
      rw [g2] at hq'
      simp only at hq hq'
      subst hq hq'
      obtain ⟨a1, a2⟩ := segs_ascend (k := k) hfn hs hms (declaredType_untouched (fun df hd => (hu df hd).1)) hl2 hrun hrun'
      exact ⟨a1, fun hb => hle (a2 hb)⟩

/-- **C88** (forests): with the default strategy in every tree, the answer of the forest does not fall when `x`
grows. -/
theorem C88_forest {h : MiningHead F64} {segs : List (SegDoc F64)} {td td' : TD F64} {M : EModel F64}
    (hM : newModel dd (.mining h segs) td = (.ok M, td')) (hm : usesMethod h .sum ∨ usesMethod h .average)
    (hfn : h.functionName ≠ .classification) {k : String} (hk : k ∈ ensembleKeys h)
    (hf : ∀ t ∈ h.targets, t.field = k → ∀ c, t.rescaleFactor = some c → Arith.le Arith.zero c = true)
    {x : String} (hu : Untouched x h.localTransformations) (hs : ∀ s ∈ segs, AscendingSeg dd (declaredType dd td x) x s)
    (hd : ∀ s ∈ segs, DefaultSeg s)
    {r r' : GoMap (GoVal F64)} (hl : Larger (fun dt => declaredType dd td x = some dt) x r r') (o o' : MapOrd)
    {out out' : GoMap (GoVal F64)} (h1 : (EModel.evaluate o M (some r)).res = .ok (some out))
    (h2 : (EModel.evaluate o' M (some r')).res = .ok (some out')) :
    ∃ y y' : F64, out[k]? = some (.f64 y) ∧ out'[k]? = some (.f64 y') ∧
      (y ≠ nan → y' ≠ nan → Arith.le y y' = true) := by
  obtain ⟨_, _, _, _, _, _, _, _, _, _, _, _, a1, a2⟩ := C88_same_trees hM hm hfn hk hf hu hs hl o o' h1 h2
  exact a2 (a1 hd)

end

/-! ### A check -/

/-- Is `Towards` met? -/
def towards (up : Bool) : SimpleOp → Bool
  | .greaterThan | .greaterOrEqual => up
  | .lessThan | .lessOrEqual => !up
  | .equal | .notEqual => false
  | _ => true

/-- Is `Follows` met? -/
def follows (up : Bool) (x : String) : Pred F64 → Bool
  | .simple s => decide (s.field ≠ x) || towards up s.op
  | .compound .and ps => followsList ps
  | .compound .or ps => followsList ps
  | .compound .surrogate ps => ps.all (fun p => match p with | .simple _ => true | _ => false) && followsList ps
  | .compound _ ps => decide (x ∉ predFields.predsFields ps)
  | _ => true
where
  followsList : List (Pred F64) → Bool
    | [] => true
    | p :: ps => follows up x p && followsList ps

theorem towards_iff (up : Bool) (op : SimpleOp) : towards up op = true ↔ Towards up op := by
  cases op <;> simp [towards, Towards]

mutual
theorem follows_sound {up : Bool} {x : String} : ∀ {p : Pred F64}, follows up x p = true → Follows up x p
  | .simple s, h => by
    simp only [follows, Bool.or_eq_true, decide_eq_true_eq, towards_iff] at h
    intro e
    rcases h with h | h
    · exact absurd e h
    · exact h
  | .compound .and ps, h => followsList_sound (ps := ps) h
  | .compound .or ps, h => followsList_sound (ps := ps) h
  | .compound .surrogate ps, h => by
    simp only [follows, Bool.and_eq_true, List.all_eq_true] at h
    refine ⟨fun p hp => ?_, followsList_sound h.2⟩
    have := h.1 p hp
    cases p with
    | simple s => exact ⟨s, rfl⟩
    | _ => simp at this
  | .compound .xor ps, h => by simpa [follows, Follows] using h
  | .compound (.other _) ps, h => by simpa [follows, Follows] using h
  | .true_, _ => by simp [Follows]
  | .false_, _ => by simp [Follows]
  | .set _, _ => by simp [Follows]
theorem followsList_sound {up : Bool} {x : String} : ∀ {ps : List (Pred F64)}, follows.followsList up x ps = true →
    Follows.FollowsAll up x ps
  | [], _ => trivial
  | p :: ps, h => by
    simp only [follows.followsList, Bool.and_eq_true] at h
    exact ⟨follows_sound h.1, followsList_sound h.2⟩
end

/-- No number of the first list is above one of the second. -/
def below (l l' : List (Option F64)) : Bool :=
  l.all fun a => l'.all fun b => match a, b with | some y, some y' => Arith.le y y' | _, _ => true

theorem below_sound {l l' : List (Option F64)} (h : below l l' = true) {y y' : F64} (hy : some y ∈ l) (hy' : some y' ∈ l') :
    Arith.le y y' = true := by
  simp only [below, List.all_eq_true] at h
  exact h _ hy _ hy'

/-- Is `NodeFollows` met? -/
def nodeFollows (up : Bool) (x : String) (n : Node F64) : Bool :=
  match n.pred with
  | some p => follows up x p
  | none => true

theorem nodeFollows_sound {up : Bool} {x : String} {n : Node F64} (h : nodeFollows up x n = true) :
    NodeFollows up x n := by
  intro p hp
  rw [nodeFollows, hp] at h
  exact follows_sound h

/-- The constant of a simple test on `x`, with its operator. -/
def constant (x : String) (n : Node F64) : Option (SimpleOp × String) :=
  match n.pred with
  | some (.simple s) => if s.field = x then some (s.op, s.value) else none
  | _ => none

/-- Do the two children complement each other? -/
def complement (dt : Option DataType) (x : String) (c d : Node F64) : Bool :=
  match constant x c, constant x d with
  | some (op, t), some (op', t') =>
    decide (t = t') && decide ((op = .lessThan ∧ op' = .greaterOrEqual) ∨ (op = .lessOrEqual ∧ op' = .greaterThan)) &&
    match dt with
    | some .double | some .float => ((Lib.parseFloat t : Option F64).any fun y => Arith.le y y)
    | some .integer => (parseInt t).isSome
    | _ => false
  | _, _ => false

theorem constant_some {x : String} {n : Node F64} {op : SimpleOp} {t : String} (h : constant x n = some (op, t)) :
    ∃ raw, n.pred = some (.simple ⟨x, op, t, raw⟩) := by
  unfold constant at h
  split at h
  · rename_i s hs
    split_ifs at h with he
    simp only [Option.some.injEq, Prod.mk.injEq] at h
    obtain ⟨rfl, rfl⟩ := h
    subst he
    exact ⟨s.raw, hs⟩
  · simp at h

/-- May the descent stop at the node? -/
def stops (dt : Option DataType) (x : String) (n : Node F64) : Bool :=
  n.nodes.all (fun c => match c.pred with | some .true_ => false | _ => true) &&
  n.nodes.all fun c => n.nodes.all fun d => !complement dt x c d

theorem stops_sound {dt : Option DataType} {x : String} {n : Node F64} (h : stops dt x n = false) : ¬ MayStop dt x n := by
  rintro ⟨h1, h2⟩
  simp only [stops, Bool.and_eq_false_iff, List.all_eq_false] at h
  rcases h with ⟨c, hc, h⟩ | ⟨c, hc, h⟩
  · refine h1 c hc ?_
    split at h
    · assumption
    · simp at h
  · simp only [Bool.not_eq_true, List.all_eq_false, Bool.not_eq_false'] at h
    obtain ⟨d, hd, h⟩ := h
    refine h2 ⟨c, hc, d, hd, ?_⟩
    unfold complement at h
    split at h
    · rename_i op t op' t' e e'
      simp only [Bool.and_eq_true, decide_eq_true_eq] at h
      obtain ⟨⟨rfl, hop⟩, hdt⟩ := h
      obtain ⟨raw, hr⟩ := constant_some e
      obtain ⟨raw', hr'⟩ := constant_some e'
      refine ⟨t, op, op', raw, raw', hr, hr', hop, ?_⟩
      split at hdt
      · obtain ⟨y, hy⟩ := (Option.any_eq_true _ _).1 hdt
        exact ⟨y, hy⟩
      · obtain ⟨y, hy⟩ := (Option.any_eq_true _ _).1 hdt
        exact ⟨y, hy⟩
      · exact hdt
      · simp at hdt
    · simp at h

/-- All numbers of a node and the nodes below it. -/
def numbers (num : Node F64 → Option F64) (n : Node F64) : List (Option F64) := (allNodes n).map num

mutual
theorem sub_mem_allNodes {r : Node F64} : ∀ {n : Node F64}, Sub r n → r ∈ allNodes n
  | .mk id dc s rc ds nodes pred, h => by
    simp only [allNodes, List.mem_cons]
    cases h with
    | refl => exact .inl rfl
    | child hc hr => exact .inr (sub_mem_allNodess (ns := nodes) hc hr)
theorem sub_mem_allNodess {r c : Node F64} : ∀ {ns : List (Node F64)}, c ∈ ns → Sub r c → r ∈ allNodes.allNodess ns
  | n :: ns, hc, hr => by
    simp only [allNodes.allNodess, List.mem_append]
    rcases List.mem_cons.1 hc with h | h
    · exact .inl (sub_mem_allNodes (h ▸ hr))
    · exact .inr (sub_mem_allNodess h hr)
end

theorem mem_numbers {num : Node F64 → Option F64} {r n : Node F64} (h : Sub r n) {y : F64} (hy : num r = some y) :
    some y ∈ numbers num n := by
  rw [← hy]; exact List.mem_map_of_mem (sub_mem_allNodes h)

/-- Does the tree ascend with `x`? -/
def ascends (dt : Option DataType) (x : String) (num : Node F64 → Option F64) : Node F64 → Bool
  | .mk id dc s rc ds nodes pred =>
    ascendsList nodes &&
    decide (nodes.Pairwise fun c d =>
      ((nodeFollows true x c || below (numbers num c) (numbers num d)) &&
        (nodeFollows false x c || below (numbers num d) (numbers num c))) = true) &&
    (!stops dt x (.mk id dc s rc ds nodes pred) || nodes.all fun c =>
      (nodeFollows true x c || below (numbers num c) [num (.mk id dc s rc ds nodes pred)]) &&
        (nodeFollows false x c || below [num (.mk id dc s rc ds nodes pred)] (numbers num c)))
where
  ascendsList : List (Node F64) → Bool
    | [] => true
    | n :: ns => ascends dt x num n && ascendsList ns

mutual
/-- The check is sound. -/
theorem ascends_sound {dt : Option DataType} {x : String} {num : Node F64 → Option F64} :
    ∀ {n : Node F64}, ascends dt x num n = true → Ascending dt x num n
  | .mk id dc s rc ds nodes pred, h => by
    simp only [ascends, Bool.and_eq_true, decide_eq_true_eq, Bool.or_eq_true, Bool.not_eq_true', List.all_eq_true] at h
    obtain ⟨⟨h1, h2⟩, h3⟩ := h
    refine .node (ascendsList_sound (ns := nodes) h1) (h2.imp ?_) ?_
    · rintro c d ⟨a, b⟩
      exact ⟨a.imp nodeFollows_sound (fun h r hr r' hr' y hy y' hy' => below_sound h (mem_numbers hr hy) (mem_numbers hr' hy')),
        b.imp nodeFollows_sound (fun h r hr r' hr' y hy y' hy' => below_sound h (mem_numbers hr hy) (mem_numbers hr' hy'))⟩
    · intro hs c hc
      rcases h3 with h3 | h3
      · exact absurd hs (stops_sound h3)
      · obtain ⟨a, b⟩ := h3 c hc
        exact ⟨a.imp nodeFollows_sound (fun h r hr y hy y' hy' => below_sound h (mem_numbers hr hy) (by simp [hy'])),
          b.imp nodeFollows_sound (fun h r hr y hy y' hy' => below_sound h (by simp [hy']) (mem_numbers hr hy))⟩
theorem ascendsList_sound {dt : Option DataType} {x : String} {num : Node F64 → Option F64} :
    ∀ {ns : List (Node F64)}, ascends.ascendsList dt x num ns = true → ∀ c ∈ ns, Ascending dt x num c
  | [], _ => by simp
  | n :: ns, h => by
    simp only [ascends.ascendsList, Bool.and_eq_true] at h
    intro c hc
    rcases List.mem_cons.1 hc with e | hc
    · rw [e]; exact ascends_sound h.1
    · exact ascendsList_sound h.2 c hc
end

/-- Is the tree one that ascends with `x`? -/
def ascendingTree (dd : List DataField) (dt : Option DataType) (x : String) (d : TreeDoc F64) : Bool :=
  decide (d.functionName = .regression) && (allNodes d.node).all (fun n => n.pred.isSome) &&
  (nodeFollows true x d.node && nodeFollows false x d.node) && ascends dt x (numberOf dd d) d.node &&
  (allNodes d.node).all (fun n => (numberOf dd d n).all fun y => Arith.le y y) &&
  d.localTransformations.all (fun df => decide (df.name ≠ x ∧ x ∉ exprFields df.expr))

/-- **C88** (check): the computable check proves the hypothesis of the other theorems. -/
theorem C88_check {dt : Option DataType} {x : String} {d : TreeDoc F64} (h : ascendingTree dd dt x d = true) :
    AscendingTree dd dt x d := by
  simp only [ascendingTree, Bool.and_eq_true, decide_eq_true_eq, List.all_eq_true] at h
  obtain ⟨⟨⟨⟨⟨h1, h2⟩, h3⟩, h4⟩, h5⟩, h6⟩ := h
  refine ⟨h1, fun r hr => ?_, ⟨nodeFollows_sound h3.1, nodeFollows_sound h3.2⟩, ascends_sound h4, fun r hr y hy => ?_, h6⟩
  · exact Option.isSome_iff_exists.1 (h2 r (sub_mem_allNodes hr))
  · have := h5 r (sub_mem_allNodes hr)
    rw [hy] at this
    simpa using this

/-! ### Examples -/

section
open Replay Samples

/-- Steps at 3 and 5, the lower one for the class "u" alone: 1, 2 and 10. -/
def stairs (s : MissingValueStrategy) (middle : String) : TreeDoc F64 :=
  { regTree "1" "10" with
    missingValueStrategy := s
    node := .mk "" "" "0" (num "0") [] [
      .mk "" "" middle (num "0") [] [
        .mk "" "" "1" (num "0") [] [] (some (.compound .and [sp "c" .equal "u", sp "x" .lessThan "3"]))]
        (some (sp "x" .lessThan "5")),
      .mk "" "" "10" (num "0") [] [] (some (sp "x" .greaterOrEqual "5"))] (some .true_) }

-- The check finds which of these ascend. (The score of the root does not matter: its children
-- complement each other.)
example : ascendingTree Samples.dd (some .double) "x" (stairs .none "2") = true ∧
    ascendingTree Samples.dd (some .double) "x" (stairs .none "20") = false ∧
    ascendingTree Samples.dd (some .double) "x" (stairs .none "0.5") = false ∧
    ascendingTree Samples.dd (some .double) "x" (regTree "1" "10") = true ∧
    ascendingTree Samples.dd (some .double) "x" (regTree "10" "1") = false := by
  decide +kernel

/-- Their sum. -/
def climbing (method : MultipleModelMethod) : ModelElem F64 :=
  .mining (head method) [seg (.tree (stairs .none "2")), seg (.tree { regTree "1" "10" with missingValueStrategy := .none })]

-- C88_forest's hypotheses on its segments.
example : ∀ s ∈ [seg (.tree (stairs .none "2")), seg (.tree { regTree "1" "10" with missingValueStrategy := .none })],
    AscendingSeg Samples.dd (declaredType Samples.dd ([] : TD F64) "x") "x" s ∧ DefaultSeg s := by
  intro s hs
  simp only [List.mem_cons, List.not_mem_nil, or_false] at hs
  have hd : declaredType Samples.dd ([] : TD F64) "x" = some .double := by decide +kernel
  rw [hd]
  rcases hs with rfl | rfl
  · exact ⟨⟨_, _, _, rfl, C88_check (by decide +kernel), .inl (.inl rfl)⟩, _, _, _, rfl, .inl rfl⟩
  · exact ⟨⟨_, _, _, rfl, C88_check (by decide +kernel), .inl (.inl rfl)⟩, _, _, _, rfl, .inl rfl⟩

-- And on its rows.
example : Larger (fun dt => declaredType Samples.dd ([] : TD F64) "x" = some dt) "x"
    ((mk [("c", .str "u")]).insert "x" (.f64 (num "2"))) ((mk [("c", .str "u")]).insert "x" (.str "4")) := by
  refine ⟨fun f hf => ?_, .f64 (num "2"), .str "4", by decide +kernel, by decide +kernel, by simp, by simp, fun dt h => ?_⟩
  · rw [GoMap.getElem?_insert, GoMap.getElem?_insert]
    simp [Ne.symm hf]
  · have hd : declaredType Samples.dd ([] : TD F64) "x" = some .double := by decide +kernel
    rw [hd] at h
    simp only [Option.some.injEq] at h
    subst h
    show Arith.le _ _ = true
    decide +kernel

-- The answers rise: 1+1, 2+1 and 10+10, doubled and plus one.
example : (["2", "4", "7"].map fun t => eval .sorted (climbing .sum) [("x", .str t), ("c", .str "u")]) =
    (["5", "7", "41"].map fun t => some (.ok (some (mk [("y", .f64 (num t))])))) := by
  decide +kernel

/-- **C88** needs the order of the scores: if the step in the middle is too high, the answer falls. -/
theorem C88_unordered_falls :
    (["2", "4", "7"].map fun t => eval .sorted (.mining (head .sum) [seg (.tree (stairs .none "20"))])
      [("x", .str t), ("c", .str "u")]) =
    (["3", "41", "21"].map fun t => some (.ok (some (mk [("y", .f64 (num t))])))) := by
  decide +kernel

/-- Scores -15 below 5 and -10 from 5 on, or -20 below 3 for the class "u". -/
def belowZero : TreeDoc F64 :=
  { stairs .nullPrediction "-15" with
    node := .mk "" "" "0" (num "0") [] [
      .mk "" "" "-15" (num "0") [] [
        .mk "" "" "-20" (num "0") [] [] (some (.compound .and [sp "c" .equal "u", sp "x" .lessThan "3"]))]
        (some (sp "x" .lessThan "5")),
      .mk "" "" "-10" (num "0") [] [] (some (sp "x" .greaterOrEqual "5"))] (some .true_) }

/-- **C88** needs the same trees to predict: with nullPrediction a forest of ascending trees may fall. Without the
class, `belowZero` predicts from 5 on alone. -/
theorem C88_null_prediction_falls : ascendingTree Samples.dd (some .double) "x" belowZero = true ∧
    (["2", "7"].map fun t => eval .sorted (.mining (head .sum) [seg (.tree belowZero)]) [("x", .str t)]) =
      (["1", "-19"].map fun t => some (.ok (some (mk [("y", .f64 (num t))])))) := by
  decide +kernel

end

end Gopmml.Props
