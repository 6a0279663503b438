import Verif.Proofs.Mining
import Verif.Proofs.Real
import Verif.Props.Construction
import Verif.Props.History
import Verif.Props.MapOrder
import Verif.Model.Samples

/-!
# Ensembles (C36-C40, C42)
-/

namespace Gopmml.Props
open Gopmml Spec

variable {F : Type} [Arith F] [Lib F] [Trans F]

/-- The method a document asks for, where no method means `sum`. -/
def usesMethod (h : MiningHead F) (m : MultipleModelMethod) : Prop := effectiveMethod h.method = m

section Sum

/-- What the summing loop followed by rescaling yields. -/
theorem sum_run {h : MiningHead F} {s : MiningState F} (ms : List (EModel F))
    (ho : s.outputFields = h.outputs) (ht : s.targets = h.targets) (o o2 : MapOrd) (row : Row F) :
    ∃ r row', SegsRun ms row r row' ∧
      (sumSegments o h.functionName 0 (initScores s) ms row).row = row' ∧
      (∀ e, r = .error e → (sumSegments o h.functionName 0 (initScores s) ms row).res = .error e) ∧
      ∀ outs, r = .ok outs → ∃ sm, (sumSegments o h.functionName 0 (initScores s) ms row).res = .ok sm ∧
        ∀ k, (sumFinish o2 s sm)[k]? = if k ∈ ensembleKeys h then some (.f64 (ensembleSum h outs k)) else none := by
  obtain ⟨r, row', h1, h2, h3, h4⟩ := sumSegments_run ms o h.functionName 0 (initScores s) row
  refine ⟨r, row', h1, h2, h3, ?_⟩
  intro outs hr
  obtain ⟨sm, hs, hk⟩ := h4 outs hr
  refine ⟨sm, hs, fun k => ?_⟩
  unfold sumFinish
  rw [scoresToRow_getElem?, rescale_getElem?, hk, initScores_getElem?, ho, ht]
  · unfold ensembleKeys
    split_ifs with hmem <;> simp [ensembleSum, Spec.sum]
  · intro t htm
    rw [hk, initScores_getElem?]
    have : t.field ∈ s.outputFields.map (·.name) ++ s.targets.map (·.field) := by
      simp only [List.mem_append, List.mem_map]
      exact .inr ⟨t, htm, rfl⟩
    simp [this]

/-- **C36**: a sum ensemble evaluates its segments in order on the prepared row.  If one fails its
error is returned.  Otherwise the row returned has exactly one entry per output field and target:
the left-to-right sum of the segments' contributions, rescaled target by target. -/
theorem C36_sum {dd : List DataField} {h : MiningHead F} {segs : List (SegDoc F)} {td td' : TD F}
    {M : EModel F} (hM : newModel dd (.mining h segs) td = (.ok M, td')) (hm : usesMethod h .sum)
    {row row2 : Row F} (hp : Prepared h row (.ok ()) row2) (o : MapOrd) :
    ∃ ms r row', SegModels dd segs (td ++ h.localTransformations) ms td' ∧ SegsRun ms row2 r row' ∧
      (EModel.evaluate o M row).row = row' ∧
      (∀ e, r = .error e → (EModel.evaluate o M row).res = .error e) ∧
      ∀ outs, r = .ok outs → ∃ out, (EModel.evaluate o M row).res = .ok (some out) ∧
        ∀ k, out[k]? = if k ∈ ensembleKeys h then some (.f64 (ensembleSum h outs k)) else none := by
  obtain ⟨s, ms, rfl, hms, hh, ho, ht, -, hev⟩ := constructed_mining hM
  rcases hev o row with ⟨e, row3, hp', -⟩ | ⟨row3, hp', he⟩
  · have := (prepared_unique hp hp').1; simp at this
  obtain ⟨-, rfl⟩ := prepared_unique hp hp'
  obtain ⟨r, row', h1, h2, h3, h4⟩ := sum_run ms ho ht (o.at_ 1) (o.at_ 2) row2
  have hfn : s.head.functionName = h.functionName := by rw [hh]
  have hmeth : s.head.method = .sum := by rw [hh]; exact hm
  refine ⟨ms, r, row', hms, h1, ?_⟩
  rw [he]
  unfold runMethod
  rw [hmeth]
  simp only [hfn]
  refine ⟨h2, ?_, ?_⟩
  · intro e hr; rw [h3 e hr]; rfl
  · intro outs hr
    obtain ⟨sm, hs, hk⟩ := h4 outs hr
    exact ⟨_, by rw [hs]; rfl, hk⟩

/-- **C37**: an average ensemble returns the sum ensemble's entries divided by the number of
segments. -/
theorem C37_average {dd : List DataField} {h : MiningHead F} {segs : List (SegDoc F)} {td td' : TD F}
    {M : EModel F} (hM : newModel dd (.mining h segs) td = (.ok M, td')) (hm : usesMethod h .average)
    {row row2 : Row F} (hp : Prepared h row (.ok ()) row2) (o : MapOrd) :
    ∃ ms r row', SegModels dd segs (td ++ h.localTransformations) ms td' ∧ SegsRun ms row2 r row' ∧
      (EModel.evaluate o M row).row = row' ∧
      (∀ e, r = .error e → (EModel.evaluate o M row).res = .error e) ∧
      ∀ outs, r = .ok outs → ∃ out, (EModel.evaluate o M row).res = .ok (some out) ∧
        ∀ k, out[k]? = if k ∈ ensembleKeys h then
          some (.f64 (Arith.div (ensembleSum h outs k) (Arith.ofInt segs.length))) else none := by
  obtain ⟨s, ms, rfl, hms, hh, ho, ht, hsg, hev⟩ := constructed_mining hM
  rcases hev o row with ⟨e, row3, hp', -⟩ | ⟨row3, hp', he⟩
  · have := (prepared_unique hp hp').1; simp at this
  obtain ⟨-, rfl⟩ := prepared_unique hp hp'
  obtain ⟨r, row', h1, h2, h3, h4⟩ := sum_run ms ho ht (o.at_ 1) (o.at_ 2) row2
  have hfn : s.head.functionName = h.functionName := by rw [hh]
  have hmeth : s.head.method = .average := by rw [hh]; exact hm
  refine ⟨ms, r, row', hms, h1, ?_⟩
  rw [he]
  unfold runMethod
  rw [hmeth]
  simp only [hfn]
  refine ⟨h2, ?_, ?_⟩
  · intro e hr; rw [h3 e hr]; rfl
  · intro outs hr
    obtain ⟨sm, hs, hk⟩ := h4 outs hr
    refine ⟨_, by rw [hs]; rfl, fun k => ?_⟩
    rw [averageLoop_getElem?, hk, hsg]
    split_ifs <;> simp [GoVal.float64]

/-- **C37**: the same document with the methods average and sum: same effect on the row, same
errors, and each value of the one is the value of the other divided by the number of segments. -/
theorem C37_average_vs_sum {dd : List DataField} {h : MiningHead F} {segs : List (SegDoc F)} {td ta ts : TD F}
    {A S : EModel F} (hA : newModel dd (.mining { h with method := .average } segs) td = (.ok A, ta))
    (hS : newModel dd (.mining { h with method := .sum } segs) td = (.ok S, ts)) (o : MapOrd) (row : Row F) :
    (EModel.evaluate o A row).row = (EModel.evaluate o S row).row ∧
    (∀ e, (EModel.evaluate o A row).res = .error e ↔ (EModel.evaluate o S row).res = .error e) ∧
    ∀ out, (EModel.evaluate o S row).res = .ok out → ∃ a b : GoMap (GoVal F), out = some a ∧
      (EModel.evaluate o A row).res = .ok (some b) ∧
      ∀ k : String, b[k]? = (a[k]?).map (fun v => GoVal.f64 (Arith.div v.float64 (Arith.ofInt segs.length))) := by
  obtain ⟨s, ms, rfl, hms, hh, ho, ht, hsg, hev⟩ := constructed_mining hA
  obtain ⟨s', ms', rfl, hms', hh', ho', ht', hsg', hev'⟩ := constructed_mining hS
  have hmm : ms' = ms := by
    have := hms.compile.symm.trans hms'.compile
    simp at this; exact this.1.symm
  subst hmm
  have prep : ∀ {r row2}, Prepared { h with method := .average } row r row2 →
      Prepared { h with method := .sum } row r row2 := fun hp => prepared_congr (h := { h with method := .average }) (h' := { h with method := .sum }) rfl rfl hp
  rcases hev o row with ⟨e, row3, hp, he⟩ | ⟨row3, hp, he⟩ <;>
    rcases hev' o row with ⟨e', row3', hp', he'⟩ | ⟨row3', hp', he'⟩
  · obtain ⟨h1, rfl⟩ := prepared_unique (prep hp) hp'
    simp at h1; subst h1
    rw [he, he']; simp
  · have := (prepared_unique (prep hp) hp').1; simp at this
  · have := (prepared_unique (prep hp) hp').1; simp at this
  · obtain ⟨-, rfl⟩ := prepared_unique (prep hp) hp'
    rw [he, he']
    have e1 : s.head.functionName = s'.head.functionName := by rw [hh, hh']
    have e2 : initScores s = initScores s' := by unfold initScores; rw [ho, ht, ho', ht']
    have e3 : sumFinish (o.at_ 2) s = sumFinish (o.at_ 2) s' := by funext sm; unfold sumFinish; rw [ht, ht']
    have m1 : s.head.method = .average := by rw [hh]; rfl
    have m2 : s'.head.method = .sum := by rw [hh']; rfl
    unfold runMethod
    rw [m1, m2]
    simp only [e1, e2, e3, hsg]
    cases (sumSegments (o.at_ 1) s'.head.functionName 0 (initScores s') ms' row3).res with
    | error e => simp [Except.map]
    | ok sm =>
      refine ⟨by trivial, by simp [Except.map], ?_⟩
      intro out hout
      simp [Except.map] at hout
      subst hout
      exact ⟨_, _, rfl, rfl, fun k => averageLoop_getElem? _ _ _ k⟩

end Sum

section Exact
open Real'

/-- **C37**: in exact arithmetic, without rescaling, the average of scores that all lie between
`lo` and `hi` lies between `lo` and `hi`. -/
theorem C37_between [Lib ℝ] {dd : List DataField} {h : MiningHead ℝ} {segs : List (SegDoc ℝ)} {td td' : TD ℝ}
    {M : EModel ℝ} (hM : newModel dd (.mining h segs) td = (.ok M, td')) (hm : usesMethod h .average)
    (hne : segs ≠ []) {k : String}
    (hk : ∀ t ∈ h.targets, t.field = k → t.rescaleFactor = none ∧ t.rescaleConstant = none)
    {row row2 : Row ℝ} (hp : Prepared h row (.ok ()) row2) (o : MapOrd) :
    ∃ ms r row', SegModels dd segs (td ++ h.localTransformations) ms td' ∧ SegsRun ms row2 r row' ∧
      ∀ outs lo hi, r = .ok outs → k ∈ ensembleKeys h →
        (∀ out ∈ outs, ∃ v, contribution h.functionName k out = some v ∧ lo ≤ v ∧ v ≤ hi) →
        ∃ out x, (EModel.evaluate o M row).res = .ok (some out) ∧ out[k]? = some (.f64 x) ∧
          lo ≤ x ∧ x ≤ hi := by
  obtain ⟨ms, r, row', hms, hrun, -, -, hok⟩ := C37_average hM hm hp o
  refine ⟨ms, r, row', hms, hrun, ?_⟩
  intro outs lo hi hr hmem hall
  obtain ⟨out, he, hv⟩ := hok outs hr
  refine ⟨out, _, he, (by rw [hv, if_pos hmem]), ?_⟩
  have hlen : outs.length = segs.length := by
    rw [← hms.length_eq]
    clear he hv hok hall hM hp hms
    induction hrun generalizing outs with
    | nil => simp at hr; subst hr; rfl
    | fail => simp at hr
    | cons _ _ ih =>
      rename_i r' _ _ _
      cases r' with
      | error e => simp [Except.map] at hr
      | ok outs' => simp [Except.map] at hr; subst hr; simp [ih _ rfl]
  have hres : ∀ (ts : List (Target ℝ)) (x : ℝ), (∀ t ∈ ts, t.rescaleFactor = none ∧ t.rescaleConstant = none) →
      rescaled x ts = x := by
    intro ts
    induction ts with
    | nil => intros; rfl
    | cons t ts ih =>
      intro x ht
      obtain ⟨a, b⟩ := ht t (by simp)
      unfold rescaled
      simp only [a, b]
      exact ih x (fun u hu => ht u (by simp [hu]))
  have hx : ensembleSum h outs k = (outs.filterMap (contribution h.functionName k)).sum := by
    unfold ensembleSum
    rw [hres, sum_eq]
    intro t ht
    simp only [List.mem_filter, decide_eq_true_eq] at ht
    exact hk t ht.1 ht.2
  have hbound : ∀ outs : List (Out ℝ),
      (∀ out ∈ outs, ∃ v, contribution h.functionName k out = some v ∧ lo ≤ v ∧ v ≤ hi) →
      outs.length * lo ≤ (outs.filterMap (contribution h.functionName k)).sum ∧
      (outs.filterMap (contribution h.functionName k)).sum ≤ outs.length * hi := by
    intro outs
    induction outs with
    | nil => simp
    | cons a l ih =>
      intro hall
      obtain ⟨v, hv, hl, hh⟩ := hall a (by simp)
      obtain ⟨i1, i2⟩ := ih (fun b hb => hall b (by simp [hb]))
      rw [List.filterMap_cons_some hv, List.sum_cons]
      push_cast [List.length_cons]
      constructor <;> linarith
  have hpos : (0 : ℝ) < segs.length := by
    have := List.length_pos_iff.mpr hne
    exact_mod_cast this
  obtain ⟨b1, b2⟩ := hbound outs hall
  rw [hlen] at b1 b2
  rw [hx]
  show lo ≤ _ / ((segs.length : ℤ) : ℝ) ∧ _ / ((segs.length : ℤ) : ℝ) ≤ hi
  rw [Int.cast_natCast, le_div_iff₀ hpos, div_le_iff₀ hpos]
  constructor <;> linarith

end Exact

/-- **C38**: a selectFirst ensemble returns what its first segment returns on the prepared row,
leaves the row as that segment leaves it, and leaves the other segments untouched.  Without
segments it returns an error. -/
theorem C38_selectFirst {dd : List DataField} {h : MiningHead F} {segs : List (SegDoc F)} {td td' : TD F}
    {M : EModel F} (hM : newModel dd (.mining h segs) td = (.ok M, td')) (hm : usesMethod h .selectFirst)
    {row row2 : Row F} (hp : Prepared h row (.ok ()) row2) (o : MapOrd) :
    ∃ s ms, M = .mining s ms ∧ SegModels dd segs (td ++ h.localTransformations) ms td' ∧
      ((segs = [] ∧ (EModel.evaluate o M row).res = fail .noSegments ∧ (EModel.evaluate o M row).row = row2) ∨
       ∃ m rest o', ms = m :: rest ∧
        (EModel.evaluate o M row).res = (EModel.evaluate o' m row2).res ∧
        (EModel.evaluate o M row).row = (EModel.evaluate o' m row2).row ∧
        (EModel.evaluate o M row).model = .mining s ((EModel.evaluate o' m row2).model :: rest)) := by
  obtain ⟨s, ms, rfl, hms, hh, -, -, -, hev⟩ := constructed_mining hM
  rcases hev o row with ⟨e, row3, hp', -⟩ | ⟨row3, hp', he⟩
  · have := (prepared_unique hp hp').1; simp at this
  obtain ⟨-, rfl⟩ := prepared_unique hp hp'
  have hmeth : s.head.method = .selectFirst := by rw [hh]; exact hm
  refine ⟨s, ms, rfl, hms, ?_⟩
  rw [he]
  unfold runMethod
  rw [hmeth]
  cases hms with
  | nil => left; simp [selectFirst]
  | cons h1 h2 =>
    right
    exact ⟨_, _, o.at_ 1, rfl, by simp [selectFirst], by simp [selectFirst], by simp [selectFirst]⟩

omit [Trans F] in
/-- The predicates of segments play no part in construction. -/
theorem compileSegments_predicates {dd : List DataField} {segs segs' : List (SegDoc F)} {td td' : TD F}
    {ms : List (EModel F)} (h : SegModels dd segs td ms td')
    (hs : List.Forall₂ (fun a b => match a, b with | .mk _ _ x, .mk _ _ y => x = y) segs segs') :
    SegModels dd segs' td ms td' := by
  induction h generalizing segs' with
  | nil => cases hs; exact .nil
  | cons h1 _ ih =>
    cases hs with
    | cons a b =>
      rename_i s' l'
      cases s' with
      | mk id' ps' y =>
        simp only at a
        subst a
        exact .cons h1 (ih b)

/-- **C38**: segment predicates are ignored, whatever the method: replacing all of them gives a
model that is accepted again and answers the same on every row (against PMML, where a segment
applies only if its predicate is true). -/
theorem C38_predicates_ignored {dd : List DataField} {h : MiningHead F} {segs segs' : List (SegDoc F)}
    {td td' : TD F} {M : EModel F} (hM : newModel dd (.mining h segs) td = (.ok M, td'))
    (hs : List.Forall₂ (fun a b => match a, b with | .mk _ _ x, .mk _ _ y => x = y) segs segs') :
    ∃ M', newModel dd (.mining h segs') td = (.ok M', td') ∧
      ∀ o row, (EModel.evaluate o M' row).res = (EModel.evaluate o M row).res ∧
        (EModel.evaluate o M' row).row = (EModel.evaluate o M row).row := by
  obtain ⟨s, ms, rfl, hms, hh, ho, ht, hsg, hev⟩ := constructed_mining hM
  have hms' := compileSegments_predicates hms hs
  have hex : ∃ M', newModel dd (.mining h segs') td = (.ok M', td') := by
    rw [newModel] at hM ⊢
    rcases mining_validate (MiningState.init dd h segs) with ⟨a, b, hv⟩ | ⟨-, e, s', hv⟩
    · rcases mining_validate (MiningState.init dd h segs') with ⟨-, -, hv'⟩ | ⟨hn, -⟩
      · rw [hv']
        simp only [MiningState.init]
        rw [hms'.compile]
        exact ⟨_, rfl⟩
      · exact absurd ⟨a, b⟩ hn
    · rw [hv] at hM; simp at hM
  obtain ⟨M', hM'⟩ := hex
  refine ⟨M', hM', fun o row => ?_⟩
  obtain ⟨s', ms', rfl, hms'', hh', ho', ht', hsg', hev'⟩ := constructed_mining hM'
  have hmm : ms' = ms := by
    have := hms'.compile.symm.trans hms''.compile
    simp at this; exact this.symm
  subst hmm
  have hlen : segs'.length = segs.length := hs.length_eq.symm
  rcases hev o row with ⟨e, row3, hp, he⟩ | ⟨row3, hp, he⟩ <;>
    rcases hev' o row with ⟨e', row3', hp', he'⟩ | ⟨row3', hp', he'⟩
  · obtain ⟨h1, rfl⟩ := prepared_unique hp hp'
    simp at h1; subst h1
    rw [he, he']; exact ⟨rfl, rfl⟩
  · have := (prepared_unique hp hp').1; simp at this
  · have := (prepared_unique hp hp').1; simp at this
  · obtain ⟨-, rfl⟩ := prepared_unique hp hp'
    rw [he, he']
    have e1 : s'.head = s.head := by rw [hh, hh']
    have e2 : initScores s' = initScores s := by unfold initScores; rw [ho, ht, ho', ht']
    have e3 : sumFinish (o.at_ 2) s' = sumFinish (o.at_ 2) s := by funext sm; unfold sumFinish; rw [ht, ht']
    unfold runMethod
    simp only [e1, e2, e3, hsg, hsg', hlen]
    cases s.head.method <;> exact ⟨rfl, rfl⟩

/-- **C39**: a model chain evaluates its segments in order, each on the row extended and
overridden by the output of the one before; the result is the last output (an empty row if there
are no segments) or the first error. -/
theorem C39_chain {dd : List DataField} {h : MiningHead F} {segs : List (SegDoc F)} {td td' : TD F}
    {M : EModel F} (hM : newModel dd (.mining h segs) td = (.ok M, td')) (hm : usesMethod h .modelChain)
    {row row2 : Row F} (hp : Prepared h row (.ok ()) row2) (o : MapOrd) :
    ∃ ms, SegModels dd segs (td ++ h.localTransformations) ms td' ∧
      ChainRun (some ∅) ms row2 (EModel.evaluate o M row).res (EModel.evaluate o M row).row := by
  obtain ⟨s, ms, rfl, hms, hh, -, -, -, hev⟩ := constructed_mining hM
  rcases hev o row with ⟨e, row3, hp', -⟩ | ⟨row3, hp', he⟩
  · have := (prepared_unique hp hp').1; simp at this
  obtain ⟨-, rfl⟩ := prepared_unique hp hp'
  have hmeth : s.head.method = .modelChain := by rw [hh]; exact hm
  refine ⟨ms, hms, ?_⟩
  rw [he]
  unfold runMethod
  rw [hmeth]
  exact chainSegments_run ms _ _ _ _

/-- **C39**: without segments the answer is an empty row. -/
theorem C39_empty {dd : List DataField} {h : MiningHead F} {td td' : TD F}
    {M : EModel F} (hM : newModel dd (.mining h []) td = (.ok M, td')) (hm : usesMethod h .modelChain)
    {row row2 : Row F} (hp : Prepared h row (.ok ()) row2) (o : MapOrd) :
    (EModel.evaluate o M row).res = .ok (some ∅) ∧ (EModel.evaluate o M row).row = row2 := by
  obtain ⟨ms, hms, hrun⟩ := C39_chain hM hm hp o
  cases hms
  generalize (EModel.evaluate o M row).res = r at *
  generalize (EModel.evaluate o M row).row = w at *
  cases hrun
  exact ⟨rfl, rfl⟩

/-- **C40**: evaluating a row is the same, in every respect, as evaluating the row in which the
absent and nil fields with a replacement hold that replacement and nothing else is changed. -/
theorem C40_impute {dd : List DataField} {h : MiningHead F} {segs : List (SegDoc F)} {td td' : TD F}
    {M : EModel F} (hM : newModel dd (.mining h segs) td = (.ok M, td')) (row : GoMap (GoVal F)) :
    ∃ row1, Imputed h.miningFields row row1 ∧
      ∀ o, EModel.evaluate o M (some row) = EModel.evaluate o M (some row1) := by
  obtain ⟨row1, -, hi⟩ := impute_some .sorted h.miningFields row
  refine ⟨row1, hi, fun o => ?_⟩
  have hii : Imputed h.miningFields row1 row1 := by
    intro k
    have := hi k
    cases hr : replacement h.miningFields k with
    | none => rfl
    | some t =>
      rw [hr] at this
      cases hv : row[k]? with
      | none => rw [hv] at this; simp only at this; rw [this]
      | some v => cases v <;> rw [hv] at this <;> simp only at this <;> rw [this]
  obtain ⟨s, ms, rfl, -, -, -, -, -, hev⟩ := constructed_mining hM
  have prep : ∀ {r row2}, Prepared h (some row) r row2 → Prepared h (some row1) r row2 := by
    intro r row2 hp
    cases hp with
    | row a b => rw [imputed_unique a hi] at b; exact .row hii b
  rcases hev o (some row) with ⟨e, row3, hp, he⟩ | ⟨row3, hp, he⟩ <;>
    rcases hev o (some row1) with ⟨e', row3', hp', he'⟩ | ⟨row3', hp', he'⟩
  · obtain ⟨h1, rfl⟩ := prepared_unique (prep hp) hp'
    simp at h1; subst h1
    rw [he, he']
  · have := (prepared_unique (prep hp) hp').1; simp at this
  · have := (prepared_unique (prep hp) hp').1; simp at this
  · obtain ⟨-, rfl⟩ := prepared_unique (prep hp) hp'
    rw [he, he']

/-- **C40**: seen directly: an ensemble without segments and derived fields leaves the caller's row
with exactly the replacements made. -/
theorem C40_row {dd : List DataField} {h : MiningHead F} {td td' : TD F}
    {M : EModel F} (hM : newModel dd (.mining h []) td = (.ok M, td')) (hl : h.localTransformations = [])
    (row : GoMap (GoVal F)) (o : MapOrd) :
    ∃ row1, (EModel.evaluate o M (some row)).row = some row1 ∧ Imputed h.miningFields row row1 := by
  obtain ⟨s, ms, rfl, hms, -, -, -, -, hev⟩ := constructed_mining hM
  cases hms
  rcases hev o (some row) with ⟨e, row3, hp, he⟩ | ⟨row3, hp, he⟩
  · rw [he]
    cases hp with
    | row a b => rw [hl] at b; simp [handleInput] at b
  · rw [he]
    cases hp with
    | row a b =>
      rw [hl] at b; simp [handleInput] at b; subst b
      refine ⟨_, ?_, a⟩
      unfold runMethod
      cases s.head.method <;> simp [sumSegments, chainSegments, selectFirst]

/-- **C40**: on a nil row a replacement panics. -/
theorem C40_nil_row {dd : List DataField} {h : MiningHead F} {segs : List (SegDoc F)} {td td' : TD F}
    {M : EModel F} (hM : newModel dd (.mining h segs) td = (.ok M, td')) {k : String}
    (hk : (replacement h.miningFields k).isSome) (o : MapOrd) :
    EModel.evaluate o M none = ⟨panic .nilMapWrite, none, M⟩ := by
  obtain ⟨s, ms, rfl, -, -, -, -, -, hev⟩ := constructed_mining hM
  rcases hev o none with ⟨e, row3, hp, he⟩ | ⟨row3, hp, he⟩
  · obtain ⟨h1, h2⟩ := prepared_unique hp (.nilPanic hk)
    simp at h1; subst h1 h2; exact he
  · have := (prepared_unique hp (.nilPanic hk)).1; simp at this

/-- A run that evaluates all of `pre` and then meets a segment that fails with `e`. -/
inductive FailsWith : List (EModel F) → Row F → Fault → Prop
  | here {m ms row o e} : (EModel.evaluate o m row).res = .error e → FailsWith (m :: ms) row e
  | later {m ms row o out e} : (EModel.evaluate o m row).res = .ok out →
      FailsWith ms (EModel.evaluate o m row).row e → FailsWith (m :: ms) row e

theorem SegsRun.error {ms : List (EModel F)} {row row' : Row F} {e : Fault} :
    SegsRun ms row (.error e) row' → FailsWith ms row e := by
  intro h
  generalize hr : (Except.error e : Res (List (Out F))) = r at h
  induction h with
  | nil => simp at hr
  | fail h => simp at hr; subst hr; exact .here h
  | cons h1 _ ih =>
    rename_i r' _ _
    cases r' with
    | error e' => simp [Except.map] at hr; subst hr; exact .later h1 (ih rfl)
    | ok outs => simp [Except.map] at hr

theorem SegsRun.det {ms : List (EModel F)} (hd : ∀ m ∈ ms, ∀ o o' row,
      EModel.evaluate o m row = EModel.evaluate o' m row) {row row' : Row F} {r : Res (List (Out F))}
    (h : SegsRun ms row r row') {e : Fault} (hf : FailsWith ms row e) : r = .error e := by
  induction h with
  | nil => cases hf
  | fail h =>
    rename_i m ms row o e1
    cases hf with
    | here h' => rw [hd m (by simp) _ o, h] at h'; simpa using h'
    | later h' _ => rw [hd m (by simp) _ o, h] at h'; simp at h'
  | cons h1 _ ih =>
    rename_i m ms row o out r' row' _
    cases hf with
    | here h' => rw [hd m (by simp) _ o, h1] at h'; simp at h'
    | later h' ht =>
      rw [hd m (by simp) _ o] at ht
      rw [ih (fun a ha => hd a (by simp [ha])) ht]
      rfl

/-- **C42**, sum and average: the ensemble fails exactly when the run of its segments fails, with
the error of the first segment that failed. -/
theorem C42_sum_average {dd : List DataField} {h : MiningHead F} {segs : List (SegDoc F)} {td td' : TD F}
    {M : EModel F} (hM : newModel dd (.mining h segs) td = (.ok M, td'))
    (hm : usesMethod h .sum ∨ usesMethod h .average)
    {row row2 : Row F} (hp : Prepared h row (.ok ()) row2) (o : MapOrd) :
    ∃ ms r row', SegModels dd segs (td ++ h.localTransformations) ms td' ∧ SegsRun ms row2 r row' ∧
      (∀ e, (EModel.evaluate o M row).res = .error e ↔ r = .error e) ∧
      ∀ e, (EModel.evaluate o M row).res = .error e → FailsWith ms row2 e := by
  have key : ∃ ms r row', SegModels dd segs (td ++ h.localTransformations) ms td' ∧ SegsRun ms row2 r row' ∧
      (∀ e, r = .error e → (EModel.evaluate o M row).res = .error e) ∧
      ∀ outs, r = .ok outs → ∃ out, (EModel.evaluate o M row).res = .ok (some out) := by
    rcases hm with hm | hm
    · obtain ⟨ms, r, row', a, b, -, c, d⟩ := C36_sum hM hm hp o
      exact ⟨ms, r, row', a, b, c, fun outs hr => ⟨_, (d outs hr).choose_spec.1⟩⟩
    · obtain ⟨ms, r, row', a, b, -, c, d⟩ := C37_average hM hm hp o
      exact ⟨ms, r, row', a, b, c, fun outs hr => ⟨_, (d outs hr).choose_spec.1⟩⟩
  obtain ⟨ms, r, row', a, b, c, d⟩ := key
  have hiff : ∀ e, (EModel.evaluate o M row).res = .error e ↔ r = .error e := by
    intro e
    cases hr : r with
    | error e' => rw [c e' hr]; simp
    | ok outs =>
      obtain ⟨out, ho⟩ := d outs hr
      rw [ho]; simp
  exact ⟨ms, r, row', a, b, hiff, fun e he => SegsRun.error ((hiff e).mp he ▸ b)⟩

/-- **C42**, sum and average, for ensembles whose trees do not mix distributions: if the segments
before some segment succeed and that segment fails, the ensemble fails with its error. -/
theorem C42_first_failure {dd : List DataField} {h : MiningHead F} {segs : List (SegDoc F)} {td td' : TD F}
    {M : EModel F} (hM : newModel dd (.mining h segs) td = (.ok M, td'))
    (hm : usesMethod h .sum ∨ usesMethod h .average) (hn : NoMixingDoc (.mining h segs))
    {row row2 : Row F} (hp : Prepared h row (.ok ()) row2) {ms : List (EModel F)}
    (hms : SegModels dd segs (td ++ h.localTransformations) ms td') {e : Fault}
    (hf : FailsWith ms row2 e) (o : MapOrd) : (EModel.evaluate o M row).res = .error e := by
  obtain ⟨ms', r, row', a, b, hiff, -⟩ := C42_sum_average hM hm hp o
  have hmm : ms' = ms := by
    have := a.compile.symm.trans hms.compile
    simp at this; exact this
  subst hmm
  have hno : ∀ m ∈ ms', NoMixing m := by
    cases hn with
    | mining hn => exact compileSegments_noMixing dd segs hn hms.compile
  rw [hiff]
  exact SegsRun.det (fun m hm o o' row => C25_order (hno m hm) o o' row) b hf

/-- **C42**, modelChain: an error is that of a segment, evaluated on a row prepared by the segments
before it (or the panic of writing an output into a nil row). -/
inductive ChainFails : Out F → List (EModel F) → Row F → Fault → Prop
  | nilRow {last m ms} : last.getD ∅ ≠ ∅ → ChainFails last (m :: ms) none (.panic .nilMapWrite)
  | here {last m ms row row1 o e} : Extended row (last.getD ∅) row1 →
      (EModel.evaluate o m row1).res = .error e → ChainFails last (m :: ms) row e
  | later {last m ms row row1 o out e} : Extended row (last.getD ∅) row1 →
      (EModel.evaluate o m row1).res = .ok out →
      ChainFails out ms (EModel.evaluate o m row1).row e → ChainFails last (m :: ms) row e

theorem ChainRun.error {last : Out F} {ms : List (EModel F)} {row row' : Row F} {e : Fault} :
    ChainRun last ms row (.error e) row' → ChainFails last ms row e := by
  intro h
  generalize hr : (Except.error e : Res (Out F)) = r at h
  induction h with
  | nil => simp at hr
  | nilRow h => simp at hr; subst hr; exact .nilRow h
  | fail h1 h2 => simp at hr; subst hr; exact .here h1 h2
  | cons h1 h2 _ ih => exact .later h1 h2 (ih hr)

omit [Arith F] [Lib F] [Trans F] in
theorem extended_unique {row a b : Row F} {out : GoMap (GoVal F)} (h1 : Extended row out a)
    (h2 : Extended row out b) : a = b := by
  obtain ⟨n1, -, k1⟩ := h1
  obtain ⟨n2, -, k2⟩ := h2
  cases a with
  | none => exact ((n2.mp (n1.mpr rfl)).symm)
  | some a =>
    cases b with
    | none => exact absurd (n1.mp (n2.mpr rfl)) (by simp)
    | some b =>
      congr 1
      apply Std.ExtTreeMap.ext_getElem?
      intro k
      have e1 := k1 k
      have e2 := k2 k
      simp only [Row.get] at e1 e2
      exact e1.trans e2.symm

theorem ChainRun.det {ms : List (EModel F)} (hd : ∀ m ∈ ms, ∀ o o' row,
      EModel.evaluate o m row = EModel.evaluate o' m row) {last : Out F} {row row' : Row F} {r : Res (Out F)}
    (h : ChainRun last ms row r row') {e : Fault} (hf : ChainFails last ms row e) : r = .error e := by
  induction h with
  | nil => cases hf
  | nilRow hne =>
    cases hf with
    | nilRow _ => rfl
    | here hx _ => exact absurd (hx.2.1 rfl) hne
    | later hx _ _ => exact absurd (hx.2.1 rfl) hne
  | fail hx h =>
    rename_i last m ms row row1 o e1
    cases hf with
    | nilRow hne => exact absurd (hx.2.1 rfl) hne
    | here hx' h' =>
      rw [extended_unique hx' hx, hd m (by simp) _ o, h] at h'; simpa using h'
    | later hx' h' _ => rw [extended_unique hx' hx, hd m (by simp) _ o, h] at h'; simp at h'
  | cons hx h1 _ ih =>
    rename_i last m ms row row1 o out r' row' _
    cases hf with
    | nilRow hne => exact absurd (hx.2.1 rfl) hne
    | here hx' h' => rw [extended_unique hx' hx, hd m (by simp) _ o, h1] at h'; simp at h'
    | later hx' h' ht =>
      rw [extended_unique hx' hx, hd m (by simp) _ o] at ht h'
      rw [h1] at h'
      simp at h'
      subst h'
      exact ih (fun a ha => hd a (by simp [ha])) ht

/-- **C42**, modelChain. -/
theorem C42_chain {dd : List DataField} {h : MiningHead F} {segs : List (SegDoc F)} {td td' : TD F}
    {M : EModel F} (hM : newModel dd (.mining h segs) td = (.ok M, td')) (hm : usesMethod h .modelChain)
    {row row2 : Row F} (hp : Prepared h row (.ok ()) row2) (o : MapOrd) :
    ∃ ms, SegModels dd segs (td ++ h.localTransformations) ms td' ∧
      (∀ e, (EModel.evaluate o M row).res = .error e → ChainFails (some ∅) ms row2 e) ∧
      (NoMixingDoc (.mining h segs) → ∀ e, ChainFails (some ∅) ms row2 e →
        (EModel.evaluate o M row).res = .error e) := by
  obtain ⟨ms, hms, hrun⟩ := C39_chain hM hm hp o
  refine ⟨ms, hms, fun e he => ChainRun.error (he ▸ hrun), fun hn e hf => ?_⟩
  have hno : ∀ m ∈ ms, NoMixing m := by
    cases hn with
    | mining hn => exact compileSegments_noMixing dd segs hn hms.compile
  exact ChainRun.det (fun m hm o o' row => C25_order (hno m hm) o o' row) hrun hf

/-- **C42**: errors before the segments (in derived fields) and the panic of replacing values in a
nil row are returned as they are, and no segment is evaluated. -/
theorem C42_preparation {dd : List DataField} {h : MiningHead F} {segs : List (SegDoc F)} {td td' : TD F}
    {M : EModel F} (hM : newModel dd (.mining h segs) td = (.ok M, td'))
    {row row2 : Row F} {e : Fault} (hp : Prepared h row (.error e) row2) (o : MapOrd) :
    EModel.evaluate o M row = ⟨.error e, row2, M⟩ := by
  obtain ⟨s, ms, rfl, -, -, -, -, -, hev⟩ := constructed_mining hM
  rcases hev o row with ⟨e', row3, hp', he⟩ | ⟨row3, hp', he⟩
  · obtain ⟨h1, rfl⟩ := prepared_unique hp hp'
    simp at h1; subst h1; exact he
  · have := (prepared_unique hp hp').1; simp at this

section Examples
open Samples Replay

/-- Three trees without rescaling. -/
def plain (method : MultipleModelMethod) : ModelElem F64 :=
  .mining { head method with targets := [⟨"y", none, none⟩] }
    [seg (.tree (regTree "1" "10")), seg (.tree (regTree "2" "20")), seg (.tree (regTree "3" "40"))]

/-- The first tree cannot parse its own score, and its predicate is False. -/
def failing (method : MultipleModelMethod) : ModelElem F64 :=
  .mining (head method)
    [seg (.tree (regTree "1" "10")), .mk "" [.false_] [.tree (regTree "two" "20")], seg (.tree (regTree "4" "40"))]

-- C36, C37: sums, their rescaling, and averages: (1+2+4)*2+1 = 15, 15/3 = 5, (1+2+3)/3 = 2.
example : eval .sorted (ensemble .empty) [] = some (.ok (some (mk [("y", .f64 (num "15"))]))) ∧
    eval .reversed (ensemble .average) [] = some (.ok (some (mk [("y", .f64 (num "5"))]))) ∧
    eval .sorted (plain .average) [] = some (.ok (some (mk [("y", .f64 (num "2"))]))) := by decide +kernel

-- C38: the first segment answers although its predicate is False.
example : eval .sorted (.mining (head .selectFirst)
      [.mk "" [.false_] [.tree (regTree "1" "10")], seg (.tree (regTree "2" "20"))]) [] =
        some (.ok (some (mk [("score", .f64 (num "1"))]))) ∧
    eval .sorted (.mining (head .selectFirst) []) [] = some (fail .noSegments) := by decide +kernel

-- C39: the second model of the chain tests the first one's score.
def chained : ModelElem F64 :=
  .mining { head .modelChain with targets := [] }
    [seg (.tree (regTree "1" "10")), seg (.tree { regTree "a" "b" with
      node := .mk "" "" "0" (num "0") [] [
        .mk "" "" "100" (num "0") [] [] (some (sp "score" .lessThan "5")),
        .mk "" "" "200" (num "0") [] [] (some (sp "score" .greaterOrEqual "5"))] (some .true_) })]
example :
    (match newModel (⟨"score", .double, []⟩ :: Samples.dd) chained [] with
      | (.ok m, _) => decide (
        (EModel.evaluate .sorted m (some (mk [("x", .int .int 1)]))).res =
          .ok (some (mk [("score", .f64 (num "100"))])) ∧
        (EModel.evaluate .sorted m (some (mk [("x", .int .int 7)]))).res =
          .ok (some (mk [("score", .f64 (num "200"))])) ∧
        (EModel.evaluate .sorted m (some (mk [("x", .int .int 7)]))).row =
          some (mk [("x", .int .int 7), ("score", .f64 (num "10"))]))
      | _ => false) = true := by decide +kernel

-- C40: x absent and nil are replaced, a present x and the other fields are kept.
example : evalRow .sorted (.mining (head .sum) []) [("c", .str "u")] =
      some (some (mk [("c", .str "u"), ("x", .str "3")])) ∧
    evalRow .sorted (.mining (head .sum) []) [("x", .nil)] = some (some (mk [("x", .str "3")])) ∧
    evalRow .sorted (.mining (head .sum) []) [("x", .int .int 4)] = some (some (mk [("x", .int .int 4)])) := by
  decide +kernel

-- C42: the second segment fails; with x = 7 it does not.
example : eval .sorted (failing .sum) [] = some (fail (.parse "two")) ∧
    eval .sorted (failing .average) [] = some (fail (.parse "two")) ∧
    eval .sorted (failing .modelChain) [] = some (fail (.parse "two")) ∧
    eval .sorted (failing .sum) [("x", .int .int 7)] = some (.ok (some (mk [("y", .f64 (num "141"))]))) := by
  decide +kernel

end Examples

end Gopmml.Props
