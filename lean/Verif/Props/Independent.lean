import Verif.Props.Live
import Verif.Props.Shared
import Verif.Props.Mining
import Verif.Props.MapOrder
import Verif.Props.Exact

/-!
# Property C66: segments that do not disturb each other

The segments of a sum or average ensemble share one row.  If no segment writes a field that is live
in another, every segment answers as it would on the prepared row alone, and in exact arithmetic
their order does not matter.
-/

namespace Gopmml.Props
open Gopmml Spec

variable {F : Type} [Arith F] [Lib F]

mutual
theorem newModel_td {dd : List DataField} : (e : ModelElem F) → ∀ {td td' : TD F} {m : EModel F},
    newModel dd e td = (.ok m, td') → td ⊆ td'
  | .tree d, td, td', m, h => by
    rw [newModel] at h
    rcases hn : newTreeModel dd td d with ⟨_ | t, tdx⟩ <;> rw [hn] at h
    · simp at h
    · simp at h; obtain ⟨rfl, rfl⟩ := h
      obtain ⟨-, htd, -⟩ := newTreeModel_ok hn
      rw [htd]
      exact List.subset_append_left _ _
  | .regression d, td, td', m, h => by
    simp [newModel] at h; obtain ⟨rfl, rfl⟩ := h; exact List.Subset.refl _
  | .mining hh segs, td, td', m, h => by
    rw [newModel] at h
    rcases hval : (MiningState.init dd hh segs).validate with ⟨_ | ⟨⟨⟩⟩, s⟩ <;> rw [hval] at h
    · simp at h
    · rcases hc : compileSegments dd segs (td ++ s.head.localTransformations) with ⟨_ | ⟨⟨⟩⟩, ms, tdx⟩ <;>
        simp only [hc] at h
      · simp at h
      · simp at h
        obtain ⟨rfl, rfl⟩ := h
        exact List.Subset.trans (List.subset_append_left _ _) (compileSegments_td segs hc)
  | .other k, td, td', m, h => by simp [newModel] at h
theorem compileSegments_td {dd : List DataField} : (segs : List (SegDoc F)) → ∀ {td td' : TD F} {ms : List (EModel F)},
    compileSegments dd segs td = (.ok (), ms, td') → td ⊆ td'
  | [], td, td', ms, h => by
    simp [compileSegments] at h; obtain ⟨-, rfl⟩ := h; exact List.Subset.refl _
  | .mk id ps [] :: segs, td, td', ms, h => by simp [compileSegments] at h
  | .mk id ps [e] :: segs, td, td', ms, h => by
    rw [compileSegments] at h
    rcases hn : newModel dd e td with ⟨_ | m, td1⟩ <;> rw [hn] at h
    · simp at h
    · rcases hc : compileSegments dd segs td1 with ⟨r, ms1, td2⟩
      simp only [hc] at h
      simp at h
      obtain ⟨rfl, rfl, rfl⟩ := h
      exact List.Subset.trans (newModel_td e hn) (compileSegments_td segs hc)
  | .mk id ps (e :: e' :: es) :: segs, td, td', ms, h => by simp [compileSegments] at h
end

variable [Trans F]

/-- The segments evaluated one by one, each on a copy of the same row, up to the first failure. -/
inductive Alone : List (EModel F) → Row F → Res (List (Out F)) → Prop
  | nil {row} : Alone [] row (.ok [])
  | fail {m ms row o e} : (EModel.evaluate o m row).res = .error e → Alone (m :: ms) row (.error e)
  | cons {m ms row o out r} : (EModel.evaluate o m row).res = .ok out → Alone ms row r →
      Alone (m :: ms) row (r.map (out :: ·))

/-- The first segment writes nothing that is live in the second. -/
def Spares : SegDoc F → SegDoc F → Prop
  | .mk _ _ es, .mk _ _ es' => ∀ e ∈ es, ∀ e' ∈ es', ∀ f ∈ liveIn e' [], ¬ DocWrites e f

theorem segsRun_alone {dd : List DataField} {segs : List (SegDoc F)} {td td' : TD F} {ms : List (EModel F)}
    (hms : SegModels dd segs td ms td') (hs : segs.Pairwise Spares) (r : GoMap (GoVal F)) :
    ∀ q : GoMap (GoVal F), (∀ id ps e, SegDoc.mk id ps [e] ∈ segs → ∀ f ∈ liveIn e [], q[f]? = r[f]?) →
    ∀ {res row'}, SegsRun ms (some q) res row' → Alone ms (some r) res := by
  induction hms with
  | nil => intro q _ res row' h; cases h; exact .nil
  | @cons id ps e segs td td1 td2 m ms hn _ ih =>
    intro q hq res row' h
    rw [List.pairwise_cons] at hs
    have hlive : ∀ o, (EModel.evaluate o m (some q)).res = (EModel.evaluate o m (some r)).res := fun o =>
      C63_live hn o (hq id ps e (by simp))
    cases h with
    | fail he => exact .fail (by rw [← hlive]; exact he)
    | @cons _ _ _ o out r' _ he hrun =>
      refine .cons (by rw [← hlive]; exact he) ?_
      obtain ⟨-, q', -, hq', -, -⟩ := newModel_framed hn (fun _ => True) (fun _ _ => trivial) o q q (fun _ _ => rfl)
      rw [hq'] at hrun
      refine ih hs.2 q' (fun id' ps' e' hm' f hf => ?_) hrun
      have hw := hs.1 _ hm' e (by simp) e' (by simp) f hf
      have := C41_document hn hw o (some q)
      rw [hq'] at this
      exact Eq.trans this (hq id' ps' e' (by simp [hm']) f hf)

omit [Trans F] in
theorem prepared_some {h : MiningHead F} {r : GoMap (GoVal F)} {res : Res Unit} {row : Row F}
    (hp : Prepared h (some r) res row) : ∃ q, row = some q := by
  cases hp with
  | row a b =>
    rename_i r1
    obtain ⟨q, hq⟩ := handleInput_some h.localTransformations r1
    rw [b] at hq
    exact ⟨q, hq⟩

/-- **C66** (each on its own): in a sum ensemble whose segments spare the later ones, each segment
contributes what it answers on the prepared row alone. -/
theorem C66_sum {dd : List DataField} {h : MiningHead F} {segs : List (SegDoc F)} {td td' : TD F}
    {M : EModel F} (hM : newModel dd (.mining h segs) td = (.ok M, td')) (hm : usesMethod h .sum)
    (hs : segs.Pairwise Spares) {r : GoMap (GoVal F)} {row2 : Row F} (hp : Prepared h (some r) (.ok ()) row2)
    (o : MapOrd) :
    ∃ ms res, SegModels dd segs (td ++ h.localTransformations) ms td' ∧ Alone ms row2 res ∧
      (∀ e, res = .error e → (EModel.evaluate o M (some r)).res = .error e) ∧
      ∀ outs, res = .ok outs → ∃ out, (EModel.evaluate o M (some r)).res = .ok (some out) ∧
        ∀ k, out[k]? = if k ∈ ensembleKeys h then some (.f64 (ensembleSum h outs k)) else none := by
  obtain ⟨ms, res, row', h1, h2, -, h3, h4⟩ := C36_sum hM hm hp o
  obtain ⟨q, rfl⟩ := prepared_some hp
  exact ⟨ms, res, h1, segsRun_alone h1 hs q q (fun _ _ _ _ _ _ => rfl) h2, h3, h4⟩

/-- **C66** (each on its own), for averages. -/
theorem C66_average {dd : List DataField} {h : MiningHead F} {segs : List (SegDoc F)} {td td' : TD F}
    {M : EModel F} (hM : newModel dd (.mining h segs) td = (.ok M, td')) (hm : usesMethod h .average)
    (hs : segs.Pairwise Spares) {r : GoMap (GoVal F)} {row2 : Row F} (hp : Prepared h (some r) (.ok ()) row2)
    (o : MapOrd) :
    ∃ ms res, SegModels dd segs (td ++ h.localTransformations) ms td' ∧ Alone ms row2 res ∧
      (∀ e, res = .error e → (EModel.evaluate o M (some r)).res = .error e) ∧
      ∀ outs, res = .ok outs → ∃ out, (EModel.evaluate o M (some r)).res = .ok (some out) ∧
        ∀ k, out[k]? = if k ∈ ensembleKeys h then
          some (.f64 (Arith.div (ensembleSum h outs k) (Arith.ofInt segs.length))) else none := by
  obtain ⟨ms, res, row', h1, h2, -, h3, h4⟩ := C37_average hM hm hp o
  obtain ⟨q, rfl⟩ := prepared_some hp
  exact ⟨ms, res, h1, segsRun_alone h1 hs q q (fun _ _ _ _ _ _ => rfl) h2, h3, h4⟩

/-- What a segment answers on a row when it is built with the dictionary `td`. -/
def answerAt (dd : List DataField) (td : TD F) (row : Row F) : SegDoc F → Res (Out F)
  | .mk _ _ [e] =>
    match newModel dd e td with
    | (.ok m, _) => (EModel.evaluate .sorted m row).res
    | (.error e, _) => .error e
  | _ => fail .noSegments

theorem segment_answers {ty : String → DataType} {dd : List DataField} {segs : List (SegDoc F)} {td td' T : TD F}
    {ms : List (EModel F)} (hms : SegModels dd segs td ms td') (hd : ∀ f ∈ dd, f.dataType = ty f.name)
    (hT : ∀ f ∈ T, f.dataType = ty f.name) (htd : ∀ f ∈ td, f.dataType = ty f.name)
    (hdoc : ∀ id ps e, SegDoc.mk id ps [e] ∈ segs → ∀ f, DerivedIn f e → f.dataType = ty f.name)
    (hmix : ∀ id ps e, SegDoc.mk id ps [e] ∈ segs → NoMixingDoc e) (hsub : td' ⊆ T) (row : Row F) :
    List.Forall₂ (fun s m => ∀ o, (EModel.evaluate o m row).res = answerAt dd T row s) segs ms := by
  induction hms with
  | nil => exact .nil
  | @cons id ps e segs td td1 td2 m ms hn hms ih =>
    have h1 := newModel_td e hn
    have h2 := compileSegments_td segs hms.compile
    obtain ⟨m2, tdx, hb, hsame, -, ht1, -, -⟩ := rebuild hd e hn (hdoc id ps e (by simp)) htd hT
      (List.Subset.trans h1 (List.Subset.trans h2 hsub))
    refine .cons (fun o => ?_) (ih ht1 (fun id ps e h => hdoc id ps e (by simp [h]))
      (fun id ps e h => hmix id ps e (by simp [h])) hsub)
    simp only [answerAt, hb]
    rw [C25_order_document (hmix id ps e (by simp)) hn o .sorted row, (hsame .sorted row).1]

theorem typed_td {ty : String → DataType} {dd : List DataField} {segs : List (SegDoc F)} {td td' : TD F}
    {ms : List (EModel F)} (hms : SegModels dd segs td ms td') (hd : ∀ f ∈ dd, f.dataType = ty f.name)
    (htd : ∀ f ∈ td, f.dataType = ty f.name)
    (hdoc : ∀ id ps e, SegDoc.mk id ps [e] ∈ segs → ∀ f, DerivedIn f e → f.dataType = ty f.name) :
    ∀ f ∈ td', f.dataType = ty f.name := by
  induction hms with
  | nil => exact htd
  | @cons id ps e segs td td1 td2 m ms hn hms ih =>
    obtain ⟨-, -, -, -, -, ht1, -⟩ := rebuild hd e hn (hdoc id ps e (by simp)) htd htd (List.Subset.refl _)
    exact ih ht1 fun id ps e h => hdoc id ps e (by simp [h])

theorem alone_ok {row : Row F} {ans : SegDoc F → Res (Out F)} {segs : List (SegDoc F)} {ms : List (EModel F)}
    (h : List.Forall₂ (fun s m => ∀ o, (EModel.evaluate o m row).res = ans s) segs ms) :
    ∀ {res : Res (List (Out F))}, Alone ms row res → ∀ outs, res = .ok outs ↔
      List.Forall₂ (fun s out => ans s = .ok out) segs outs := by
  induction h with
  | nil =>
    intro res ha outs
    cases ha
    constructor
    · intro h; simp at h; subst h; exact .nil
    · intro h; cases h; rfl
  | @cons s m segs ms h1 _ ih =>
    intro res ha outs
    cases ha with
    | fail he =>
      rw [h1] at he
      refine ⟨fun h => by simp at h, fun h => ?_⟩
      cases h with
      | cons h _ => rw [he] at h; cases h
    | @cons _ _ _ o out r ho hr =>
      rw [h1] at ho
      constructor
      · intro h
        cases r with
        | error e => simp [Except.map] at h
        | ok outs' =>
          simp [Except.map] at h
          subst h
          exact .cons ho ((ih hr outs').mp rfl)
      · intro h
        cases h with
        | @cons _ out' _ outs' h h' =>
          rw [ho] at h
          cases h
          rw [(ih hr outs').mpr h']
          rfl

open Classical in
/-- Entry `k` of an ensemble of `n` segments that sums or averages. -/
noncomputable def entry (h : MiningHead F) (n : Nat) (outs : List (Out F)) (k : String) : F :=
  if usesMethod h .average then Arith.div (ensembleSum h outs k) (Arith.ofInt n) else ensembleSum h outs k

theorem ensemble_answers {ty : String → DataType} {dd : List DataField} {h : MiningHead F}
    {segs : List (SegDoc F)} {td td1 T : TD F} {M : EModel F}
    (hM : newModel dd (.mining h segs) td = (.ok M, td1)) (hm : usesMethod h .sum ∨ usesMethod h .average)
    (hs : segs.Pairwise Spares) (hd : ∀ f ∈ dd, f.dataType = ty f.name) (hT : ∀ f ∈ T, f.dataType = ty f.name)
    (htd : ∀ f ∈ td ++ h.localTransformations, f.dataType = ty f.name)
    (hdoc : ∀ id ps e, SegDoc.mk id ps [e] ∈ segs → ∀ f, DerivedIn f e → f.dataType = ty f.name)
    (hmix : ∀ id ps e, SegDoc.mk id ps [e] ∈ segs → NoMixingDoc e) (hsub : td1 ⊆ T)
    {r : GoMap (GoVal F)} {row2 : Row F} (hp : Prepared h (some r) (.ok ()) row2) (o : MapOrd) (out : Out F) :
    (EModel.evaluate o M (some r)).res = .ok out ↔ ∃ outs row, out = some row ∧
      List.Forall₂ (fun s out => answerAt dd T row2 s = .ok out) segs outs ∧
      ∀ k : String, row[k]? = if k ∈ ensembleKeys h then some (.f64 (entry h segs.length outs k)) else none := by
  have key : ∃ ms res, SegModels dd segs (td ++ h.localTransformations) ms td1 ∧ Alone ms row2 res ∧
      (∀ e, res = .error e → (EModel.evaluate o M (some r)).res = .error e) ∧
      ∀ outs, res = .ok outs → ∃ out, (EModel.evaluate o M (some r)).res = .ok (some out) ∧
        ∀ k, out[k]? = if k ∈ ensembleKeys h then some (.f64 (entry h segs.length outs k)) else none := by
    unfold entry
    rcases hm with hm | hm
    · obtain ⟨ms, res, h1, h2, h3, h4⟩ := C66_sum hM hm hs hp o
      refine ⟨ms, res, h1, h2, h3, fun outs ho => ?_⟩
      obtain ⟨out, h5, h6⟩ := h4 outs ho
      have : ¬ usesMethod h .average := fun ha => by
        unfold usesMethod at ha hm; rw [ha] at hm; cases hm
      exact ⟨out, h5, fun k => by rw [h6 k, if_neg this]⟩
    · obtain ⟨ms, res, h1, h2, h3, h4⟩ := C66_average hM hm hs hp o
      refine ⟨ms, res, h1, h2, h3, fun outs ho => ?_⟩
      obtain ⟨out, h5, h6⟩ := h4 outs ho
      exact ⟨out, h5, fun k => by rw [h6 k, if_pos hm]⟩
  obtain ⟨ms, res, h1, h2, h3, h4⟩ := key
  have hall := alone_ok (segment_answers h1 hd hT htd hdoc hmix hsub row2) h2
  constructor
  · intro h
    cases res with
    | error e => rw [h3 e rfl] at h; cases h
    | ok outs =>
      obtain ⟨row, h5, h6⟩ := h4 outs rfl
      rw [h5] at h
      cases h
      exact ⟨outs, row, rfl, (hall outs).mp rfl, h6⟩
  · rintro ⟨outs, row, rfl, hf, hk⟩
    obtain ⟨row', h5, h6⟩ := h4 outs ((hall outs).mpr hf)
    rw [h5]
    have : row' = row := Std.ExtTreeMap.ext_getElem? fun {k} => (h6 k).trans (hk k).symm
    rw [this]

section Exact
open Real'

theorem ensembleSum_perm [Lib ℝ] (h : MiningHead ℝ) {outs outs' : List (Out ℝ)} (hp : outs.Perm outs') (k : String) :
    ensembleSum h outs k = ensembleSum h outs' k := by
  unfold ensembleSum
  rw [sum_perm (hp.filterMap _)]

/-- **C66** (order of segments): exact arithmetic, methods sum and average.  Two documents that differ
in the order of their segments only, where no segment writes what is live in another and no field
has two types: they give the same answers on every row, and fail on the same rows. -/
theorem C66_order [Lib ℝ] {ty : String → DataType} {dd : List DataField} {h : MiningHead ℝ}
    {segs segs' : List (SegDoc ℝ)} {td td1 td2 : TD ℝ} {M M' : EModel ℝ}
    (hM : newModel dd (.mining h segs) td = (.ok M, td1)) (hM' : newModel dd (.mining h segs') td = (.ok M', td2))
    (hperm : segs.Perm segs') (hm : usesMethod h .sum ∨ usesMethod h .average)
    (hs : segs.Pairwise fun s s' => Spares s s' ∧ Spares s' s) (hw : WellTyped ty dd td (.mining h segs))
    (hmix : NoMixingDoc (.mining h segs)) (o o' : MapOrd) (r : GoMap (GoVal ℝ)) (out : Out ℝ) :
    (EModel.evaluate o M (some r)).res = .ok out ↔ (EModel.evaluate o' M' (some r)).res = .ok out := by
  have hs' : segs'.Pairwise fun s s' => Spares s s' ∧ Spares s' s :=
    (hperm.pairwise_iff (fun h => ⟨h.2, h.1⟩)).mp hs
  have hdoc : ∀ id ps e, SegDoc.mk id ps [e] ∈ segs → ∀ f, DerivedIn f e → f.dataType = ty f.name :=
    fun id ps e hm f hf => hw.doc f (.segment hm (by simp) hf)
  have hnm : ∀ id ps e, SegDoc.mk id ps [e] ∈ segs → NoMixingDoc e := by
    cases hmix with
    | mining hx => exact fun id ps e hm => hx id ps [e] e hm (by simp)
  have htd : ∀ f ∈ td ++ h.localTransformations, f.dataType = ty f.name := by
    intro f hf
    rcases List.mem_append.mp hf with hf | hf
    · exact hw.td f hf
    · exact hw.doc f (.mining hf)
  have hdoc' : ∀ id ps e, SegDoc.mk id ps [e] ∈ segs' → ∀ f, DerivedIn f e → f.dataType = ty f.name :=
    fun id ps e hm => hdoc id ps e (hperm.mem_iff.mpr hm)
  have hnm' : ∀ id ps e, SegDoc.mk id ps [e] ∈ segs' → NoMixingDoc e :=
    fun id ps e hm => hnm id ps e (hperm.mem_iff.mpr hm)
  obtain ⟨_, _, _, hms, _, _, _, _, hev⟩ := constructed_mining hM
  obtain ⟨_, _, _, hms', _, _, _, _, hev'⟩ := constructed_mining hM'
  have t1 := typed_td hms hw.dd htd hdoc
  have t2 := typed_td hms' hw.dd htd hdoc'
  have hT : ∀ f ∈ td1 ++ td2, f.dataType = ty f.name := by
    intro f hf
    rcases List.mem_append.mp hf with hf | hf
    · exact t1 f hf
    · exact t2 f hf
  rcases hev o (some r) with ⟨e, row2, hp, he⟩ | ⟨row2, hp, -⟩
  · rcases hev' o' (some r) with ⟨e', row2', hp', he'⟩ | ⟨row2', hp', -⟩
    · rw [he, he']
      exact ⟨fun h => (by cases h), fun h => (by cases h)⟩
    · cases (prepared_unique hp hp').1
  · rw [ensemble_answers hM hm (hs.imp fun h => h.1) hw.dd hT htd hdoc hnm (List.subset_append_left _ _) hp o out,
      ensemble_answers hM' hm (hs'.imp fun h => h.1) hw.dd hT htd hdoc' hnm' (List.subset_append_right _ _) hp o' out]
    have he : ∀ {outs outs' : List (Out ℝ)} (k : String), outs.Perm outs' →
        entry h segs.length outs k = entry h segs'.length outs' k := by
      intro outs outs' k hpp
      unfold entry
      rw [ensembleSum_perm h hpp, hperm.length_eq]
    constructor
    · rintro ⟨outs, row, rfl, hf, hk⟩
      obtain ⟨outs', hf', hpp⟩ := List.perm_comp_forall₂ hperm.symm hf
      refine ⟨outs', row, rfl, hf', fun k => ?_⟩
      rw [hk k, he k hpp.symm]
    · rintro ⟨outs, row, rfl, hf, hk⟩
      obtain ⟨outs', hf', hpp⟩ := List.perm_comp_forall₂ hperm hf
      refine ⟨outs', row, rfl, hf', fun k => ?_⟩
      rw [hk k, he k hpp]

end Exact

section
open Samples Replay

/-- **C66** (rounding): in float64 arithmetic the order of the segments matters even if none writes
anything: 1e16 + 1 - 1e16 is not 1e16 - 1e16 + 1. -/
theorem C66_rounding :
    let s := fun x => seg (.tree (regTree x x))
    let total := fun segs => eval .sorted (.mining { head .sum with targets := [⟨"y", none, none⟩] } segs)
      [("x", .f64 (num "1"))]
    total [s "1e16", s "1", s "-1e16"] = some (.ok (some (mk [("y", .f64 (num "0"))]))) ∧
    total [s "1e16", s "-1e16", s "1"] = some (.ok (some (mk [("y", .f64 (num "1"))]))) := by
  decide +kernel

/-- **C66** (a disturbing segment): if one segment stores a derived field under the name of an input of
another, the order matters in any arithmetic. -/
theorem C66_disturbing :
    let total := fun segs => eval .sorted (.mining { head .sum with targets := [⟨"y", none, none⟩] } segs)
      [("x", .f64 (num "3"))]
    total [seg (shifted "x"), seg (.tree (regTree "10" "20"))] = some (.ok (some (mk [("y", .f64 (num "22"))]))) ∧
    total [seg (.tree (regTree "10" "20")), seg (shifted "x")] = some (.ok (some (mk [("y", .f64 (num "12"))]))) := by
  decide +kernel

end

/-! The hypotheses of `C66_order` are met by this sum of a regression and a tree with a derived field. -/
namespace OrderExample
variable [Lib ℝ]

def line (c : ℝ) : ModelElem ℝ := .regression
  ⟨.regression, .exp, [⟨c, "", [⟨"x", 2, 1⟩]⟩], [⟨"score", .probability, ""⟩], none⟩

def treeDoc : TreeDoc ℝ :=
  { functionName := .regression, missingValuePenalty := 1, missingValueStrategy := .nullPrediction
    noTrueChildStrategy := .other "", verification := none
    localTransformations := [⟨"d", .double, .continuous, .fieldRef "x"⟩]
    miningFields := []
    node := .mk "" "" "1" 0 [] [.mk "" "" "2" 0 [] [] (some .true_)] (some .true_) }

def tree : ModelElem ℝ := .tree treeDoc

def parts : List (SegDoc ℝ) := [.mk "a" [.true_] [line 1], .mk "b" [.true_] [line 3], .mk "c" [.true_] [tree]]

def whole (l : List (SegDoc ℝ)) : ModelElem ℝ :=
  .mining ⟨.regression, .sum, none, [], [], [], [⟨"y", none, none⟩]⟩ l

example : parts.Pairwise fun s s' => Spares s s' ∧ Spares s' s := by
  have h1 : ∀ c f, ¬ DocWrites (line c) f := by
    intro c f h; unfold line at h; cases h
  have h2 : ∀ f, DocWrites tree f → f = "d" := by
    intro f h
    unfold tree treeDoc at h
    cases h with
    | treeDerived hd => simp at hd; rw [hd]
  have h3 : ∀ c, liveIn (line c) [] = ["x"] := fun c => by simp [line, liveIn]
  have h4 : liveIn tree [] = ["x"] := by
    simp [tree, treeDoc, liveIn, needs, exprFields, nodeFields, nodesFields, predFields]
  have hl : ∀ c c', (∀ f ∈ liveIn (line c') [], ¬ DocWrites (line c) f) ∧
      (∀ f ∈ liveIn (line c') [], ¬ DocWrites tree f) ∧ ∀ f ∈ liveIn tree [], ¬ DocWrites (line c) f := by
    intro c c'
    refine ⟨fun f _ => h1 c f, fun f hf hw => ?_, fun f _ => h1 c f⟩
    rw [h3] at hf
    simp at hf
    subst hf
    simpa using h2 _ hw
  simp only [parts, List.pairwise_cons, Spares, List.mem_cons, List.not_mem_nil, or_false, forall_eq_or_imp,
    forall_eq, IsEmpty.forall_iff, implies_true, and_true, List.Pairwise.nil]
  exact ⟨⟨⟨(hl _ _).1, (hl _ _).1⟩, (hl _ 0).2.2, (hl 0 _).2.1⟩, (hl _ 0).2.2, (hl 0 _).2.1⟩

example : NoMixingDoc (whole parts) := by
  refine .mining fun id ps es e hm he => ?_
  simp only [parts, List.mem_cons, SegDoc.mk.injEq, List.not_mem_nil, or_false] at hm
  rcases hm with ⟨-, -, rfl⟩ | ⟨-, -, rfl⟩ | ⟨-, -, rfl⟩ <;> simp only [List.mem_singleton] at he <;> subst he
  · exact .regression _
  · exact .regression _
  · exact .tree (by simp [treeDoc]) (by simp [treeDoc])

example : WellTyped (fun _ => .double) [⟨"x", .double, []⟩, ⟨"y", .double, []⟩] [] (whole parts) where
  dd := by simp
  td := by simp
  doc := by
    intro f hf
    unfold whole at hf
    cases hf with
    | mining hf => simp at hf
    | segment hs he hf =>
      simp only [parts, List.mem_cons, SegDoc.mk.injEq, List.not_mem_nil, or_false] at hs
      rcases hs with ⟨-, -, rfl⟩ | ⟨-, -, rfl⟩ | ⟨-, -, rfl⟩ <;> simp only [List.mem_singleton] at he <;> subst he
      · unfold line at hf; cases hf
      · unfold line at hf; cases hf
      · unfold tree treeDoc at hf
        cases hf with
        | tree hf => simp at hf; rw [hf]

example (dd : List DataField) : (∃ td M, newModel dd (whole parts) [] = (.ok M, td)) ∧
    (∃ td M, newModel dd (whole parts.reverse) [] = (.ok M, td)) ∧ parts.Perm parts.reverse := by
  have ht : ∀ td, AcceptableTree dd td treeDoc := by
    intro td
    refine ⟨.inr rfl, fun r hr q hq s hs => ?_⟩
    have : q = .true_ := by
      cases hr with
      | refl => simp [Node.pred, treeDoc] at hq; exact hq.symm
      | child hc hr =>
        simp [Node.nodes, treeDoc] at hc
        subst hc
        cases hr with
        | refl => simp [Node.pred] at hq; exact hq.symm
        | child hc => simp [Node.nodes] at hc
    subst this
    simp [simples] at hs
  have h1 : ∃ td, Accepts dd (whole parts) [] td :=
    ⟨_, .mining (by simp [SupportedMethod]) (by simp [SupportedOutputs])
      (.cons .regression (.cons .regression (.cons (.tree (ht _)) .nil)))⟩
  have h2 : ∃ td, Accepts dd (whole parts.reverse) [] td :=
    ⟨_, .mining (by simp [SupportedMethod]) (by simp [SupportedOutputs])
      (.cons (.tree (ht _)) (.cons .regression (.cons .regression .nil)))⟩
  obtain ⟨t1, h1⟩ := h1
  obtain ⟨t2, h2⟩ := h2
  exact ⟨⟨t1, ((C43_construction _ _ _).1 _).mpr h1⟩, ⟨t2, ((C43_construction _ _ _).1 _).mpr h2⟩,
    (List.reverse_perm _).symm⟩

end OrderExample

end Gopmml.Props
