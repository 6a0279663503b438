import Verif.Proofs.SharedRow
import Verif.Model.Samples

/-!
# Property C70: goroutines that share a row
-/

namespace Gopmml
open Spec

variable {F : Type}

theorem imputeProg_quiet {es : List (String × GoVal F)} {row : Row F} (h : ∀ e ∈ es, row.getD e.1 ≠ .nil) :
    (imputeProg es).writes row = [] := by
  induction es with
  | nil => rfl
  | cons e es ih =>
    obtain ⟨k, v⟩ := e
    have h1 := h (k, v) (by simp)
    have h2 := ih fun e he => h e (by simp [he])
    rw [imputeProg, RowProg.writes]
    revert h1
    cases row.getD k with
    | nil => intro h1; exact absurd rfl h1
    | _ => intro _; exact h2

theorem imputeProg_writes {es : List (String × GoVal F)} {r : GoMap (GoVal F)} {e : String × GoVal F} (he : e ∈ es)
    (hn : Row.getD (some r) e.1 = .nil) : (imputeProg es).writes (some r) ≠ [] := by
  induction es with
  | nil => cases he
  | cons x es ih =>
    obtain ⟨k, v⟩ := x
    rw [imputeProg, RowProg.writes]
    rcases List.mem_cons.mp he with rfl | he
    · rw [hn]
      simp [RowProg.set, RowProg.writes, Row.set]
    · cases hk : Row.getD (some r) k with
      | nil => simp [RowProg.set, RowProg.writes, Row.set]
      | _ => exact ih he

variable [Arith F] [Lib F] [Trans F]

/-- A document that leaves the row alone. -/
theorem quiet_of_leavesAlone {dd : List DataField} {row : Row F} {e : ModelElem F} {td td' : TD F} {m : EModel F}
    (hm : newModel dd e td = (.ok m, td')) : LeavesAlone row e → ∀ o, (EModel.rowProg o m).writes row = [] := by
  refine newModel_ind (dd := dd) (P := fun e m => LeavesAlone row e → ∀ o, (EModel.rowProg o m).writes row = [])
    ?_ ?_ ?_ e hm
  · intro d t td td' ht h o
    cases h with
    | tree h =>
      obtain ⟨-, -, hv, hc, -, hmod, -⟩ := newTreeModel_ok ht
      rw [EModel.rowProg, TreeModel.rowProg, if_neg (not_not.mpr hv), if_neg (not_not.mpr hc), hmod]
      simp only [h, inputProg, RowProg.andThen, RowProg.bind, RowProg.writes]
      rcases evalNode t.ctx o row t.root with _ | ⟨_, _⟩ <;> rfl
  · intro d h o
    rw [EModel.rowProg]
    rfl
  · intro h segs td td' s ms hn hseg hl o
    cases hl with
    | mining h1 h2 h3 h4 =>
      have hq : ∀ m ∈ ms, ∀ o, (EModel.rowProg o m).writes row = [] := by
        clear hn h3
        induction hseg with
        | nil => simp
        | @cons seg m segs ms hs _ ih =>
          obtain ⟨id, ps, e, rfl, he⟩ := hs
          intro m' hm'
          rcases List.mem_cons.mp hm' with rfl | hm'
          · exact he (h4 id ps [e] e (by simp) (by simp))
          · exact ih (fun id ps es e hs he => h4 id ps es e (by simp [hs]) he) m' hm'
      obtain ⟨s', ms', hmm, hv, hc, -, hh, hs, hd, -, -, -⟩ := newMining_ok hn
      cases hmm
      have hi : (imputeProg ((o.at_ 0).range s.defaultValues)).writes row = [] := by
        refine imputeProg_quiet fun e he => ?_
        rw [MapOrd.mem_range, hd, buildDefaults_getElem?] at he
        cases hr : replacement h.miningFields e.1 with
        | none => rw [hr] at he; simp at he
        | some t =>
          unfold replacement at hr
          rw [Option.bind_eq_some_iff] at hr
          obtain ⟨f, hf, hft⟩ := hr
          have := List.mem_of_getLast? hf
          rw [List.mem_filter] at this
          obtain ⟨hf1, hf2⟩ := this
          simp only [decide_eq_true_eq] at hf2
          have := h1 f hf1 hf2.2
          rw [hf2.1] at this
          exact this
      have hsum : ∀ ms : List (EModel F), (∀ m ∈ ms, ∀ o, (EModel.rowProg o m).writes row = []) → ∀ o fn i sm,
          (sumRowProg o fn i sm ms).writes row = [] := by
        intro ms
        induction ms with
        | nil => intro _ o fn i sm; rw [sumRowProg]; rfl
        | cons m ms ih =>
          intro hms o fn i sm
          have hq := hms m (by simp) (o.at_ (2 * i))
          rw [sumRowProg, RowProg.writes_andThen, hq, RowProg.run_of_quiet hq]
          cases ((EModel.rowProg (o.at_ (2 * i)) m).run row).1 with
          | error e => rfl
          | ok a => exact ih (fun m hm => hms m (by simp [hm])) _ _ _ _
      have hlt : s.head.localTransformations = [] := by rw [hh]; exact h2
      have hin : ∀ (f : Unit → RowProg F (Res (Out F))), ((inputProg s.head.localTransformations).andThen f) = f () := by
        intro f
        rw [hlt]
        rfl
      rw [EModel.rowProg, if_neg (not_not.mpr hv), if_neg (not_not.mpr hc), RowProg.writes_andThen, hi,
        RowProg.run_of_quiet hi]
      cases ((imputeProg ((o.at_ 0).range s.defaultValues)).run row).1 with
      | error e => rfl
      | ok a =>
        simp only [List.nil_append]
        rw [hin]
        cases hmeth : s.head.method with
        | average =>
          simp only
          rw [RowProg.writes_andThen, hsum ms hq, RowProg.run_of_quiet (hsum ms hq _ _ _ _)]
          cases ((sumRowProg (o.at_ 1) s.head.functionName 0 (initScores s) ms).run row).1 <;> rfl
        | sum =>
          simp only
          rw [RowProg.writes_andThen, hsum ms hq, RowProg.run_of_quiet (hsum ms hq _ _ _ _)]
          cases ((sumRowProg (o.at_ 1) s.head.functionName 0 (initScores s) ms).run row).1 <;> rfl
        | modelChain =>
          simp only
          have hlen : ms.length ≤ 1 := by
            rw [← hseg.length_eq]
            refine h3 ?_
            rw [hh] at hmeth
            exact hmeth
          match ms, hlen with
          | [], _ => rw [chainRowProg]; rfl
          | [m], _ =>
            have hq := hq m (by simp) ((o.at_ 1).at_ (2 * 0 + 1))
            have he : ((o.at_ 1).at_ (2 * 0)).range ((some ∅ : Out F).getD ∅) = [] := by
              rw [List.eq_nil_iff_forall_not_mem]
              intro x hx
              rw [MapOrd.mem_range] at hx
              simp at hx
            rw [chainRowProg, he]
            change ((EModel.rowProg ((o.at_ 1).at_ (2 * 0 + 1)) m).andThen _).writes row = []
            rw [RowProg.writes_andThen, hq, RowProg.run_of_quiet hq]
            cases ((EModel.rowProg ((o.at_ 1).at_ (2 * 0 + 1)) m).run row).1 with
            | error e => rfl
            | ok a =>
              change (chainRowProg (o.at_ 1) (0 + 1) a []).writes row = []
              rw [chainRowProg]; rfl
        | selectFirst =>
          simp only
          cases ms with
          | nil => rw [firstRowProg]; rfl
          | cons m ms => rw [firstRowProg]; exact hq m (by simp) _
        | _ => rfl

omit [Trans F] in
/-- A local transformation that can be computed is stored. -/
theorem inputProg_writes {df : DerivedField F} {dfs : List (DerivedField F)} {r : GoMap (GoVal F)} {v : GoVal F}
    (h : handleExpression (some r) df.expr = .ok v) : (inputProg (df :: dfs)).writes (some r) ≠ [] := by
  rw [inputProg, RowProg.writes, h]
  simp [RowProg.set, RowProg.writes, Row.set]

end Gopmml

namespace Gopmml.Props
open Gopmml Spec

variable {F : Type} [Arith F] [Lib F] [Trans F]

/-- **C70** (the programs): run alone, a call as a program over the row returns what `EModel.evaluate`
returns and does the same to the row. -/
theorem C70_program (m : EModel F) (o : MapOrd) (row : Row F) :
    (EModel.rowProg o m).run row = ((EModel.evaluate o m row).res, (EModel.evaluate o m row).row) :=
  rowProg_run m o row

variable {ι : Type} [DecidableEq ι]

/-- **C70** (sharing a row): goroutines call accepted models, each its own, all with the same row. If no
document has local transformations or chains of two or more segments, and the row has every field for
which a document gives a replacement, then under every schedule nobody ever writes to the row, it stays
as it is, and every call that finishes returns what it returns when made alone. -/
theorem C70_safe {row : Row F} {dd : ι → List DataField} {e : ι → ModelElem F} {td td' : ι → TD F} {m : ι → EModel F}
    (hm : ∀ i, newModel (dd i) (e i) (td i) = (.ok (m i), td' i)) (hl : ∀ i, LeavesAlone row (e i)) (o : ι → MapOrd)
    {s : RowSys ι F (Res (Out F))} (hr : RowReach (RowSys.init row fun i => EModel.rowProg (o i) (m i)) s) :
    s.row = row ∧ (∀ i, ¬ (s.threads i).Writing) ∧
    ∀ i r, s.threads i = .between (.done r) → r = (EModel.evaluate (o i) (m i) row).res := by
  obtain ⟨h1, h2⟩ := quiet_reach (fun i => quiet_of_leavesAlone (hm i) (hl i) (o i)) hr
  refine ⟨h1, fun i hw => ?_, fun i r hi => ?_⟩
  · have := (h2 i).1
    revert hw this
    rcases s.threads i with p | p
    · intro hw; cases hw
    · cases p with
      | write key v k => intro _ this; simp [RowThread.prog, RowProg.writes] at this
      | _ => intro hw; cases hw
  · have := (h2 i).2
    rw [hi, rowProg_run] at this
    simp only [RowThread.prog, RowProg.run, Prod.mk.injEq] at this
    exact this.1

/-- **C70** (races): two calls that share a row and each write to it when made alone can be inside a
write at the same time, which the Go runtime answers by ending the process. -/
theorem C70_race {row : Row F} {m : ι → EModel F} {o : ι → MapOrd} {i j : ι} (hij : i ≠ j)
    (hi : (EModel.rowProg (o i) (m i)).writes row ≠ []) (hj : (EModel.rowProg (o j) (m j)).writes row ≠ []) :
    ∃ s, RowReach (RowSys.init row fun i => EModel.rowProg (o i) (m i)) s ∧ s.Race := by
  obtain ⟨k1, v1, p1, h1⟩ := to_first_write (i := i) _ (RowSys.init row fun i => EModel.rowProg (o i) (m i)) hi rfl
  obtain ⟨k2, v2, p2, h2⟩ := to_first_write (i := j) _
    ((RowSys.init row fun i => EModel.rowProg (o i) (m i)).setThread i (.inside (.write k1 v1 p1))) hj
    (by rw [setThread_eq, if_neg hij.symm]; rfl)
  refine ⟨_, h1.trans h2, i, j, hij, ?_, ?_⟩
  · rw [setThread_eq, if_neg hij, setThread_eq, if_pos rfl]
    trivial
  · rw [setThread_eq, if_pos rfl]
    trivial

/-- **C70** (which calls write): a call on an accepted tree or ensemble whose first local transformation
can be computed from the row, or on an ensemble with a replacement for a field the row lacks, writes to
the row. So a derived field makes every call write, however often the row was used before. -/
theorem C70_writers {dd : List DataField} {td td' : TD F} {m : EModel F} {r : GoMap (GoVal F)} :
    (∀ d df dfs v, newModel dd (.tree d) td = (.ok m, td') → d.localTransformations = df :: dfs →
      handleExpression (some r) df.expr = .ok v → ∀ o, (EModel.rowProg o m).writes (some r) ≠ []) ∧
    (∀ h segs f, newModel dd (.mining h segs) td = (.ok m, td') → f ∈ h.miningFields →
      f.missingValueReplacement.isSome → Row.getD (some r) f.name = .nil →
      ∀ o, (EModel.rowProg o m).writes (some r) ≠ []) ∧
    ∀ h segs df dfs v, newModel dd (.mining h segs) td = (.ok m, td') → h.localTransformations = df :: dfs →
      handleExpression (some r) df.expr = .ok v → ∀ o, (EModel.rowProg o m).writes (some r) ≠ [] := by
  refine ⟨?_, ?_, ?_⟩
  · intro d df dfs v hm hd he o
    rw [newModel] at hm
    rcases hn : newTreeModel dd td d with ⟨_ | t, td1⟩ <;> rw [hn] at hm
    · simp at hm
    simp only [Prod.mk.injEq, Except.ok.injEq] at hm
    obtain ⟨rfl, -⟩ := hm
    obtain ⟨-, -, hv, hc, -, hmod, -⟩ := newTreeModel_ok hn
    rw [EModel.rowProg, TreeModel.rowProg, if_neg (not_not.mpr hv), if_neg (not_not.mpr hc), hmod,
      RowProg.writes_andThen]
    intro h
    rw [List.append_eq_nil_iff] at h
    have h := h.1
    simp only [hd] at h
    exact inputProg_writes he h
  · intro h segs f hm hf hfs hn o
    obtain ⟨s, ms, rfl, hv, hc, -, hh, hs, hd, -, -, -⟩ := newMining_ok hm
    rw [EModel.rowProg, if_neg (not_not.mpr hv), if_neg (not_not.mpr hc), RowProg.writes_andThen]
    intro hw
    rw [List.append_eq_nil_iff] at hw
    have hrep : ∃ t, replacement h.miningFields f.name = some t := by
      unfold replacement
      have hmem : f ∈ h.miningFields.filter (fun g => g.name = f.name ∧ g.missingValueReplacement.isSome) := by
        simp [hf, hfs]
      cases hl : (h.miningFields.filter (fun g => g.name = f.name ∧ g.missingValueReplacement.isSome)).getLast? with
      | none =>
        rw [List.getLast?_eq_none_iff] at hl
        rw [hl] at hmem
        cases hmem
      | some g =>
        have := List.mem_of_getLast? hl
        rw [List.mem_filter] at this
        have := this.2
        simp only [decide_eq_true_eq] at this
        obtain ⟨t, ht⟩ := Option.isSome_iff_exists.mp this.2
        exact ⟨t, by simp [ht]⟩
    obtain ⟨t, ht⟩ := hrep
    exact imputeProg_writes (e := (f.name, .str t)) (by rw [MapOrd.mem_range, hd, buildDefaults_getElem?, ht]; rfl) hn hw.1
  · intro h segs df dfs v hm hd he o
    obtain ⟨s, ms, rfl, hv, hc, -, hh, hs, hdv, -, -, -⟩ := newMining_ok hm
    rw [EModel.rowProg, if_neg (not_not.mpr hv), if_neg (not_not.mpr hc), RowProg.writes_andThen]
    intro hw
    rw [List.append_eq_nil_iff] at hw
    obtain ⟨h1, h2⟩ := hw
    rw [RowProg.run_of_quiet h1, imputeProg_run, imputeLoop_some] at h2
    simp only at h2
    rw [RowProg.writes_andThen, List.append_eq_nil_iff] at h2
    have h2 := h2.1
    rw [hh] at h2
    simp only [hd] at h2
    exact inputProg_writes he h2

/-! Examples. -/
namespace SharedRowExample
open Samples Replay

/-- The ensemble of the samples has a replacement for x; a row with x may be shared, one without may
not. -/
example : LeavesAlone (some (mk [("x", .int .int 7)])) (ensemble .sum) ∧
    (newModel Samples.dd (ensemble .sum) []).1.isOk := by
  refine ⟨.mining ?_ rfl (by decide) ?_, by decide +kernel⟩
  · intro f hf _
    simp only [head, List.mem_singleton] at hf
    subst hf
    decide +kernel
  · intro id ps es e hs he
    simp only [seg, List.mem_cons, List.not_mem_nil, or_false] at hs
    rcases hs with hs | hs | hs <;> · cases hs; rw [List.mem_singleton] at he; subst he; exact .tree rfl

example : ∃ f ∈ (head .sum).miningFields, f.missingValueReplacement.isSome ∧
    Row.getD (F := F64) (some (mk [("c", .str "a")])) f.name = .nil :=
  ⟨_, by simp [head]; rfl, rfl, by decide +kernel⟩

/-- Two goroutines that score the same row without x can be inside a write at the same time. -/
example (m : EModel F64) (td' : TD F64) (hm : newModel Samples.dd (ensemble .sum) [] = (.ok m, td')) :
    ∃ s, RowReach (RowSys.init (some (mk [("c", .str "a")])) fun _ : Bool => EModel.rowProg .sorted m) s ∧ s.Race := by
  have hw := (C70_writers (r := mk [("c", .str "a")])).2.1 (head .sum) _ ⟨"x", .other "", "", "", some "3"⟩ hm
    (List.mem_singleton.mpr rfl) rfl (by decide +kernel)
  exact C70_race (i := true) (j := false) (m := fun _ => m) (o := fun _ => .sorted) (by decide) (hw _) (hw _)

end SharedRowExample
end Gopmml.Props
