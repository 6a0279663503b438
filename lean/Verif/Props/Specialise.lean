import Verif.Proofs.Specialise
import Verif.Props.Rewrite
import Verif.Props.Build

/-!
# Property C100: a document can be specialised to a region of inputs
-/

namespace Gopmml
open Spec Props

section
variable {F : Type} [Arith F] [Lib F] [Trans F]

/-- The models answer alike, and do the same to the row, on the rows in `R`. -/
def SameIn (R : Row F → Prop) (m m2 : EModel F) : Prop := ∀ o row, R row →
  (EModel.evaluate o m row).res = (EModel.evaluate o m2 row).res ∧
  (EModel.evaluate o m row).row = (EModel.evaluate o m2 row).row

variable {R : Row F → Prop}

theorem sumSegments_sameIn {ms ms2 : List (EModel F)} (h : List.Forall₂ (SameIn R) ms ms2)
    (hk : ∀ m ∈ ms, ∀ o row, R row → R (EModel.evaluate o m row).row) :
    ∀ o fn i sm row, R row → (sumSegments o fn i sm ms row).res = (sumSegments o fn i sm ms2 row).res ∧
      (sumSegments o fn i sm ms row).row = (sumSegments o fn i sm ms2 row).row := by
  induction h with
  | nil => intros; simp only [sumSegments]; exact ⟨trivial, trivial⟩
  | cons h _ ih =>
    rename_i m m2 ms ms2 _
    intro o fn i sm row hR
    obtain ⟨h1, h2⟩ := h (o.at_ (2 * i)) row hR
    have hR' := hk m (by simp) (o.at_ (2 * i)) row hR
    rw [h2] at hR'
    simp only [sumSegments, h1, h2]
    cases (EModel.evaluate (o.at_ (2 * i)) m2 row).res with
    | error e => exact ⟨rfl, rfl⟩
    | ok out => exact ih (fun m hm => hk m (by simp [hm])) _ _ _ _ _ hR'

theorem chainSegments_sameIn {ms ms2 : List (EModel F)} (h : List.Forall₂ (SameIn R) ms ms2)
    (hk : ∀ m ∈ ms, ∀ o row, R row → R (EModel.evaluate o m row).row)
    (hw : ∀ m ∈ ms, ∀ o row out, (EModel.evaluate o m row).res = .ok out →
      ∀ (o' : MapOrd) row', R row' → R (writeAll (o'.range (out.getD ∅)) row').2) :
    ∀ o i last row, (∀ (o' : MapOrd) row', R row' → R (writeAll (o'.range (last.getD ∅)) row').2) → R row →
      (chainSegments o i last ms row).res = (chainSegments o i last ms2 row).res ∧
      (chainSegments o i last ms row).row = (chainSegments o i last ms2 row).row := by
  induction h with
  | nil => intros; simp only [chainSegments]; exact ⟨trivial, trivial⟩
  | cons h _ ih =>
    rename_i m m2 ms ms2 _
    intro o i last row hl hR
    simp only [chainSegments]
    have hR1 := hl (o.at_ (2 * i)) row hR
    revert hR1
    rcases writeAll ((o.at_ (2 * i)).range (last.getD ∅)) row with ⟨_ | _, row1⟩ <;> intro hR1
    · exact ⟨rfl, rfl⟩
    · obtain ⟨h1, h2⟩ := h (o.at_ (2 * i + 1)) row1 hR1
      have hR2 := hk m (by simp) (o.at_ (2 * i + 1)) row1 hR1
      rw [h2] at hR2
      simp only [h1, h2]
      cases he : (EModel.evaluate (o.at_ (2 * i + 1)) m2 row1).res with
      | error e => exact ⟨rfl, rfl⟩
      | ok out =>
        exact ih (fun m hm => hk m (by simp [hm])) (fun m hm => hw m (by simp [hm])) _ _ _ _
          (hw m (by simp) _ _ _ (h1.trans he)) hR2

theorem mining_sameIn {ms ms2 : List (EModel F)} (s : MiningState F) {segs : List (SegDoc F)}
    (hl : segs.length = s.segments.length) (h : List.Forall₂ (SameIn R) ms ms2)
    (hi : ∀ (o : MapOrd) row, R row → R (imputeLoop (o.range s.defaultValues) row).2)
    (hd : ∀ row, R row → R (handleInput s.head.localTransformations row).2)
    (hk : ∀ m ∈ ms, ∀ o row, R row → R (EModel.evaluate o m row).row)
    (hw : s.head.method = .modelChain → ∀ m ∈ ms, ∀ o row out, (EModel.evaluate o m row).res = .ok out →
      ∀ (o' : MapOrd) row', R row' → R (writeAll (o'.range (out.getD ∅)) row').2) :
    SameIn R (.mining s ms) (.mining { s with segments := segs } ms2) := by
  intro o row hR
  simp only [EModel.evaluate]
  by_cases hv : s.validated = true
  swap
  · rw [if_pos hv, if_pos hv]; exact ⟨rfl, rfl⟩
  by_cases hc : s.compiled = true
  swap
  · simp only [hv, not_true_eq_false, if_false]
    rw [if_pos hc, if_pos hc]; exact ⟨rfl, rfl⟩
  simp only [hv, hc, not_true_eq_false, if_false, hl]
  have hR1 := hi (o.at_ 0) row hR
  revert hR1
  rcases imputeLoop ((o.at_ 0).range s.defaultValues) row with ⟨_ | ⟨⟨⟩⟩, row1⟩ <;> intro hR1
  · exact ⟨rfl, rfl⟩
  dsimp only
  have hR2 := hd row1 hR1
  revert hR2
  rcases handleInput s.head.localTransformations row1 with ⟨_ | ⟨⟨⟩⟩, row2⟩ <;> intro hR2
  · exact ⟨rfl, rfl⟩
  dsimp only
  have hs := sumSegments_sameIn h hk (o.at_ 1) s.head.functionName 0 (initScores s) row2 hR2
  have hc := fun hm => chainSegments_sameIn h hk (hw hm) (o.at_ 1) 0 (some ∅) row2
    (fun o' row' hr => by
      have : o'.range (∅ : GoMap (GoVal F)) = [] := by
        rw [List.eq_nil_iff_forall_not_mem]
        rintro ⟨a, b⟩ h
        rw [MapOrd.mem_range] at h
        simp at h
      simp only [Option.getD_some, this, writeAll]
      exact hr) hR2
  cases hm : s.head.method with
  | average =>
    constructor
    · dsimp only
      rw [hs.1]; rfl
    · exact hs.2
  | sum =>
    constructor
    · dsimp only
      rw [hs.1]; rfl
    · exact hs.2
  | modelChain => simp only [(hc hm).1, (hc hm).2]; exact ⟨trivial, trivial⟩
  | selectFirst =>
    cases h with
    | nil => simp only [selectFirst]; exact ⟨trivial, trivial⟩
    | cons h _ => simp only [selectFirst]; exact h _ _ hR2
  | empty => exact ⟨rfl, rfl⟩
  | other t => exact ⟨rfl, rfl⟩

/-- (`R0` is what is known before the derived fields, `R` what is known after them.) -/
theorem tree_sameIn {R0 : Row F → Prop} {dd : List DataField} {d : TreeDoc F} {n' : Node F} {td : TD F} {m : EModel F} {td' : TD F}
    (h : ∀ c, newNode (treeTypes dd td d) d.node = .ok c → ∃ c', newNode (treeTypes dd td d) n' = .ok c' ∧
      CSimpler (treeTypes dd td d) d.missingValueStrategy d.noTrueChildStrategy R c c')
    (hR : ∀ row row', R0 row → handleInput d.localTransformations row = (.ok (), row') → R row')
    (hm : newModel dd (.tree d) td = (.ok m, td')) :
    ∃ m', newModel dd (.tree { d with node := n' }) td = (.ok m', td') ∧ SameIn R0 m m' := by
  by_cases hf : d.functionName = .classification ∨ d.functionName = .regression
  swap
  · have hf' : d.functionName ≠ .classification ∧ d.functionName ≠ .regression := by
      rw [not_or] at hf; exact hf
    simp only [newModel, newTreeModel_bad hf'] at hm
    simp at hm
  · have hf' : ¬ (d.functionName ≠ .classification ∧ d.functionName ≠ .regression) := by
      rcases hf with h | h <;> simp [h]
    have h1 := newTreeModel_good (dd := dd) (td := td) hf'
    have h2 := newTreeModel_good (dd := dd) (td := td) (d := { d with node := n' }) hf'
    change match newNode (treeTypes dd td d) n' with | .error e => _ | .ok _ => _ at h2
    cases hn : newNode (treeTypes dd td d) d.node with
    | error e =>
      rw [hn] at h1
      simp only [newModel, h1] at hm
      simp at hm
    | ok c =>
      obtain ⟨c', hn', hc⟩ := h c hn
      rw [hn] at h1
      rw [hn'] at h2
      obtain ⟨t, h1⟩ := h1
      obtain ⟨t2, h2⟩ := h2
      obtain ⟨-, -, hv, hcm, hk, hmod, ht, hctx, hroot⟩ := newTreeModel_ok h1
      obtain ⟨-, -, hv2, hcm2, hk2, hmod2, ht2, hctx2, hroot2⟩ := newTreeModel_ok h2
      simp only [newModel, h1, Prod.mk.injEq, Except.ok.injEq] at hm
      obtain ⟨rfl, rfl⟩ := hm
      simp only [newModel, h2]
      refine ⟨_, rfl, fun o row hr => ?_⟩
      simp only [EModel.evaluate]
      obtain ⟨a1, a2, -⟩ := evaluate_eq hv hcm (by rw [hk]; exact keysOk_empty) o row
      obtain ⟨b1, b2, -⟩ := evaluate_eq hv2 hcm2 (by rw [hk2]; exact keysOk_empty) o row
      rw [a1, a2, b1, b2, hctx, hctx2, hmod, hmod2, ht, ht2]
      refine ⟨?_, rfl⟩
      rw [hn, Except.ok.injEq] at hroot
      change newNode (treeTypes dd td d) n' = _ at hroot2
      rw [hn', Except.ok.injEq] at hroot2
      subst hroot hroot2
      have hr1 := fun row1 => hR row row1 hr
      revert hr1
      rcases handleInput d.localTransformations row with ⟨_ | _, row1⟩ <;> intro hr1
      · rfl
      · replace hr1 := hr1 row1 rfl
        change (match evalNode (docCtx dd td d) o row1 t.root with
          | .error e => _ | .ok a => _) = (match evalNode (docCtx dd td d) o row1 t2.root with
          | .error e => _ | .ok a => _)
        rw [evalNode_simpler (c := docCtx dd td d) (o := o) (row := row1) hr1 hc]
end

variable [Trans F64] {B : Box} {dd : List DataField}

omit [Trans F64] in
/-- What keeps the fields something is known about stays in the box. -/
theorem Spec.Box.Has.keep {a b : Row F64} (h : B.Has a) (hk : ∀ f, B f ≠ .any → b.get f = a.get f) : B.Has b := by
  intro f
  by_cases hf : B f = .any
  · rw [hf]; trivial
  · rw [hk f hf]; exact h f

theorem tree_special {d : TreeDoc F64} {td td' : TD F64} {m : EModel F64}
    (hB : ∀ df ∈ d.localTransformations, B df.name = .any)
    (hm : newModel dd (.tree d) td = (.ok m, td')) :
    ∃ m', newModel dd (.tree (specialTree B dd td d)) td = (.ok m', td') ∧ SameIn B.Has m m' :=
  tree_sameIn (fun _ hc => newNode_special (fun _ hR p => test_has (fun s => leaf_has hR _ s) p) d.node hc)
    (fun row row' hR hi => hR.keep fun f hf => by
      have := (handleInput_frame f _ (fun df hd he => hf (he ▸ hB df hd)) row).1
      rw [hi] at this
      exact this) hm

omit [Trans F64] in
theorem specialSegs_length (segs : List (SegDoc F64)) (td : TD F64) :
    (specialSegs B dd segs td).length = segs.length := by
  induction segs generalizing td with
  | nil => rw [specialSegs]
  | cons s segs ih =>
    cases s
    rw [specialSegs]; simp [ih]

/-- A document does not write the fields something is known about. -/
def LeavesBox (B : Box) (e : ModelElem F64) : Prop := ∀ f, B f ≠ .any → ¬ DocWrites e f

theorem LeavesBox.keeps {e : ModelElem F64} (h : LeavesBox B e) {td td' : TD F64} {m : EModel F64}
    (hm : newModel dd e td = (.ok m, td')) (o : MapOrd) {row : Row F64} (hR : B.Has row) :
    B.Has (EModel.evaluate o m row).row :=
  hR.keep fun f hf => (C41_frame m f (fun hw => h f hf (writes_doc hw hm)) o row).1

mutual
theorem special_newModel : (e : ModelElem F64) → ∀ {td td' : TD F64} {m : EModel F64}, LeavesBox B e →
    newModel dd e td = (.ok m, td') →
    ∃ m', newModel dd (specialDoc B dd e td) td = (.ok m', td') ∧ SameIn B.Has m m'
  | .tree d, td, td', m, hB, hm => by
    rw [specialDoc]
    exact tree_special (fun df hd => by_contra fun h => hB _ h (.treeDerived hd)) hm
  | .regression d, td, td', m, hB, hm => by
    rw [specialDoc]
    exact ⟨m, hm, fun _ _ _ => ⟨rfl, rfl⟩⟩
  | .other k, td, td', m, hB, hm => by
    rw [specialDoc]
    exact ⟨m, hm, fun _ _ _ => ⟨rfl, rfl⟩⟩
  | .mining hd segs, td, td', m, hB, hm => by
    have hm0 := hm
    rw [specialDoc]
    generalize hs' : specialSegs B dd segs (td ++ hd.localTransformations) = segs'
    have hlen : segs'.length = segs.length := by rw [← hs', specialSegs_length]
    have hv' : (MiningState.init dd hd segs').validate = (((MiningState.init dd hd segs).validate).1,
        { ((MiningState.init dd hd segs).validate).2 with segments := segs' }) := by
      unfold MiningState.validate MiningState.init
      simp only
      split_ifs <;> rfl
    have hseg : ((MiningState.init dd hd segs).validate).2.segments = segs := by
      unfold MiningState.validate MiningState.init
      simp only
      split_ifs <;> rfl
    have hloc : ((MiningState.init dd hd segs).validate).2.head.localTransformations = hd.localTransformations := by
      unfold MiningState.validate MiningState.init
      simp only
      split_ifs <;> rfl
    rw [newModel] at hm
    rw [newModel, hv']
    rcases hv : (MiningState.init dd hd segs).validate with ⟨_ | ⟨⟨⟩⟩, s⟩
    · rw [hv] at hm; simp at hm
    · rw [hv] at hseg hm hloc
      simp only at hseg hm hloc ⊢
      rcases hc : compileSegments dd segs (td ++ s.head.localTransformations) with ⟨_ | ⟨⟨⟩⟩, ms, td1⟩
      · rw [hc] at hm; simp at hm
      · obtain ⟨ms', h1, h2, h3⟩ := special_segments segs
          (fun id ps e he f hf hw => hB f hf (.segment he hw)) hc
        rw [hc] at hm
        rw [hloc, hs'] at h1
        rw [hloc, h1]
        simp only [Prod.mk.injEq, Except.ok.injEq] at hm
        obtain ⟨rfl, rfl⟩ := hm
        have hW : ∀ f, B f ≠ .any → ¬ Writes _ f := fun f hf hw => hB f hf (writes_doc hw hm0)
        refine ⟨_, rfl, ?_⟩
        refine mining_sameIn _ (by simp only [MiningState.prepare, hseg]; exact hlen) h2 ?_ ?_ h3 ?_
        · intro o row hR
          refine hR.keep fun f hf => (imputeLoop_frame f _ ?_ row).1
          rintro ⟨k, v⟩ hk rfl
          rw [MapOrd.mem_range] at hk
          exact hW _ hf (.replacement (by simp only at hk; rw [hk]; rfl))
        · intro row hR
          exact hR.keep fun f hf => (handleInput_frame f _ (fun df hd he => hW f hf (he ▸ .derived hd)) row).1
        · intro hmc m hm o row out hout o' row' hR
          refine hR.keep fun f hf => (writeAll_frame f _ ?_ row').1
          rintro ⟨k, v⟩ hk rfl
          rw [MapOrd.mem_range] at hk
          cases out with
          | none => simp at hk
          | some out =>
            exact hW _ hf (.chained hmc hm ⟨o, row, out, hout, by simp only [Option.getD_some] at hk; rw [hk]; rfl⟩)
theorem special_segments : (segs : List (SegDoc F64)) → ∀ {td : TD F64} {ms td'},
    (∀ id ps e, SegDoc.mk id ps [e] ∈ segs → LeavesBox B e) →
    compileSegments dd segs td = (.ok (), ms, td') →
    ∃ ms', compileSegments dd (specialSegs B dd segs td) td = (.ok (), ms', td') ∧
      List.Forall₂ (SameIn B.Has) ms ms' ∧ ∀ m ∈ ms, ∀ o row, B.Has row → B.Has (EModel.evaluate o m row).row
  | [], td, ms, td', hB, hm => by
    simp only [compileSegments, Prod.mk.injEq, true_and] at hm
    obtain ⟨rfl, rfl⟩ := hm
    exact ⟨[], by simp [compileSegments, specialSegs], .nil, by simp⟩
  | .mk id ps [] :: segs, td, ms, td', hB, hm => by
    simp [compileSegments] at hm
  | .mk id ps (e :: e2 :: es) :: segs, td, ms, td', hB, hm => by
    simp [compileSegments] at hm
  | .mk id ps [e] :: segs, td, ms, td', hB, hm => by
    rw [compileSegments] at hm
    rcases hc : newModel dd e td with ⟨_ | m, td1⟩
    · rw [hc] at hm; simp at hm
    · rw [hc] at hm
      have hBe := hB id ps e (by simp)
      obtain ⟨m', g1, g2⟩ := special_newModel e hBe hc
      simp only [Prod.mk.injEq] at hm
      obtain ⟨k1, rfl, rfl⟩ := hm
      obtain ⟨ms', k2, k3, k4⟩ := special_segments segs (ms := (compileSegments dd segs td1).2.1)
        (td' := (compileSegments dd segs td1).2.2) (fun id ps e he => hB id ps e (by simp [he])) (by rw [← k1])
      have hl : td ++ localFieldsAll [e] = td1 := by
        rw [newModel_locals hc]; simp [localFieldsAll]
      refine ⟨m' :: ms', ?_, .cons g2 k3, ?_⟩
      · rw [specialSegs, specialDocs, specialDocs, compileSegments, g1, hl]; simp only [k2]
      · intro x hx
        rcases List.mem_cons.mp hx with rfl | hx
        · exact fun o row hR => hBe.keeps hc o hR
        · exact k4 x hx
end

end Gopmml

namespace Gopmml.Props
open Gopmml Spec

/-- **C100**: whatever is known about fields the document does not itself write, the document specialised to
it is accepted where the document is, leaves the same dictionary, and on every row that is as known answers as
the document and does the same to the row. Trees under every strategy, ensembles and chains at any depth, any
order of maps. -/
theorem C100_specialised [Trans F64] (B : Box) {dd : List DataField} {e : ModelElem F64} (hB : LeavesBox B e)
    {td td' : TD F64} {m : EModel F64} (hm : newModel dd e td = (.ok m, td')) :
    ∃ m', newModel dd (specialDoc B dd e td) td = (.ok m', td') ∧
      ∀ o row, B.Has row → (EModel.evaluate o m' row).res = (EModel.evaluate o m row).res ∧
        (EModel.evaluate o m' row).row = (EModel.evaluate o m row).row := by
  obtain ⟨m', h1, h2⟩ := special_newModel e hB hm
  exact ⟨m', h1, fun o row hR => ⟨(h2 o row hR).1.symm, (h2 o row hR).2.symm⟩⟩

theorem PredRes.cases (v : PredRes) : v = .u ∨ v = .f ∨ v = .t := by cases v <;> simp

/-- **C100** (bounds): of a comparison of a number between two bounds with a constant exactly the outcomes are
kept that some number between the bounds has. -/
theorem C100_between {dt : DataType} (hd : dt = .double ∨ dt = .float) (op : SimpleOp) {text : String} {c : F64}
    (hc : Lib.parseFloat text = some c) {lo hi : F64} (h : F64.le lo hi = true) (v : PredRes) :
    (betweenOutcomes dt op text lo hi).has v = true ↔
      ∃ x, F64.le lo x = true ∧ F64.le x hi = true ∧ ofBool (satisfies dt op text (.f64 x)) = v := by
  constructor
  swap
  · rintro ⟨x, h1, h2, rfl⟩
    exact between_has h1 h2 dt op text
  · have hll : F64.le lo lo = true := F64.le_refl (F64.le_not_nan h).1
    have hhh : F64.le hi hi = true := F64.le_refl (F64.le_not_nan h).2
    have hlo : ∀ {v}, ofBool (satisfies dt op text (.f64 lo)) = v →
        ∃ x, F64.le lo x = true ∧ F64.le x hi = true ∧ ofBool (satisfies dt op text (.f64 x)) = v :=
      fun hv => ⟨lo, hll, h, hv⟩
    have hhi : ∀ {v}, ofBool (satisfies dt op text (.f64 hi)) = v →
        ∃ x, F64.le lo x = true ∧ F64.le x hi = true ∧ ofBool (satisfies dt op text (.f64 x)) = v :=
      fun hv => ⟨hi, h, hhh, hv⟩
    have hmid : ∀ {v}, (F64.le lo c && F64.le c hi) = true → ofBool (satisfies dt op text (.f64 c)) = v →
        ∃ x, F64.le lo x = true ∧ F64.le x hi = true ∧ ofBool (satisfies dt op text (.f64 x)) = v := by
      intro v hv hs
      rw [Bool.and_eq_true] at hv
      exact ⟨c, hv.1, hv.2, hs⟩
    have hcc : (F64.le lo c && F64.le c hi) = true → F64.eq c c = true := by
      intro hv
      rw [Bool.and_eq_true] at hv
      rw [F64.eq_eq, F64.le_refl (F64.le_not_nan hv.1).2]; rfl
    have heqc : F64.eq c hi = F64.eq hi c := by rw [F64.eq_eq, F64.eq_eq, Bool.and_comm]
    have s1 : ∀ x, satisfies dt .lessThan text (.f64 x) = F64.lt x c := by
      intro x; rcases hd with rfl | rfl <;> simp only [satisfies, floatCmp, hc] <;> rfl
    have s2 : ∀ x, satisfies dt .lessOrEqual text (.f64 x) = F64.le x c := by
      intro x; rcases hd with rfl | rfl <;> simp only [satisfies, floatCmp, hc] <;> rfl
    have s3 : ∀ x, satisfies dt .greaterThan text (.f64 x) = F64.lt c x := by
      intro x; rcases hd with rfl | rfl <;> simp only [satisfies, floatCmp, hc] <;> rfl
    have s4 : ∀ x, satisfies dt .greaterOrEqual text (.f64 x) = F64.le c x := by
      intro x; rcases hd with rfl | rfl <;> simp only [satisfies, floatCmp, hc] <;> rfl
    have s5 : ∀ x, satisfies dt .equal text (.f64 x) = F64.eq x c := by
      intro x; rcases hd with rfl | rfl <;> simp only [satisfies, denotes, hc] <;> rfl
    have s6 : ∀ x, satisfies dt .notEqual text (.f64 x) = !F64.eq x c := by
      intro x; rcases hd with rfl | rfl <;> simp only [satisfies, denotes, hc] <;> rfl
    unfold betweenOutcomes
    cases op with
    | isMissing => cases v <;> simp only [Outcomes.has, Outcomes.only] <;> intro hv <;> first | exact hlo rfl | simp at hv
    | isNotMissing => cases v <;> simp only [Outcomes.has, Outcomes.only] <;> intro hv <;> first | exact hlo rfl | simp at hv
    | other s => cases v <;> simp only [Outcomes.has, Outcomes.only] <;> intro hv <;> first | exact hlo rfl | simp at hv
    | lessThan =>
      simp only [if_pos hd, hc]
      rcases PredRes.cases v with rfl | rfl | rfl <;> simp only [Outcomes.has] <;> intro hv
      · simp at hv
      · exact hhi (by rw [s1]; rw [Bool.not_eq_true'] at hv; rw [hv]; rfl)
      · exact hlo (by rw [s1, hv]; rfl)
    | lessOrEqual =>
      simp only [if_pos hd, hc]
      rcases PredRes.cases v with rfl | rfl | rfl <;> simp only [Outcomes.has] <;> intro hv
      · simp at hv
      · exact hhi (by rw [s2]; rw [Bool.not_eq_true'] at hv; rw [hv]; rfl)
      · exact hlo (by rw [s2, hv]; rfl)
    | greaterThan =>
      simp only [if_pos hd, hc]
      rcases PredRes.cases v with rfl | rfl | rfl <;> simp only [Outcomes.has] <;> intro hv
      · simp at hv
      · exact hlo (by rw [s3]; rw [Bool.not_eq_true'] at hv; rw [hv]; rfl)
      · exact hhi (by rw [s3, hv]; rfl)
    | greaterOrEqual =>
      simp only [if_pos hd, hc]
      rcases PredRes.cases v with rfl | rfl | rfl <;> simp only [Outcomes.has] <;> intro hv
      · simp at hv
      · exact hlo (by rw [s4]; rw [Bool.not_eq_true'] at hv; rw [hv]; rfl)
      · exact hhi (by rw [s4, hv]; rfl)
    | equal =>
      simp only [if_pos hd, hc]
      rcases PredRes.cases v with rfl | rfl | rfl <;> simp only [Outcomes.has] <;> intro hv
      · simp at hv
      · rw [Bool.not_eq_true', Bool.and_eq_false_iff, heqc] at hv
        rcases hv with hv | hv
        · exact hlo (by rw [s5, hv]; rfl)
        · exact hhi (by rw [s5, hv]; rfl)
      · exact hmid hv (by rw [s5, hcc hv]; rfl)
    | notEqual =>
      simp only [if_pos hd, hc]
      rcases PredRes.cases v with rfl | rfl | rfl <;> simp only [Outcomes.has] <;> intro hv
      · simp at hv
      · exact hmid hv (by rw [s6, hcc hv]; rfl)
      · rw [Bool.not_eq_true', Bool.and_eq_false_iff, heqc] at hv
        rcases hv with hv | hv
        · exact hlo (by rw [s6, hv]; rfl)
        · exact hhi (by rw [s6, hv]; rfl)

/-- **C100** (one row): if everything is known and the answer goes to the first child with a true test, at most
one child is left at every node. -/
theorem C100_path (B : Box) (hB : ∀ f, B f = .absent ∨ ∃ v, B f = .is v) (types : FieldTypes)
    {s : MissingValueStrategy} (hs : Thorough s = false) {nt : NoTrueChildStrategy}
    (hnt : nt ≠ .returnNullPrediction) {root : Node F64}
    (hp : AllPreds root) :
    ∀ n ∈ allNodes (specialNode (testOutcomes (leafOutcomes types B)) s nt root), n.nodes.length ≤ 1 := by
  have hl : ∀ p, ∃ v, testOutcomes (leafOutcomes types B) p = .only v := fun p => test_only
    (fun s => by
      unfold leafOutcomes
      rcases hB s.field with h | ⟨v, h⟩ <;> rw [h]
      · exact ⟨_, rfl⟩
      · simp only
        cases types[s.field]? with
        | none => exact ⟨_, rfl⟩
        | some dt => exact ⟨_, rfl⟩) p
  exact specialNode_path hl hs hnt root hp

/-- **C100** (size): specialising adds no nodes. -/
theorem C100_size {F : Type} (out : Pred F → Outcomes) (s : MissingValueStrategy) (nt : NoTrueChildStrategy)
    (n : Node F) : (allNodes (specialNode out s nt n)).length ≤ (allNodes n).length := specialNode_size n

section Examples
open Replay Samples
attribute [local instance] Samples.standIn

/-- It is sunny and between 60 and 70 degrees. -/
def niceDay : Box := fun f =>
  if f = "outlook" then .is (.str "sunny") else if f = "temperature" then .between (num "60") (num "70") else .any

theorem leavesBox_tree {B : Box} {d : TreeDoc F64} (h : d.localTransformations = []) : LeavesBox B (.tree d) := by
  rintro f - ⟨hd⟩
  simp [h] at hd

-- C100: on a nice day only the humidity is left to be tested; five nodes of nine are left (under weightedConfidence
-- all, but with constant tests). The answers are the same on such days, and differ on others.
example :
    let d (s : MissingValueStrategy) := doc s "1" golfNormal
    let day (t h : String) : List (String × GoVal F64) :=
      [("outlook", .str "sunny"), ("temperature", .f64 (num t)), ("humidity", .f64 (num h))]
    let special (s : MissingValueStrategy) := specialTree niceDay Replay.dd [] (d s)
    (allNodes golfNormal).length = 9 ∧
    (allNodes (special .none).node).length = 5 ∧
    (allNodes (special .nullPrediction).node).length = 5 ∧
    (allNodes (special .lastPrediction).node).length = 5 ∧
    (allNodes (special .weightedConfidence).node).length = 9 ∧
    run (special .none) (day "65" "30") = run (d .none) (day "65" "30") ∧
    run (special .none) (day "65" "90") = run (d .none) (day "65" "90") ∧
    run (special .lastPrediction) (day "65" "90") = run (d .lastPrediction) (day "65" "90") ∧
    (run (d .none) (day "65" "30")).toOption.isSome ∧
    run (special .none) (day "40" "30") ≠ run (d .none) (day "40" "30") := by
  decide +kernel

example (s : MissingValueStrategy) : LeavesBox niceDay (.tree (doc s "1" golfNormal)) := leavesBox_tree rfl

example : niceDay.Has (some (mk [("outlook", .str "sunny"), ("temperature", .f64 (num "65"))])) := by
  intro f
  unfold niceDay
  split_ifs with h1 h2
  · subst h1; change _ = some _; decide +kernel
  · subst h2; exact ⟨num "65", by decide +kernel, by decide +kernel, by decide +kernel⟩
  · trivial

-- C100 (one row): a row decides all tests of the golf tree but one path.
example (f : String) : (fun g => if g = "outlook" then Region.is (.str "sunny") else .absent : Box) f = .absent ∨
    ∃ v, (fun g => if g = "outlook" then Region.is (.str "sunny") else .absent : Box) f = .is v := by
  by_cases h : f = "outlook" <;> simp [h]

-- C100 (bounds): of `temperature < 90` on a nice day only "true" is left, of `temperature >= 65` both are.
example :
    betweenOutcomes .double .lessThan "90" (num "60") (num "70") = .only .t ∧
    betweenOutcomes .double .greaterOrEqual "65" (num "60") (num "70") = ⟨true, true, false⟩ ∧
    betweenOutcomes .double .equal "75" (num "60") (num "70") = .only .f ∧
    betweenOutcomes .double .notEqual "60" (num "60") (num "60") = .only .f := by
  decide +kernel

-- C100 (ensembles): in an ensemble that fills in nothing each tree keeps the child for small x. (The sample
-- ensemble fills in x, so nothing may be assumed about it.)
example :
    let small : Box := fun f => if f = "x" then .between (num "1") (num "2") else .any
    let e : ModelElem F64 := .mining { head .sum with miningFields := [] }
      [seg (.tree (regTree "1" "10")), seg (.tree (regTree "2" "20"))]
    (match specialDoc small Samples.dd e [] with
      | .mining _ [.mk _ _ [.tree d], .mk _ _ [.tree d2]] => ((allNodes d.node).length, (allNodes d2.node).length)
      | _ => (0, 0)) = (2, 2) ∧
    Samples.eval .sorted (specialDoc small Samples.dd e []) [("x", .f64 (num "1.5"))] =
      Samples.eval .sorted e [("x", .f64 (num "1.5"))] ∧
    Samples.eval .sorted (specialDoc small Samples.dd e []) [("x", .f64 (num "7"))] ≠
      Samples.eval .sorted e [("x", .f64 (num "7"))] := by
  decide +kernel

end Examples

end Gopmml.Props
