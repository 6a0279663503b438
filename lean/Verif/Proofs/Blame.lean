import Verif.Spec.Blame
import Verif.Proofs.Safe
import Verif.Props.Outputs
import Verif.Props.Reached
import Verif.Proofs.Filled

/-!
# Errors tell the truth
-/

namespace Gopmml
open Spec

variable {F : Type}

theorem Spec.KeepsRow.refl (row : Row F) : KeepsRow row row := ⟨fun _ h => h, fun h => h⟩

theorem Spec.KeepsRow.trans {row row' row'' : Row F} (h : KeepsRow row row') (h' : KeepsRow row' row'') :
    KeepsRow row row'' := ⟨fun k hk => h.1 k (h'.1 k hk), fun hn => h.2 (h'.2 hn)⟩

theorem keepsRow_set {row row' : Row F} {k : String} {v : GoVal F} (h : row.set k v = .ok row') :
    KeepsRow row row' := by
  cases row with
  | none => simp [Row.set] at h
  | some m =>
    simp [Row.set] at h
    subst h
    refine ⟨fun j hj => ?_, by simp⟩
    change (m.insert k v)[j]? = none at hj
    change m[j]? = none
    rw [GoMap.getElem?_insert] at hj
    split at hj
    · simp at hj
    · exact hj

theorem inside_trans {lts lts' : TD F} {e e' e'' : ModelElem F} (h : Inside lts e' e) (h' : Inside lts' e'' e') :
    Inside (lts ++ lts') e'' e := by
  induction h with
  | self => simpa using h'
  | segment hm _ ih => rw [List.append_assoc]; exact .segment hm (ih h')

theorem within_trans {e e' e'' : ModelElem F} (h : IsIn e' e) (h' : IsIn e'' e') : IsIn e'' e :=
  ⟨_, inside_trans h.choose_spec h'.choose_spec⟩

theorem derives_within {e e' : ModelElem F} {df : DerivedField F} (h : IsIn e' e) (hd : Derives e' df) :
    Derives e df := by
  obtain ⟨e2, h2, hm⟩ := hd
  exact ⟨e2, within_trans h h2, hm⟩

theorem written_within {e e' : ModelElem F} {x : Expr F} (h : IsIn e' e) (hw : Occurs x e') : Occurs x e := by
  obtain ⟨df, hd, hp⟩ := hw
  exact ⟨df, derives_within h hd, hp⟩

theorem typed_within {dd : List DataField} {td : TD F} {e e' : ModelElem F} {f : String} {dt : DataType}
    (h : IsIn e' e) (ht : HasType dd td e' f dt) : HasType dd td e f dt := by
  rcases ht with ht | ht | ⟨x, hx, ht⟩
  · exact .inl ht
  · exact .inr (.inl ht)
  · exact .inr (.inr ⟨x, derives_within h hx, ht⟩)

section
variable [Lib F]

/-- A fault of an inner model on a later row is one of the outer model on the row before. -/
theorem Spec.Blamed.lift {dd : List DataField} {e e' : ModelElem F} {row row' : Row F} {f : Fault}
    (hb : Blamed dd e' row' f) (hw : IsIn e' e) (hk : KeepsRow row row') : Blamed dd e row f := by
  cases hb with
  | missingTerm h1 h2 h3 => exact .missingTerm (within_trans hw h1) h2 (hk.1 _ h3)
  | regressionFunction h1 h2 => exact .regressionFunction (within_trans hw h1) h2
  | tables h1 h2 h3 => exact .tables (within_trans hw h1) h2 h3
  | outputs h1 h2 h3 => exact .outputs (within_trans hw h1) h2 h3
  | normalization h1 h2 => exact .normalization (within_trans hw h1) h2
  | constant h1 h2 => exact .constant (written_within hw h1) h2
  | constantType h1 h2 => exact .constantType (written_within hw h1) h2
  | default h1 h2 h3 h4 => exact .default (written_within hw h1) h2 h3 h4
  | defaultType h1 h2 h3 => exact .defaultType (written_within hw h1) h2 h3
  | noInput h1 h2 h3 => exact .noInput (written_within hw h1) h2 (fun p hp hc => hk.1 _ (h3 p hp hc))
  | arity h1 h2 h3 => exact .arity (written_within hw h1) h2 h3
  | unknownFunction h1 h2 h3 => exact .unknownFunction (written_within hw h1) h2 h3
  | unknownExpression h1 => exact .unknownExpression (written_within hw h1)
  | noSegments h1 h2 => exact .noSegments (within_trans hw h1) h2
  | label h1 h2 h3 h4 => exact .label (within_trans hw h1) h2 h3 h4
  | noLabel h1 h2 h3 => exact .noLabel (within_trans hw h1) h2 h3
  | noPredicate h1 h2 h3 => exact .noPredicate (within_trans hw h1) h2 h3
  | noRow h => exact .noRow (hk.2 h)

theorem getRawValue_fault {dt : DataType} {text : String} {f : Fault}
    (h : (getRawValue dt text : Res (GoVal F)) = .error f) :
    (∃ s, dt = .other s ∧ f = .err .invalidDataType) ∨
    ((∀ s, dt ≠ .other s) ∧ readable F dt text = false ∧ f = .err (.parse text)) := by
  unfold getRawValue at h
  unfold readable
  cases dt <;> simp only [fail] at h ⊢
  case boolean => cases hb : parseBool text <;> simp_all
  case double => cases hb : (Lib.parseFloat text : Option F) <;> simp_all
  case float => cases hb : (Lib.parseFloat text : Option F) <;> simp_all
  case integer => cases hb : parseInt text <;> simp_all
  case string => simp at h
  case other s => simp_all

variable [Arith F]

theorem sumLoop_fault {row : Row F} {f : Fault} : ∀ {es : List (Expr F)} {s : F}, sumLoop row s es = .error f →
    ∃ x ∈ es, handleExpression row x = .error f := by
  intro es
  induction es with
  | nil => intro s h; simp [sumLoop] at h
  | cons x es ih =>
    intro s h
    rw [sumLoop] at h
    rcases hx : handleExpression row x with g | v
    · simp only [hx, bind, Except.bind, Except.error.injEq] at h
      exact ⟨x, by simp, by rw [hx, h]⟩
    · simp only [hx, bind, Except.bind] at h
      obtain ⟨y, hy, hf⟩ := ih h
      exact ⟨y, by simp [hy], hf⟩

theorem expr_blamed {dd : List DataField} {e : ModelElem F} {row : Row F} (x : Expr F) :
    (∀ sub, Part sub x → Occurs sub e) → ∀ {f : Fault}, handleExpression row x = .error f → Blamed dd e row f := by
  induction x using Expr.ind with
  | h1 n => intro _ f h; simp [handleExpression] at h
  | h2 dt v =>
    intro hw f h
    rw [handleExpression] at h
    unfold handleConstant at h
    split at h
    · split at h
      · simp at h
      · rename_i hp
        simp only [fail, Except.error.injEq] at h
        subst h
        exact .constant (hw _ .self) (by simp [readable, hp])
    · rename_i hd
      simp only [fail, Except.error.injEq] at h
      subst h
      exact .constantType (hw _ .self) hd
  | h4 m =>
    intro hw f h
    rw [handleExpression] at h
    unfold handleMapValues at h
    simp only at h
    split at h
    · simp at h
    · split at h
      · rename_i d hd
        rcases getRawValue_fault h with ⟨s, hs, rfl⟩ | ⟨h1, h2, rfl⟩
        · exact .defaultType (hw _ .self) hd hs
        · exact .default (hw _ .self) hd h1 h2
      · rename_i hd
        split at h
        · simp at h
        · rename_i hin
          simp only [fail, Except.error.injEq] at h
          subst h
          refine .noInput (hw _ .self) hd (fun p hp hc => ?_)
          by_contra hrow
          cases row with
          | none => exact hrow rfl
          | some r =>
            have := mapLookup_isSome m.inlineTables _ p.column
              (mapColumns_isSome hp (Option.isSome_iff_ne_none.mpr hrow))
            rw [hc, hin] at this
            simp at this
  | h5 k =>
    intro hw f h
    simp only [handleExpression, fail, Except.error.injEq] at h
    subst h
    exact .unknownExpression (hw _ .self)
  | h3 fn args ih =>
    intro hw f h
    replace ih : ∀ a ∈ args, ∀ {f}, handleExpression row a = .error f → Blamed dd e row f :=
      fun a ha f hf => ih a ha (fun sub hs => hw sub (.arg ha hs)) hf
    have hself := hw _ .self
    unfold handleExpression at h
    split at h
    · rcases hs : sumLoop row Arith.zero args with g | v
      · simp only [hs, bind, Except.bind, Except.error.injEq] at h
        subst h
        obtain ⟨a, ha, hf⟩ := sumLoop_fault hs
        exact ih a ha hf
      · simp [hs, bind, Except.bind, pure, Except.pure] at h
    · rename_i hsum
      split at h
      · rename_i hf
        split at h
        · rename_i e1 e2
          rcases h1 : handleExpression row e1 with g | v1
          · simp only [h1, bind, Except.bind, Except.error.injEq] at h
            exact h ▸ ih e1 (by simp) h1
          · rcases h2 : handleExpression row e2 with g | v2
            · simp only [h1, h2, bind, Except.bind, Except.error.injEq] at h
              exact h ▸ ih e2 (by simp) h2
            · simp only [h1, h2, bind, Except.bind, pure, Except.pure] at h
              split_ifs at h
        · rename_i hl
          simp only [fail, Except.error.injEq] at h
          subst h
          refine .arity (n := 2) hself (by rcases hf with rfl | rfl | rfl | rfl <;> rfl) (fun hlen => ?_)
          obtain ⟨a, b, rfl⟩ := List.length_eq_two.mp hlen
          exact hl a b rfl
      · rename_i hop
        split at h
        · rename_i hf
          split at h
          · rename_i e1
            rcases h1 : handleExpression row e1 with g | v1
            · simp only [h1, bind, Except.bind, Except.error.injEq] at h
              exact h ▸ ih e1 (by simp) h1
            · simp [h1, bind, Except.bind, pure, Except.pure] at h
          · rename_i hl
            simp only [fail, Except.error.injEq] at h
            subst h
            refine .arity (n := 1) hself (by rw [hf]; rfl) (fun hlen => ?_)
            obtain ⟨a, rfl⟩ := List.length_eq_one_iff.mp hlen
            exact hl a rfl
        · rename_i hmiss
          split at h
          · rename_i hf
            split at h
            · rename_i e1
              rcases h1 : handleExpression row e1 with g | v1
              · simp only [h1, bind, Except.bind, Except.error.injEq] at h
                exact h ▸ ih e1 (by simp) h1
              · simp [h1, bind, Except.bind, pure, Except.pure] at h
            · rename_i hl
              simp only [fail, Except.error.injEq] at h
              subst h
              refine .arity (n := 1) hself (by rw [hf]; rfl) (fun hlen => ?_)
              obtain ⟨a, rfl⟩ := List.length_eq_one_iff.mp hlen
              exact hl a rfl
          · rename_i hnot
            split at h
            · rename_i hf
              split at h
              · rename_i c e1 e2
                rcases h1 : handleExpression row c with g | v
                · simp only [h1, bind, Except.bind, Except.error.injEq] at h
                  exact h ▸ ih c (by simp) h1
                · simp only [h1, bind, Except.bind] at h
                  split at h
                  · exact ih e1 (by simp) h
                  · exact ih e2 (by simp) h
              · rename_i hl
                simp only [fail, Except.error.injEq] at h
                subst h
                refine .arity (n := 3) hself (by rw [hf]; rfl) (fun hlen => ?_)
                obtain ⟨a, b, c, rfl⟩ := List.length_eq_three.mp hlen
                exact hl a b c rfl
            · rename_i hif
              simp only [fail, Except.error.injEq] at h
              subst h
              refine .unknownFunction hself ?_ hsum
              unfold takes
              split <;> simp_all

theorem handleInput_keeps (dfs : List (DerivedField F)) : ∀ row : Row F, KeepsRow row (handleInput dfs row).2 := by
  induction dfs with
  | nil => intro row; exact .refl row
  | cons df dfs ih =>
    intro row
    rw [handleInput]
    split
    · exact .refl row
    · split
      · exact .refl row
      · rename_i hs
        exact (keepsRow_set hs).trans (ih _)

theorem handleInput_blamed {dd : List DataField} {e : ModelElem F} (dfs : List (DerivedField F)) :
    (∀ df ∈ dfs, Derives e df) → ∀ {row : Row F} {f : Fault} {row'}, handleInput dfs row = (.error f, row') →
    Blamed dd e row f := by
  induction dfs with
  | nil => intro _ row f row' h; simp [handleInput] at h
  | cons df dfs ih =>
    intro hd row f row' h
    rw [handleInput] at h
    split at h
    · rename_i g hx
      simp only [Prod.mk.injEq, Except.error.injEq] at h
      obtain ⟨rfl, -⟩ := h
      exact expr_blamed df.expr (fun sub hs => ⟨df, hd df (by simp), hs⟩) hx
    · split at h
      · rename_i g hs
        simp only [Prod.mk.injEq, Except.error.injEq] at h
        obtain ⟨rfl, -⟩ := h
        cases row with
        | none =>
          simp only [Row.set, panic, Except.error.injEq] at hs
          subst hs
          exact .noRow rfl
        | some m => simp [Row.set] at hs
      · rename_i row1 hs
        exact (ih (fun x hx => hd x (by simp [hx])) h).lift ⟨[], .self⟩ (keepsRow_set hs)

variable [Trans F]

omit [Arith F] [Lib F] [Trans F] in
theorem firstMissing_some {row : Row F} {nps : List (NumericPredictor F)} {k : String}
    (h : firstMissing row nps = some k) : k ∈ nps.map (·.name) ∧ row.get k = none := by
  unfold firstMissing at h
  exact ⟨List.mem_of_find?_eq_some h, by simpa using List.find?_some h⟩

theorem binaryLoop_fault {n : Normalization} {row : Row F} {f : Fault} : ∀ {nps : List (NumericPredictor F)} {y : F},
    binaryLoop n row y nps = .error f →
    (∃ k ∈ nps.map (·.name), row.get k = none ∧ f = .err (.missingTerm k)) ∨
    (linkKnown n = false ∧ f = .err .unsupportedNormalization) := by
  intro nps
  induction nps with
  | nil => intro y h; simp [binaryLoop] at h
  | cons np nps ih =>
    intro y h
    rw [binaryLoop] at h
    split at h
    · rename_i hg
      simp only [fail, Except.error.injEq] at h
      exact .inl ⟨np.name, by simp, hg, h.symm⟩
    · rename_i v _
      rw [normalize_eq] at h
      cases hl : link (F := F) n with
      | none =>
        simp only [hl, fail, bind, Except.bind, Except.error.injEq] at h
        refine .inr ⟨?_, h.symm⟩
        rw [← Bool.not_eq_true, linkKnown_iff (F := F), hl]
        simp
      | some g =>
        simp only [hl, bind, Except.bind] at h
        rcases ih h with ⟨k, hk, h2⟩ | h2
        · exact .inl ⟨k, by simp at hk ⊢; exact .inr hk, h2⟩
        · exact .inr h2

theorem binaryTables_fault {n : Normalization} {outputs : List OutputField} {row : Row F} {f : Fault} :
    ∀ {ts : List (RegressionTable F)} {rest : F} {out : GoMap (GoVal F)},
    binaryTables n outputs row rest out ts = .error f →
    (∃ k, (∃ t ∈ ts, k ∈ t.predictors.map (·.name)) ∧ row.get k = none ∧ f = .err (.missingTerm k)) ∨
    (linkKnown n = false ∧ f = .err .unsupportedNormalization) := by
  intro ts
  induction ts with
  | nil => intro rest out h; simp [binaryTables] at h
  | cons t ts ih =>
    intro rest out h
    rw [binaryTables] at h
    replace h : ((if t.predictors ≠ [] then binaryLoop n row t.intercept t.predictors else pure rest) >>= fun pred =>
        binaryTables n outputs row (Arith.sub rest pred) (binaryOut outputs t.targetCategory pred out) ts) =
          .error f := by
      rw [← h]; split_ifs <;> rfl
    rcases hx : (if t.predictors ≠ [] then binaryLoop n row t.intercept t.predictors else pure rest) with g | x
    · rw [hx] at h
      simp only [bind, Except.bind, Except.error.injEq] at h
      subst h
      split_ifs at hx with hp
      · rcases binaryLoop_fault hx with ⟨k, hk, h2⟩ | h2
        · exact .inl ⟨k, ⟨t, by simp, hk⟩, h2⟩
        · exact .inr h2
      · simp [pure, Except.pure] at hx
    · rw [hx] at h
      simp only [bind, Except.bind] at h
      rcases ih h with ⟨k, ⟨t', ht, hk⟩, h2⟩ | h2
      · exact .inl ⟨k, ⟨t', by simp [ht], hk⟩, h2⟩
      · exact .inr h2

omit [Arith F] [Lib F] [Trans F] in
theorem mem_tableFields {d : RegressionDoc F} {k : String} :
    k ∈ tableFields d ↔ ∃ t ∈ d.tables, k ∈ t.predictors.map (·.name) := by
  simp [tableFields, List.mem_flatMap]

theorem regression_blamed {dd : List DataField} {d : RegressionDoc F} {row : Row F} {f : Fault}
    (h : d.evaluate row = .error f) : Blamed dd (.regression d) row f := by
  have hin : IsIn (.regression d) (ModelElem.regression d) := ⟨[], .self⟩
  unfold RegressionDoc.evaluate at h
  split at h
  · rename_i hf
    unfold RegressionDoc.evalRegression at h
    split at h
    · rename_i t ht
      split at h
      · rename_i o ho
        rw [linearLoop_eq] at h
        cases hm : firstMissing row t.predictors with
        | some k =>
          simp only [hm, fail, bind, Except.bind, Except.error.injEq] at h
          subst h
          obtain ⟨h1, h2⟩ := firstMissing_some hm
          exact .missingTerm hin (mem_tableFields.mpr ⟨t, by simp [ht], h1⟩) h2
        | none =>
          simp only [hm, bind, Except.bind, normalize_eq] at h
          cases hl : link (F := F) d.normalization with
          | none =>
            simp only [hl, fail, Except.error.injEq] at h
            subst h
            refine .normalization hin ?_
            unfold strangeNormalization
            rw [hf]
            simp only [Bool.not_eq_true', ← Bool.not_eq_true, linkKnown_iff (F := F), hl]
            simp
          | some g => simp [hl, pure, Except.pure] at h
      · rename_i hno
        simp only [fail, Except.error.injEq] at h
        subst h
        refine .outputs hin hf (fun hl => ?_)
        obtain ⟨o, ho⟩ := List.length_eq_one_iff.mp hl
        exact hno o ho
    · rename_i hno
      simp only [fail, Except.error.injEq] at h
      subst h
      refine .tables hin hf (fun hl => ?_)
      obtain ⟨t, ht⟩ := List.length_eq_one_iff.mp hl
      exact hno t ht
  · rename_i hf
    split_ifs at h with ho
    · unfold RegressionDoc.evalBinary at h
      rcases hb : binaryTables d.normalization d.outputs row Arith.one ∅ d.tables with g | out
      · simp only [hb, bind, Except.bind, Except.error.injEq] at h
        subst h
        rcases binaryTables_fault hb with ⟨k, hk, h2, rfl⟩ | ⟨hl, rfl⟩
        · exact .missingTerm hin (mem_tableFields.mpr hk) h2
        · exact .normalization hin (by unfold strangeNormalization; rw [hf]; simp [ho, hl])
      · simp [hb, bind, Except.bind, pure, Except.pure] at h
    · unfold RegressionDoc.evalMulticlass at h
      simp only [linearAll_eq] at h
      cases hm : firstMissing row (d.tables.flatMap (·.predictors)) with
      | some k =>
        simp only [hm, fail, bind, Except.bind, Except.error.injEq] at h
        subst h
        obtain ⟨h1, h2⟩ := firstMissing_some hm
        exact .missingTerm hin (by rw [tableFields_eq]; exact h1) h2
      | none =>
        simp only [hm, bind, Except.bind] at h
        cases hw : weight (F := F) d.normalization with
        | none =>
          have : f = .err .unsupportedNormalization := by
            cases ht : d.tables with
            | nil => simp [ht, multiclassOut, pure, Except.pure] at h
            | cons t ts =>
              simp only [ht, List.map_cons, List.zip_cons_cons, multiclassOut_unsupported hw, fail,
                Except.error.injEq] at h
              exact h.symm
          subst this
          refine .normalization hin ?_
          unfold strangeNormalization
          rw [hf]
          simp only [if_neg ho, Bool.not_eq_true', ← Bool.not_eq_true, weightKnown_iff (F := F), hw]
          simp
        | some g => rw [multiclassOut_eq hw] at h; simp [pure, Except.pure] at h
  · rename_i s hf
    simp only [fail, Except.error.injEq] at h
    subst h
    exact .regressionFunction hin hf

/-- What is proved of every model: rows keep their fields, and faults have their reasons. -/
def Honest (dd : List DataField) (e : ModelElem F) (m : EModel F) : Prop :=
  ∀ (o : MapOrd) (row : Row F), KeepsRow row (EModel.evaluate o m row).row ∧
    ∀ f, (EModel.evaluate o m row).res = .error f → Blamed dd e row f

omit [Lib F] [Trans F] in
/-- Labels come from the document. -/
theorem nodeAns_labels {dd : List DataField} {d : TreeDoc F} {T : Node F → PredRes} {a : Ans F}
    (h : NodeAns dd d T d.node a) : ∀ s ∈ a.1, Props.DocLabel dd d s.value := by
  refine nodeAns_forall (Q := fun s => Props.DocLabel dd d s.value) ?_ ?_ ?_ ?_ ?_ h
  · exact fun r hr s hs => Props.ownDist_labels hr hs
  · intro _ r hr s hs
    obtain ⟨t, ht, e⟩ := Props.declaredDist_labels hs
    exact .inr ⟨r, hr, .inr ⟨t, ht, e⟩⟩
  · exact fun _ s hs => hs
  · exact fun _ l dist hl hw => Props.weightedMix_labels hl hw
  · rintro _ scores dist hs ⟨-, hmem, -⟩ s hsd
    obtain ⟨t, ht, e⟩ := List.mem_map.mp ((hmem s.value).mp (List.mem_map_of_mem hsd))
    rw [← e]; exact hs t ht

omit [Lib F] [Trans F] in
theorem ownDist_head {dd : List DataField} {d : TreeDoc F} {n : Node F} {s : ScoreDist F} {ss : List (ScoreDist F)}
    (h : ownDist dd d n = s :: ss) : numberText dd d n = some s.value := by
  unfold ownDist at h
  unfold numberText
  split_ifs at h with h1 h2 h3
  · cases hd : n.dists with
    | nil => exact absurd hd h2
    | cons t ts =>
      rw [hd] at h
      simp only [declaredDist, List.map_cons, List.cons.injEq] at h
      simp [← h.1]
  · simp only [ne_eq, not_not] at h2
    rw [h2]
    simp only [if_neg h3]
    cases hv : targetValues dd (targetOf d.miningFields) with
    | nil => rw [hv] at h; simp [oneHot] at h
    | cons v vs =>
      rw [hv] at h
      simp only [oneHot, List.map_cons, List.cons.injEq] at h
      rw [← h.1]
      simp
  · simp only [ne_eq, not_not] at h2 h3
    rw [h2]
    simp only [if_pos h3]
    simp only [List.cons.injEq] at h
    rw [← h.1]

omit [Lib F] [Trans F] in
theorem ownDist_nil {dd : List DataField} {d : TreeDoc F} {n : Node F} (h : ownDist dd d n = []) :
    d.noTrueChildStrategy = .returnNullPrediction ∨
      targetOf d.miningFields ≠ "" ∧ targetValues dd (targetOf d.miningFields) = [] := by
  unfold ownDist at h
  split_ifs at h with h1 h2 h3
  · exact .inl h1.2
  · exact absurd (by simpa [declaredDist] using h) h2
  · exact .inr ⟨h3, by simpa [oneHot] using h⟩

omit [Trans F] in
theorem answer_blamed {dd : List DataField} {d : TreeDoc F} {types : FieldTypes} {row : Row F} {a : Ans F} {f : Fault}
    (ha : NodeAns dd d (nodeTest types row) d.node a)
    (hf : report d.functionName (targetOf d.miningFields) a = .error f) :
    d.functionName = .regression ∧
    ((∃ text, MayReport dd d text ∧ readable F .double text = false ∧ f = .err (.parse text)) ∨
      (d.noTrueChildStrategy = .returnNullPrediction ∨
        targetOf d.miningFields ≠ "" ∧ targetValues dd (targetOf d.miningFields) = [] ∨
        goesDown d.missingValueStrategy = false ∧ d.missingValueStrategy ≠ .lastPrediction) ∧
      f = .panic .indexOutOfRange) := by
  unfold report at hf
  split_ifs at hf with hat
  simp only [ne_eq, not_not] at hat
  cases hfn : d.functionName with
  | classification => simp [hfn] at hf
  | other s => simp [hfn] at hf
  | regression =>
    refine ⟨rfl, ?_⟩
    rw [hfn] at hf
    by_cases hgo : goesDown d.missingValueStrategy = true ∨ d.missingValueStrategy = .lastPrediction
    · obtain ⟨n, hn, hd1, -⟩ := nodeAns_from (by simpa using hgo) ha hat
      cases hl : a.1 with
      | nil =>
        rw [hl] at hf
        simp only [panic, Except.error.injEq] at hf
        subst hf
        rw [hl] at hd1
        rcases ownDist_nil hd1.symm with h1 | h1
        · exact .inr ⟨.inl h1, rfl⟩
        · exact .inr ⟨.inr (.inl h1), rfl⟩
      | cons s ss =>
        rw [hl] at hf
        simp only at hf
        split at hf
        · simp at hf
        · rename_i hno
          simp only [fail, Except.error.injEq] at hf
          subst hf
          refine .inl ⟨_, ?_, by simp [readable, hno], rfl⟩
          unfold MayReport
          rw [if_pos hgo]
          rw [hl] at hd1
          exact ⟨n, hn, ownDist_head hd1.symm⟩
    · cases hl : a.1 with
      | nil =>
        rw [hl] at hf
        simp only [panic, Except.error.injEq] at hf
        subst hf
        exact .inr ⟨.inr (.inr (by simpa using hgo)), rfl⟩
      | cons s ss =>
        rw [hl] at hf
        simp only at hf
        split at hf
        · simp at hf
        · rename_i hno
          simp only [fail, Except.error.injEq] at hf
          subst hf
          refine .inl ⟨_, ?_, by simp [readable, hno], rfl⟩
          unfold MayReport
          rw [if_neg hgo]
          exact nodeAns_labels ha s (by simp [hl])

/-! Nodes without predicates: the tree in which they always hold is constructed too, and answers
alike wherever none of them is reached. -/

section
omit [Arith F] [Lib F] [Trans F]

/-- The tree with a test that always holds at the nodes that have none. -/
def tested108 : Node F → Node F
  | .mk id dc score rc dists nodes pred => .mk id dc score rc dists (go nodes) (some (pred.getD .true_))
where
  go : List (Node F) → List (Node F)
    | [] => []
    | n :: ns => tested108 n :: go ns

theorem tested108_go_mem {c : Node F} : ∀ {ns : List (Node F)}, c ∈ tested108.go ns → ∃ c₀ ∈ ns, c = tested108 c₀
  | [], h => by simp [tested108.go] at h
  | n :: ns, h => by
    rw [tested108.go, List.mem_cons] at h
    rcases h with h | h
    · exact ⟨n, by simp, h⟩
    · obtain ⟨c₀, h1, h2⟩ := tested108_go_mem h
      exact ⟨c₀, by simp [h1], h2⟩

theorem tested108_sub {r : Node F} (n : Node F) (h : Sub r (tested108 n)) : ∃ r₀, Sub r₀ n ∧ r = tested108 r₀ := by
  generalize hn : tested108 n = n' at h
  induction h generalizing n with
  | refl => exact ⟨n, .refl, hn.symm⟩
  | child hc _ ih =>
    subst hn
    obtain ⟨id, dc, score, rc, dists, nodes, pred⟩ := n
    rw [tested108] at hc
    obtain ⟨c₀, h1, h2⟩ := tested108_go_mem hc
    obtain ⟨r₀, h3, h4⟩ := ih c₀ h2.symm
    exact ⟨r₀, .child h1 h3, h4⟩

theorem tested108_allPreds (n : Node F) : AllPreds (tested108 n) := by
  intro r hr
  obtain ⟨⟨id, dc, score, rc, dists, nodes, pred⟩, -, rfl⟩ := tested108_sub n hr
  exact ⟨_, by rw [tested108]; rfl⟩

theorem tested108_same {s : MissingValueStrategy} {T : Node F → PredRes} : (n : Node F) →
    (∀ r ∈ reached s T n, r.pred ≠ none) → SameReached s T n (tested108 n)
  | .mk id dc score rc dists nodes pred, h => by
    rw [reached] at h
    have hp : pred ≠ none := h _ List.mem_cons_self
    obtain ⟨p, rfl⟩ := Option.ne_none_iff_exists'.mp hp
    rw [tested108]
    refine .mk ?_ fun hg => ?_
    · cases nodes <;> simp [tested108.go]
    · rw [if_pos hg] at h
      exact go nodes fun r hr => h r (by simp [hr])
where
  go : (ns : List (Node F)) → (∀ r ∈ reached.reacheds s T ns, r.pred ≠ none) → SameReacheds s T ns (tested108.go ns)
    | [], _ => .nil
    | n :: ns, h => by
      rw [reached.reacheds] at h
      rw [tested108.go]
      by_cases hst : settles s (T n) = true
      · exact .stop (tested108_same n fun r hr => h r (by simp [hr])) hst
      · rw [if_neg hst] at h
        exact .cons (tested108_same n fun r hr => h r (by simp [hr])) (go ns fun r hr => h r (by simp [hr]))
end

omit [Trans F] in
theorem tested108_newNode {types : FieldTypes} : (n : Node F) → ∀ {cn}, newNode types n = .ok cn →
    ∃ cn', newNode types (tested108 n) = .ok cn'
  | .mk id dc score rc dists nodes pred, cn, h => by
    rw [newNode] at h
    cases hs : newNodes types nodes with
    | error g => rw [hs] at h; simp [bind, Except.bind] at h
    | ok cs =>
      obtain ⟨cs', hs'⟩ := go nodes hs
      rw [tested108, newNode, hs']
      cases pred with
      | none => exact ⟨_, rfl⟩
      | some p =>
        rw [hs] at h
        cases hp : compilePredicate types p with
        | error g => simp [hp, bind, Except.bind] at h
        | ok q =>
          simp only [Option.getD_some, hp]
          exact ⟨_, rfl⟩
where
  go : (ns : List (Node F)) → ∀ {cs}, newNodes types ns = .ok cs → ∃ cs', newNodes types (tested108.go ns) = .ok cs'
    | [], _, _ => ⟨_, rfl⟩
    | n :: ns, cs, h => by
      rw [newNodes] at h
      cases hn : newNode types n with
      | error g => rw [hn] at h; simp [bind, Except.bind] at h
      | ok cn =>
        cases hs : newNodes types ns with
        | error g => rw [hn, hs] at h; simp [bind, Except.bind] at h
        | ok cs =>
          obtain ⟨cn', hn'⟩ := tested108_newNode n hn
          obtain ⟨cs', hs'⟩ := go ns hs
          rw [tested108.go, newNodes, hn', hs']
          exact ⟨_, rfl⟩

omit [Trans F] in
theorem tested108_newTreeModel {dd : List DataField} {td td' : TD F} {d : TreeDoc F} {t : TreeModel F}
    (h : newTreeModel dd td d = (.ok t, td')) :
    ∃ t', newTreeModel dd td { d with node := tested108 d.node } = (.ok t', td') := by
  obtain ⟨hf, rfl, -, -, -, -, -, -, hn⟩ := newTreeModel_ok h
  obtain ⟨cn, hn'⟩ := tested108_newNode _ hn
  have hf : ¬ (d.functionName ≠ .classification ∧ d.functionName ≠ .regression) := by tauto
  unfold newTreeModel TreeModel.init TreeModel.validate
  simp only [hf, if_false, TreeModel.compile]
  simp only [treeTypes] at hn'
  simp [hn']

omit [Arith F] [Lib F] [Trans F] in
theorem tested108_mayReport {dd : List DataField} {d : TreeDoc F} {text : String}
    (h : MayReport dd { d with node := tested108 d.node } text) : MayReport dd d text := by
  unfold MayReport at h ⊢
  simp only at h
  split_ifs at h ⊢ with hg
  · obtain ⟨r, hr, hn⟩ := h
    obtain ⟨⟨id, dc, score, rc, dists, nodes, pred⟩, h1, rfl⟩ := tested108_sub _ hr
    rw [tested108] at hn
    exact ⟨_, h1, hn⟩
  · refine h.imp_right ?_
    rintro ⟨r, hr, hn⟩
    obtain ⟨⟨id, dc, score, rc, dists, nodes, pred⟩, h1, rfl⟩ := tested108_sub _ hr
    rw [tested108] at hn
    exact ⟨_, h1, hn⟩

theorem tree_honest {dd : List DataField} {td td' : TD F} {d : TreeDoc F} {t : TreeModel F}
    (h : newTreeModel dd td d = (.ok t, td')) : Honest dd (.tree d) (.tree t) := by
  intro o row
  have hin : IsIn (.tree d) (ModelElem.tree d) := ⟨[], .self⟩
  have hder : ∀ df ∈ d.localTransformations, Derives (.tree d) df := fun df hdf => ⟨_, hin, hdf⟩
  obtain ⟨-, -, hv, hc, hk, hm, -⟩ := newTreeModel_ok h
  have hlt : t.model.localTransformations = d.localTransformations := by rw [hm]
  obtain ⟨he1, he2, -⟩ := evaluate_eq hv hc (by rw [hk]; exact keysOk_empty) o row
  rw [hlt] at he1 he2
  simp only [EModel.evaluate]
  refine ⟨by rw [he1]; exact handleInput_keeps _ _, fun f hf => ?_⟩
  rcases hi : handleInput d.localTransformations row with ⟨g | ⟨⟨⟩⟩, row'⟩
  · rw [hi] at he2
    rw [he2] at hf
    simp only [Except.error.injEq] at hf
    subst hf
    exact handleInput_blamed _ hder hi
  · by_cases hr : ∃ n ∈ reached d.missingValueStrategy (nodeTest (treeTypes dd td d) row') d.node, n.pred = none
    · have := (Props.C80_exactly h hi o).mpr hr
      rw [this] at hf
      simp only [panic, Except.error.injEq] at hf
      subst hf
      obtain ⟨n, hn, hp⟩ := hr
      exact .noPredicate hin (reached_sub _ hn) hp
    · obtain ⟨t', h'⟩ := tested108_newTreeModel h
      have he := Props.C80_untested h h' hi o (tested108_same _ fun r hm hp => hr ⟨r, hm, hp⟩)
      obtain ⟨a, ha, hres⟩ := evaluate_answer h' (tested108_allPreds _) hi o
      rw [he, hres] at hf
      obtain ⟨hfn, ⟨text, h1, h2, rfl⟩ | ⟨h1, rfl⟩⟩ := answer_blamed ha hf
      · exact .label hin hfn (tested108_mayReport h1) h2
      · exact .noLabel hin hfn h1

omit [Trans F] in
theorem prepared_honest {dd : List DataField} {h : MiningHead F} {segs : List (SegDoc F)} {row : Row F}
    {res : Res Unit} {row2 : Row F} (hp : Prepared h row res row2) :
    KeepsRow row row2 ∧ ∀ f, res = .error f → Blamed dd (.mining h segs) row f := by
  have hder : ∀ df ∈ h.localTransformations, Derives (.mining h segs) df := fun df hdf => ⟨_, ⟨[], .self⟩, hdf⟩
  cases hp with
  | row hi he =>
    rename_i r row1
    have hk : KeepsRow (some r) (some row1) := by
      refine ⟨fun k hk => ?_, by simp⟩
      by_contra hn
      have := (imputed_holds hi).1 k (Option.isSome_iff_ne_none.mpr hn)
      change row1[k]? = none at hk
      rw [hk] at this
      simp at this
    refine ⟨?_, fun f hf => ?_⟩
    · have := handleInput_keeps h.localTransformations (some row1)
      rw [he] at this
      exact hk.trans this
    · subst hf
      exact (handleInput_blamed _ hder he).lift ⟨[], .self⟩ hk
  | nilRow hi he =>
    refine ⟨⟨fun _ _ => rfl, fun _ => rfl⟩, fun f hf => ?_⟩
    subst hf
    exact handleInput_blamed _ hder he
  | nilPanic hk =>
    refine ⟨.refl _, fun f hf => ?_⟩
    simp only [panic, Except.error.injEq] at hf
    subst hf
    exact .noRow rfl

section
variable {B : Row F → Fault → Prop} (hB : ∀ row row' f, KeepsRow row row' → B row' f → B row f)
include hB

theorem sumSegments_honest (o : MapOrd) (fn : MiningFunction) : ∀ (ms : List (EModel F)),
    (∀ m ∈ ms, ∀ o row, KeepsRow row (EModel.evaluate o m row).row ∧
      ∀ f, (EModel.evaluate o m row).res = .error f → B row f) →
    ∀ (i : Nat) (sm : GoMap F) (row : Row F), KeepsRow row (sumSegments o fn i sm ms row).row ∧
      ∀ f, (sumSegments o fn i sm ms row).res = .error f → B row f := by
  intro ms
  induction ms with
  | nil => intro _ i sm row; exact ⟨.refl row, fun f hf => by simp [sumSegments] at hf⟩
  | cons m ms ih =>
    intro hm i sm row
    obtain ⟨h1, h2⟩ := hm m (by simp) (o.at_ (2 * i)) row
    rw [sumSegments]
    dsimp only
    split
    · rename_i g hg
      exact ⟨h1, fun f hf => by cases hf; exact h2 _ hg⟩
    · obtain ⟨h3, h4⟩ := ih (fun x hx => hm x (by simp [hx])) (i + 1)
        (((o.at_ (2 * i + 1)).range sm).foldl (addScore fn _) sm) (EModel.evaluate (o.at_ (2 * i)) m row).row
      exact ⟨h1.trans h3, fun f hf => hB _ _ _ h1 (h4 f hf)⟩

omit hB [Arith F] [Lib F] [Trans F] in
theorem writeAll_honest (es : List (String × GoVal F)) : ∀ row : Row F, KeepsRow row (writeAll es row).2 ∧
    ∀ f, (writeAll es row).1 = .error f → row = none ∧ f = .panic .nilMapWrite := by
  induction es with
  | nil => intro row; exact ⟨.refl row, fun f hf => by simp [writeAll] at hf⟩
  | cons kv es ih =>
    intro row
    obtain ⟨k, v⟩ := kv
    rw [writeAll]
    cases row with
    | none =>
      simp only [Row.set, panic]
      refine ⟨.refl _, fun f hf => ?_⟩
      simp only [Except.error.injEq] at hf
      exact ⟨trivial, hf.symm⟩
    | some m =>
      have hk := keepsRow_set (row := some m) (k := k) (v := v) rfl
      simp only [Row.set] at hk ⊢
      obtain ⟨h1, h2⟩ := ih (some (m.insert k v))
      exact ⟨hk.trans h1, fun f hf => absurd (h2 f hf).1 (by simp)⟩

theorem chainSegments_honest (hnil : B none (.panic .nilMapWrite)) (o : MapOrd) : ∀ (ms : List (EModel F)),
    (∀ m ∈ ms, ∀ o row, KeepsRow row (EModel.evaluate o m row).row ∧
      ∀ f, (EModel.evaluate o m row).res = .error f → B row f) →
    ∀ (i : Nat) (last : Out F) (row : Row F), KeepsRow row (chainSegments o i last ms row).row ∧
      ∀ f, (chainSegments o i last ms row).res = .error f → B row f := by
  intro ms
  induction ms with
  | nil => intro _ i last row; exact ⟨.refl row, fun f hf => by simp [chainSegments] at hf⟩
  | cons m ms ih =>
    intro hm i last row
    obtain ⟨w1, w2⟩ := writeAll_honest ((o.at_ (2 * i)).range (last.getD ∅)) row
    rw [chainSegments]
    rcases hw : writeAll ((o.at_ (2 * i)).range (last.getD ∅)) row with ⟨g | ⟨⟨⟩⟩, row1⟩
    · rw [hw] at w1 w2
      obtain ⟨rfl, rfl⟩ := w2 g rfl
      refine ⟨w1, fun f hf => ?_⟩
      simp only [Except.error.injEq] at hf
      exact hf ▸ hnil
    · rw [hw] at w1
      simp only at w1 ⊢
      obtain ⟨h1, h2⟩ := hm m (by simp) (o.at_ (2 * i + 1)) row1
      split
      · rename_i g hg
        exact ⟨w1.trans h1, fun f hf => hB _ _ _ w1 (h2 f (hg.trans hf))⟩
      · rename_i out _
        obtain ⟨h3, h4⟩ := ih (fun x hx => hm x (by simp [hx])) (i + 1) out
          (EModel.evaluate (o.at_ (2 * i + 1)) m row1).row
        exact ⟨(w1.trans h1).trans h3, fun f hf => hB _ _ _ (w1.trans h1) (h4 f hf)⟩

end

omit [Trans F] in
theorem newMining_method {dd : List DataField} {h : MiningHead F} {segs : List (SegDoc F)} {td td' : TD F}
    {M : EModel F} (hM : newModel dd (.mining h segs) td = (.ok M, td')) : SupportedMethod h.method := by
  rw [newModel] at hM
  rcases mining_validate (MiningState.init dd h segs) with ⟨hm, -, -⟩ | ⟨-, e, s', hv⟩
  · exact hm
  · rw [hv] at hM; simp at hM

theorem mining_honest {dd : List DataField} {h : MiningHead F} {segs : List (SegDoc F)} {td td' : TD F}
    {s : MiningState F} {ms : List (EModel F)} (hM : newModel dd (.mining h segs) td = (.ok (.mining s ms), td'))
    (hseg : List.Forall₂ (fun seg m => ∃ id ps e, seg = SegDoc.mk id ps [e] ∧ Honest dd e m) segs ms) :
    Honest dd (.mining h segs) (.mining s ms) := by
  intro o row
  obtain ⟨s', ms', heq, -, hh, -, -, -, hev⟩ := constructed_mining hM
  cases heq
  have hsup := newMining_method hM
  have hall : ∀ m ∈ ms, ∀ o row, KeepsRow row (EModel.evaluate o m row).row ∧
      ∀ f, (EModel.evaluate o m row).res = .error f → Blamed dd (.mining h segs) row f := by
    intro m hm o row
    have : ∃ seg ∈ segs, ∃ id ps e, seg = SegDoc.mk id ps [e] ∧ Honest dd e m := by
      clear hM hev hh
      induction hseg with
      | nil => simp at hm
      | cons hx _ ih =>
        rcases List.mem_cons.mp hm with rfl | hm
        · exact ⟨_, by simp, hx⟩
        · obtain ⟨sg, h1, h2⟩ := ih hm
          exact ⟨sg, by simp [h1], h2⟩
    obtain ⟨_, hsg, id, ps, e, rfl, hon⟩ := this
    obtain ⟨h1, h2⟩ := hon o row
    exact ⟨h1, fun f hf => (h2 f hf).lift ⟨_, .segment hsg .self⟩ (.refl row)⟩
  have hB : ∀ (row row' : Row F) f, KeepsRow row row' → Blamed dd (.mining h segs) row' f →
      Blamed dd (.mining h segs) row f := fun _ _ _ hk hb => hb.lift ⟨[], .self⟩ hk
  rcases hev o row with ⟨g, row2, hp, he⟩ | ⟨row2, hp, he⟩
  · rw [he]
    obtain ⟨p1, p2⟩ := prepared_honest (dd := dd) (segs := segs) hp
    exact ⟨p1, fun f hf => by cases hf; exact p2 _ rfl⟩
  · obtain ⟨p1, -⟩ := prepared_honest (dd := dd) (segs := segs) hp
    rw [he]
    suffices KeepsRow row2 (runMethod o s ms row2).row ∧
        ∀ f, (runMethod o s ms row2).res = .error f → Blamed dd (.mining h segs) row2 f from
      ⟨p1.trans this.1, fun f hf => hB _ _ _ p1 (this.2 f hf)⟩
    have hmeth : s.head.method = effectiveMethod h.method := by rw [hh]
    have hmap : ∀ {A B : Type} {r : Res A} {g : A → B} {f : Fault}, r.map g = .error f → r = .error f := by
      intro A B r g f hr
      cases r with
      | error x => simpa [Except.map] using hr
      | ok x => simp [Except.map] at hr
    unfold runMethod
    rw [hmeth]
    rcases hsup with h' | h' | h' | h' | h' <;> rw [h'] <;> simp only [effectiveMethod]
    · have := sumSegments_honest hB (o.at_ 1) s.head.functionName ms hall 0 (initScores s) row2
      exact ⟨this.1, fun f hf => this.2 f (hmap hf)⟩
    · have := sumSegments_honest hB (o.at_ 1) s.head.functionName ms hall 0 (initScores s) row2
      exact ⟨this.1, fun f hf => this.2 f (hmap hf)⟩
    · have := sumSegments_honest hB (o.at_ 1) s.head.functionName ms hall 0 (initScores s) row2
      exact ⟨this.1, fun f hf => this.2 f (hmap hf)⟩
    · exact chainSegments_honest hB (.noRow rfl) (o.at_ 1) ms hall 0 (some ∅) row2
    · cases hseg with
      | nil =>
        refine ⟨.refl _, fun f hf => ?_⟩
        simp only [selectFirst, fail, Except.error.injEq] at hf
        subst hf
        exact .noSegments ⟨[], .self⟩ h'
      | cons hx _ =>
        simp only [selectFirst]
        exact hall _ (by simp) _ _

/-- Every constructed model is honest. -/
theorem newModel_honest {dd : List DataField} {e : ModelElem F} {td td' : TD F} {m : EModel F}
    (h : newModel dd e td = (.ok m, td')) : Honest dd e m := by
  refine newModel_ind (P := fun e m => Honest dd e m) ?_ ?_ ?_ e h
  · intro d t td td' hn
    exact tree_honest hn
  · intro d o row
    exact ⟨.refl row, fun f hf => regression_blamed hf⟩
  · intro h segs td td' s ms hM hseg
    exact mining_honest hM hseg

/-! ### Construction -/

section
omit [Arith F] [Trans F]

mutual
theorem compilePredicate_fault {types : FieldTypes} {f : Fault} : (q : Pred F) → compilePredicate types q = .error f →
    ∃ p ∈ simples q, (types[p.field]? = none ∧ f = .err (.unknownFieldType p.field)) ∨
      ∃ dt, types[p.field]? = some dt ∧ (getRawValue dt p.value : Res (GoVal F)) = .error f
  | .simple p, h => by
    rw [compilePredicate] at h
    refine ⟨p, by simp [simples], ?_⟩
    split at h
    · rename_i hn
      simp only [fail, Except.error.injEq] at h
      exact .inl ⟨hn, h.symm⟩
    · rename_i dt hd
      rcases hv : (getRawValue dt p.value : Res (GoVal F)) with g | v
      · simp only [hv, bind, Except.bind, Except.error.injEq] at h
        exact .inr ⟨dt, hd, by rw [hv, h]⟩
      · simp [hv, bind, Except.bind, pure, Except.pure] at h
  | .compound op ps, h => by
    rw [compilePredicate] at h
    rcases hs : compilePredicates types ps with g | v
    · simp only [hs, bind, Except.bind, Except.error.injEq] at h
      subst h
      obtain ⟨p, hp, hf⟩ := compilePredicates_fault ps hs
      exact ⟨p, by simpa [simples] using hp, hf⟩
    · simp [hs, bind, Except.bind, pure, Except.pure] at h
  | .true_, h => by simp [compilePredicate, pure, Except.pure] at h
  | .false_, h => by simp [compilePredicate, pure, Except.pure] at h
  | .set fld, h => by simp [compilePredicate, pure, Except.pure] at h
theorem compilePredicates_fault {types : FieldTypes} {f : Fault} : (ps : List (Pred F)) →
    compilePredicates types ps = .error f →
    ∃ p ∈ simples.simpless ps, (types[p.field]? = none ∧ f = .err (.unknownFieldType p.field)) ∨
      ∃ dt, types[p.field]? = some dt ∧ (getRawValue dt p.value : Res (GoVal F)) = .error f
  | [], h => by simp [compilePredicates, pure, Except.pure] at h
  | q :: qs, h => by
    rw [compilePredicates] at h
    rcases h1 : compilePredicate types q with g | v
    · simp only [h1, bind, Except.bind, Except.error.injEq] at h
      subst h
      obtain ⟨p, hp, hf⟩ := compilePredicate_fault q h1
      exact ⟨p, by simp [simples.simpless, hp], hf⟩
    · rcases h2 : compilePredicates types qs with g | w
      · simp only [h1, h2, bind, Except.bind, Except.error.injEq] at h
        subst h
        obtain ⟨p, hp, hf⟩ := compilePredicates_fault qs h2
        exact ⟨p, by simp [simples.simpless, hp], hf⟩
      · simp [h1, h2, bind, Except.bind, pure, Except.pure] at h
end

end

omit [Trans F] in
mutual
theorem newNode_fault {types : FieldTypes} {f : Fault} : (n : Node F) → newNode types n = .error f →
    ∃ r q, Sub r n ∧ r.pred = some q ∧ compilePredicate types q = .error f
  | .mk id dc score rc dists nodes pred, h => by
    rw [newNode] at h
    rcases h1 : newNodes types nodes with g | v
    · simp only [h1, bind, Except.bind, Except.error.injEq] at h
      subst h
      obtain ⟨c, hc, r, q, hr, hq⟩ := newNodes_fault nodes h1
      exact ⟨r, q, .child hc hr, hq⟩
    · rw [h1] at h
      cases pred with
      | none => simp [bind, Except.bind, pure, Except.pure] at h
      | some q =>
        rcases h2 : compilePredicate types q with g | w
        · simp only [h2, bind, Except.bind, Except.error.injEq] at h
          exact ⟨_, q, .refl, rfl, by rw [h2, h]⟩
        · simp [h2, bind, Except.bind, pure, Except.pure] at h
theorem newNodes_fault {types : FieldTypes} {f : Fault} : (ns : List (Node F)) → newNodes types ns = .error f →
    ∃ c ∈ ns, ∃ r q, Sub r c ∧ r.pred = some q ∧ compilePredicate types q = .error f
  | [], h => by simp [newNodes, pure, Except.pure] at h
  | n :: ns, h => by
    rw [newNodes] at h
    rcases h1 : newNode types n with g | v
    · simp only [h1, bind, Except.bind, Except.error.injEq] at h
      subst h
      exact ⟨n, by simp, newNode_fault n h1⟩
    · rcases h2 : newNodes types ns with g | w
      · simp only [h1, h2, bind, Except.bind, Except.error.injEq] at h
        subst h
        obtain ⟨c, hc, hr⟩ := newNodes_fault ns h2
        exact ⟨c, by simp [hc], hr⟩
      · simp [h1, h2, bind, Except.bind, pure, Except.pure] at h
end

omit [Arith F] [Lib F] [Trans F] in
theorem declaredType_none {dd : List DataField} {td : TD F} {f : String} (h : declaredType dd td f = none) :
    (∀ x ∈ dd, x.name ≠ f) ∧ ∀ x ∈ td, x.name ≠ f := by
  unfold declaredType at h
  split at h
  · simp at h
  · rename_i ht
    rw [List.getLast?_eq_none_iff, List.filter_eq_nil_iff] at ht
    rw [Option.map_eq_none_iff, List.getLast?_eq_none_iff, List.filter_eq_nil_iff] at h
    exact ⟨fun x hx => by simpa using h x hx, fun x hx => by simpa using ht x hx⟩

omit [Arith F] [Lib F] [Trans F] in
theorem declaredType_some {dd : List DataField} {td : TD F} {f : String} {dt : DataType}
    (h : declaredType dd td f = some dt) :
    (∃ x ∈ dd, x.name = f ∧ x.dataType = dt) ∨ ∃ x ∈ td, x.name = f ∧ x.dataType = dt := by
  unfold declaredType at h
  split at h
  · rename_i x hx
    have := List.mem_of_getLast? hx
    simp only [List.mem_filter, decide_eq_true_eq] at this
    simp only [Option.some.injEq] at h
    exact .inr ⟨x, this.1, this.2, h⟩
  · rw [Option.map_eq_some_iff] at h
    obtain ⟨x, hx, hd⟩ := h
    have := List.mem_of_getLast? hx
    simp only [List.mem_filter, decide_eq_true_eq] at this
    exact .inl ⟨x, this.1, this.2, hd⟩

omit [Trans F] in
theorem newTreeModel_refused {dd : List DataField} {td td' : TD F} {d : TreeDoc F} {f : Fault}
    (h : newTreeModel dd td d = (.error f, td')) : ∃ err, f = .err err ∧ Refused dd td (.tree d) err := by
  have hin : Inside [] (.tree d) (ModelElem.tree d) := .self
  unfold newTreeModel TreeModel.init TreeModel.validate at h
  by_cases hf : d.functionName ≠ .classification ∧ d.functionName ≠ .regression
  · rw [if_pos hf] at h
    simp only [Prod.mk.injEq, Except.error.injEq] at h
    exact ⟨_, h.1.symm, .function ⟨_, hin⟩ hf.1 hf.2⟩
  · simp only [hf, if_false, TreeModel.compile] at h
    rcases hn : newNode (buildTypes dd (td ++ d.localTransformations)) d.node with g | r
    · simp only [hn, Prod.mk.injEq, Except.error.injEq] at h
      obtain ⟨rfl, -⟩ := h
      obtain ⟨r, q, hr, hq, hc⟩ := newNode_fault d.node hn
      obtain ⟨p, hp, hcase⟩ := compilePredicate_fault q hc
      have ht : Tests d p := ⟨r, q, hr, hq, hp⟩
      simp only [buildTypes_getElem?] at hcase
      rcases hcase with ⟨hnone, rfl⟩ | ⟨dt, hdt, hv⟩
      · obtain ⟨h1, h2⟩ := declaredType_none hnone
        exact ⟨_, rfl, .field hin ht h1 (by simpa using h2)⟩
      · have hty : HasType dd td (.tree d) p.field dt := by
          rcases declaredType_some hdt with hx | ⟨x, hx, h1⟩
          · exact .inl hx
          · rcases List.mem_append.mp hx with hx | hx
            · exact .inr (.inl ⟨x, hx, h1⟩)
            · exact .inr (.inr ⟨x, ⟨_, ⟨_, hin⟩, hx⟩, h1⟩)
        rcases getRawValue_fault hv with ⟨s, rfl, rfl⟩ | ⟨h1, h2, rfl⟩
        · exact ⟨_, rfl, .type ⟨_, hin⟩ ht hty⟩
        · exact ⟨_, rfl, .constant ⟨_, hin⟩ ht hty h1 h2⟩
    · simp [hn] at h

omit [Arith F] [Trans F] in
theorem refused_segment {dd : List DataField} {td td1 : TD F} {h : MiningHead F} {segs : List (SegDoc F)}
    {id : String} {ps : List (Pred F)} {e : ModelElem F} (hm : SegDoc.mk id ps [e] ∈ segs)
    (h1 : ∀ x ∈ td ++ h.localTransformations, x ∈ td1)
    (h2 : ∀ x ∈ td1, x ∈ td ∨ Derives (.mining h segs) x) {err : Err} (hr : Refused dd td1 e err) :
    Refused dd td (.mining h segs) err := by
  have hin : IsIn e (.mining h segs) := ⟨_, .segment hm .self⟩
  have hty : ∀ {f dt}, HasType dd td1 e f dt → HasType dd td (.mining h segs) f dt := by
    rintro f dt (hx | ⟨x, hx, hd⟩ | ⟨x, hx, hd⟩)
    · exact .inl hx
    · rcases h2 x hx with hx | hx
      · exact .inr (.inl ⟨x, hx, hd⟩)
      · exact .inr (.inr ⟨x, hx, hd⟩)
    · exact .inr (.inr ⟨x, derives_within hin hx, hd⟩)
  cases hr with
  | kind a => exact .kind (within_trans hin a)
  | function a b c => exact .function (within_trans hin a) b c
  | field a b c d =>
    refine .field (.segment hm a) b c (fun x hx => d x ?_)
    simp only [List.mem_append] at hx ⊢ h1
    rcases hx with hx | (hx | hx) | hx
    · exact .inl (h1 x (.inl hx))
    · exact .inl (h1 x (.inr hx))
    · exact .inr (.inl hx)
    · exact .inr (.inr hx)
  | constant a b c d f => exact .constant (within_trans hin a) b (hty c) d f
  | type a b c => exact .type (within_trans hin a) b (hty c)
  | method a b => exact .method (within_trans hin a) b
  | output a b c d => exact .output (within_trans hin a) b c d
  | group a b c => exact .group (within_trans hin a) b c

omit [Arith F] [Lib F] [Trans F] in
theorem mining_refused {dd : List DataField} {h : MiningHead F} {segs : List (SegDoc F)} {td : TD F} [Lib F] {f : Fault}
    {s : MiningState F} (hv : (MiningState.init dd h segs).validate = (.error f, s)) :
    ∃ err, f = .err err ∧ Refused dd td (.mining h segs) err := by
  have hin : IsIn (.mining h segs) (ModelElem.mining h segs) := ⟨[], .self⟩
  unfold MiningState.validate MiningState.init at hv
  dsimp only at hv
  generalize hg : (if h.method = .empty then MultipleModelMethod.sum else h.method) = M at hv
  by_cases hm : M = .average ∨ M = .modelChain ∨ M = .sum ∨ M = .selectFirst
  · rw [if_pos hm] at hv
    split at hv
    · simp at hv
    · rename_i ho
      simp only [fail, Prod.mk.injEq, Except.error.injEq] at hv
      refine ⟨_, hv.1.symm, ?_⟩
      simp only [List.all_eq_true, decide_eq_true_eq, not_forall] at ho
      obtain ⟨o, hmem, hne⟩ := ho
      rw [not_or] at hne
      exact .output hin hmem hne.1 hne.2
  · rw [if_neg hm] at hv
    simp only [fail, Prod.mk.injEq, Except.error.injEq] at hv
    refine ⟨_, hv.1.symm, .method hin ?_⟩
    intro hmem
    simp only [List.mem_cons, List.not_mem_nil, or_false] at hmem
    apply hm
    rw [← hg]
    rcases hmem with h' | h' | h' | h' | h' <;> simp [h']

/-- What a successful construction leaves in the dictionary. -/
def TdGrows (td td' : TD F) (D : DerivedField F → Prop) : Prop :=
  (∀ x ∈ td, x ∈ td') ∧ ∀ x ∈ td', x ∈ td ∨ D x

omit [Trans F] in
mutual
theorem newModel_refused {dd : List DataField} : (e : ModelElem F) → {td td' : TD F} →
    (∀ f, newModel dd e td = (.error f, td') → ∃ err, f = .err err ∧ Refused dd td e err) ∧
    (∀ m, newModel dd e td = (.ok m, td') → TdGrows td td' (Derives e))
  | .tree d, td, td' => by
    rw [newModel]
    rcases hn : newTreeModel dd td d with ⟨g | t, td1⟩
    · refine ⟨fun f h => ?_, fun m h => by simp at h⟩
      simp only [Prod.mk.injEq, Except.error.injEq] at h
      obtain ⟨rfl, rfl⟩ := h
      exact newTreeModel_refused hn
    · refine ⟨fun f h => by simp at h, fun m h => ?_⟩
      simp only [Prod.mk.injEq] at h
      obtain ⟨-, rfl⟩ := h
      rw [(newTreeModel_ok hn).2.1]
      refine ⟨fun x hx => by simp [hx], fun x hx => ?_⟩
      rcases List.mem_append.mp hx with hx | hx
      · exact .inl hx
      · exact .inr ⟨_, ⟨[], .self⟩, hx⟩
  | .regression d, td, td' => by
    rw [newModel]
    refine ⟨fun f h => by simp at h, fun m h => ?_⟩
    simp only [Prod.mk.injEq] at h
    obtain ⟨-, rfl⟩ := h
    exact ⟨fun x hx => hx, fun x hx => .inl hx⟩
  | .mining h segs, td, td' => by
    have hin : IsIn (.mining h segs) (ModelElem.mining h segs) := ⟨[], .self⟩
    rw [newModel]
    rcases hv : (MiningState.init dd h segs).validate with ⟨g | ⟨⟨⟩⟩, s⟩
    · refine ⟨fun f hf => ?_, fun m hm => by simp at hm⟩
      simp only [Prod.mk.injEq, Except.error.injEq] at hf
      obtain ⟨rfl, -⟩ := hf
      exact mining_refused hv
    · have hlt : s.head.localTransformations = h.localTransformations := by
        rcases mining_validate (MiningState.init dd h segs) with ⟨-, -, hv'⟩ | ⟨-, e, s', hv'⟩
        · rw [hv] at hv'
          simp only [Prod.mk.injEq, true_and] at hv'
          rw [hv']
          rfl
        · rw [hv] at hv'; simp at hv'
      simp only [hlt]
      obtain ⟨h1, h2⟩ := compileSegments_refused (dd := dd) (td0 := td) (h := h) segs segs (fun x hx => hx)
        (td := td ++ h.localTransformations) (fun x hx => hx) (fun x hx => by
          rcases List.mem_append.mp hx with hx | hx
          · exact .inl hx
          · exact .inr ⟨_, hin, hx⟩)
      rcases hc : compileSegments dd segs (td ++ h.localTransformations) with ⟨g | ⟨⟨⟩⟩, ms, td2⟩
      · refine ⟨fun f hf => ?_, fun m hm => by simp at hm⟩
        simp only [Prod.mk.injEq, Except.error.injEq] at hf
        obtain ⟨rfl, -⟩ := hf
        exact h1 g (by rw [hc])
      · refine ⟨fun f hf => by simp at hf, fun m hm => ?_⟩
        simp only [Prod.mk.injEq] at hm
        obtain ⟨-, rfl⟩ := hm
        rw [hc] at h2
        obtain ⟨h3, h4⟩ := h2 rfl
        exact ⟨fun x hx => h3 x (by simp [hx]), h4⟩
  | .other k, td, td' => by
    rw [newModel]
    refine ⟨fun f h => ?_, fun m h => by simp at h⟩
    simp only [fail, Prod.mk.injEq, Except.error.injEq] at h
    exact ⟨_, h.1.symm, .kind ⟨[], .self⟩⟩
theorem compileSegments_refused {dd : List DataField} {td0 : TD F} {h : MiningHead F} (all : List (SegDoc F)) :
    (segs : List (SegDoc F)) → (∀ s ∈ segs, s ∈ all) → {td : TD F} →
    (∀ x ∈ td0 ++ h.localTransformations, x ∈ td) → (∀ x ∈ td, x ∈ td0 ∨ Derives (.mining h all) x) →
    (∀ f, (compileSegments dd segs td).1 = .error f → ∃ err, f = .err err ∧ Refused dd td0 (.mining h all) err) ∧
    ((compileSegments dd segs td).1 = .ok () →
      (∀ x ∈ td0 ++ h.localTransformations, x ∈ (compileSegments dd segs td).2.2) ∧
      ∀ x ∈ (compileSegments dd segs td).2.2, x ∈ td0 ∨ Derives (.mining h all) x)
  | [], _, td, h1, h2 => by
    rw [compileSegments]
    exact ⟨fun f hf => by simp at hf, fun _ => ⟨h1, h2⟩⟩
  | .mk id ps [] :: segs, hs, td, h1, h2 => by
    rw [compileSegments]
    · refine ⟨fun f hf => ?_, fun hf => by simp at hf⟩
      simp only [fail, Except.error.injEq] at hf
      exact ⟨_, hf.symm, .group ⟨[], .self⟩ (hs _ (List.mem_cons_self ..)) (by simp)⟩
    · simp
  | .mk id ps (e :: e' :: es) :: segs, hs, td, h1, h2 => by
    rw [compileSegments]
    · refine ⟨fun f hf => ?_, fun hf => by simp at hf⟩
      simp only [fail, Except.error.injEq] at hf
      exact ⟨_, hf.symm, .group ⟨[], .self⟩ (hs _ (List.mem_cons_self ..)) (by simp)⟩
    · simp
  | .mk id ps [e] :: segs, hs, td, h1, h2 => by
    have hm := hs _ (List.mem_cons_self ..)
    have hin : IsIn e (.mining h all) := ⟨_, .segment hm .self⟩
    obtain ⟨g1, g2⟩ := newModel_refused (dd := dd) e (td := td) (td' := (newModel dd e td).2)
    rw [compileSegments]
    rcases hn : newModel dd e td with ⟨g | m, td1⟩
    · refine ⟨fun f hf => ?_, fun hf => by simp at hf⟩
      simp only [Except.error.injEq] at hf
      subst hf
      obtain ⟨err, he, hr⟩ := g1 g (by rw [hn])
      exact ⟨err, he, refused_segment hm h1 h2 hr⟩
    · rw [hn] at g2
      obtain ⟨k1, k2⟩ := g2 m rfl
      simp only at k1 k2 ⊢
      refine compileSegments_refused all segs (fun s hs' => hs s (by simp [hs'])) (fun x hx => k1 x (h1 x hx)) ?_
      intro x hx
      rcases k2 x hx with hx | hx
      · exact h2 x hx
      · exact .inr (derives_within hin hx)
end

end

end Gopmml
