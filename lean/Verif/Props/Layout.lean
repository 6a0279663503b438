import Verif.Proofs.Layout
import Verif.Props.XmlDocument

/-!
# C62: the layout of a document does not matter
-/

namespace Gopmml.Props

open Gopmml Spec

/-- Success is kept. -/
def Stays {α : Type} (r r' : Dec α) : Prop := ∀ x, r = .ok x → r' = .ok x

/-- Success is kept, and an unknown name stays unknown. -/
def StaysOpt {α : Type} (o o' : Option (Dec α)) : Prop :=
  (∀ x, o = some (.ok x) → o' = some (.ok x)) ∧ (o = none → o' = none)

section General
variable {α β σ : Type}

theorem Stays.refl (r : Dec α) : Stays r r := fun _ h => h

theorem Stays.map {r r' : Dec α} (h : Stays r r') (f : α → β) : Stays (r.map f) (r'.map f) := by
  intro x hx
  obtain ⟨a, ha, rfl⟩ := map_eq_ok.1 hx
  rw [h a ha]
  rfl

theorem Stays.consumed {r r' : Dec (σ × Bool)} (h : Stays r r') (n : String) :
    Stays (consumed n r) (consumed n r') := by
  intro x hx
  cases r with
  | error e => cases hx
  | ok p =>
    rw [h p rfl]
    exact hx

theorem StaysOpt.refl (o : Option (Dec α)) : StaysOpt o o := ⟨fun _ h => h, fun h => h⟩

theorem Stays.some {r r' : Dec α} (h : Stays r r') : StaysOpt (some r) (some r') :=
  ⟨fun x hx => by rw [h x (Option.some.inj hx)], fun h => by cases h⟩

theorem StaysOpt.map {o o' : Option (Dec α)} (h : StaysOpt o o') (f : α → β) :
    StaysOpt (o.map fun r => r.map f) (o'.map fun r => r.map f) := by
  constructor
  · intro x hx
    cases o with
    | none => cases hx
    | some r =>
      obtain ⟨a, ha, rfl⟩ := map_eq_ok.1 (Option.some.inj hx)
      rw [h.1 a (by rw [ha])]
      rfl
  · intro hx
    cases o with
    | none => rw [h.2 rfl]; rfl
    | some r => cases hx

theorem attrs_stay {f : String → String → σ → Dec σ} (hf : Settled f) {as as' : Attrs}
    (ha : SameAttrs as as') (s : σ) : Stays (attrLoop f as s) (attrLoop f as' s) :=
  fun _ h => hf.same ha h

/-- Attributes followed by something that depends on them. -/
theorem Stays.bind {r r' : Dec α} (h : Stays r r') {f f' : α → Dec β}
    (hf : ∀ a, Stays (f a) (f' a)) :
    Stays (match (generalizing := false) r with | .error e => .error e | .ok a => f a)
      (match (generalizing := false) r' with | .error e => .error e | .ok a => f' a) := by
  intro x hx
  cases r with
  | error e => cases hx
  | ok a =>
    rw [h a rfl]
    exact hf a x hx

theorem Stays.error (e : DecErr) (r : Dec α) : Stays (.error e) r := fun _ h => by cases h

theorem Stays.elim {r r' : Dec α} (h : Stays r r') :
    (∃ e, r = .error e) ∨ ∃ a, r = .ok a ∧ r' = .ok a := by
  cases r with
  | error e => exact .inl ⟨e, rfl⟩
  | ok a => exact .inr ⟨a, rfl, h a rfl⟩

/-- `stay h a`: both sides go on with the result `a`. -/
macro "stay" h:term:max a:ident : tactic => `(tactic|
  (rcases Stays.elim $h with ⟨e, he⟩ | ⟨$a:ident, h1, h2⟩
   · rw [he]
     exact Stays.error e _
   rw [h1, h2]))

/-- What has to be known about the handler of a child element. -/
def Steady (h : String → Attrs → List Xml → σ → Dec σ) : Prop :=
  ∀ n as as' ch ch' s, Free n ch ch' → SameAttrs as as' → Relay (n == "row") ch ch' →
    Stays (h n as ch s) (h n as' ch' s)

def SteadyOpt (h : String → Attrs → List Xml → σ → Option (Dec σ)) : Prop :=
  ∀ n as as' ch ch' s, Free n ch ch' → SameAttrs as as' → Relay (n == "row") ch ch' →
    StaysOpt (h n as ch s) (h n as' ch' s)

theorem reflectLoop_relay {h : String → Attrs → List Xml → σ → Dec σ} (hh : Steady h) {b : Bool}
    {xs ys : List Xml} (r : Relay b xs ys) : ∀ s, Stays (reflectLoop h xs s) (reflectLoop h ys s) := by
  induction r with
  | nil => exact fun s => Stays.refl _
  | left _ ih => exact ih
  | right _ ih => exact ih
  | same _ ih => exact fun s => Stays.bind (Stays.refl _) ih
  | inside hv ha hr _ _ _ ih => exact fun s => Stays.bind (hh _ _ _ _ _ s hv ha hr) ih

theorem bodyLoop_relay {h : String → Attrs → List Xml → σ → Option (Dec σ)} (hh : SteadyOpt h)
    {b : Bool} {xs ys : List Xml} (r : Relay b xs ys) :
    ∀ s, Stays (bodyLoop h xs s) (bodyLoop h ys s) := by
  induction r with
  | nil => exact fun s => Stays.refl _
  | left _ ih => intro s; rw [bodyLoop_text]; exact ih s
  | right _ ih => intro s; rw [bodyLoop_text]; exact ih s
  | same _ ih =>
    intro s x hx
    rw [bodyLoop_elem] at hx ⊢
    revert hx
    split
    · exact fun h => h
    · exact ih _ x
    · exact fun h => h
  | @inside b n as as' ch ch' xs ys hv ha hr _ _ ihc ih =>
    intro s x hx
    rw [bodyLoop_elem] at hx ⊢
    have hk := hh n as as' ch ch' s hv ha hr
    cases ho : h n as ch s with
    | none =>
      rw [ho] at hx
      rw [hk.2 ho]
      revert x
      change Stays _ _
      simp only
      stay (ihc s) a
      exact Stays.refl _
    | some r =>
      rw [ho] at hx
      cases r with
      | error e => cases hx
      | ok s' =>
        rw [hk.1 s' ho]
        exact ih s' x hx

/-- An element that is taken over word by word and is not a `Constant`. -/
theorem Free.not {n : String} {ch ch' : List Xml} (h : Free n ch ch') (hn : n ≠ "Constant") :
    verbatim n = false := by
  rcases h with h | h
  · exact h
  · exact absurd h.1 hn

/-- Inside a `row` only the text between the cells and the spelling of the cells may differ. -/
theorem bodyLoop_cells {F : Type} {b : Bool} {xs ys : List Xml} (r : Relay b xs ys) (hb : b = true) :
    ∀ s, bodyLoop (rowHandle (F := F)) xs s = bodyLoop rowHandle ys s := by
  induction r with
  | nil => exact fun s => rfl
  | left _ ih => intro s; rw [bodyLoop_text]; exact ih hb s
  | right _ ih => intro s; rw [bodyLoop_text]; exact ih hb s
  | same _ ih =>
    intro s
    rw [bodyLoop_elem, bodyLoop_elem]
    split
    · rfl
    · exact ih hb _
    · rfl
  | inside _ _ _ hc _ _ ih =>
    intro s
    rw [bodyLoop_elem, bodyLoop_elem]
    simp only [rowHandle, hc hb]
    exact ih hb _

end General

section Decoders
variable {F : Type} [Arith F] [Lib F]

theorem setChild_steady : Steady setChild := by
  intro n as as' ch ch' s hv ha hr
  unfold setChild
  split
  · exact attrs_stay settled_array ha s
  · exact Stays.refl _

omit [Arith F] [Lib F] in
theorem leafPred_relay {n : String} {as as' : Attrs} {b : Bool} {ch ch' : List Xml}
    (ha : SameAttrs as as') (hr : Relay b ch ch') :
    StaysOpt (leafPred (F := F) n as ch) (leafPred n as' ch') := by
  unfold leafPred
  split
  · exact StaysOpt.refl _
  split
  · exact ((attrs_stay settled_simple ha _).map _).some
  split
  · apply Stays.some
    have h := attrs_stay (settled_pure "field" id (by decide)) ha ""
    simp only [id] at h
    stay h f
    exact (reflectLoop_relay setChild_steady hr ()).map _
  split
  · exact StaysOpt.refl _
  · exact StaysOpt.refl _

omit [Arith F] [Lib F] in
theorem boolOp_same {as as' : Attrs} (ha : SameAttrs as as') : boolOpAttr as = boolOpAttr as' :=
  fold_same "booleanOperator" BoolOp.ofString (by decide) ha _

omit [Arith F] [Lib F] in
theorem compoundBody_relay {b : Bool} {xs ys : List Xml} (r : Relay b xs ys) :
    ∀ ps : List (Pred F), Stays (compoundBody xs ps) (compoundBody ys ps) := by
  induction r with
  | nil => exact fun s => Stays.refl _
  | left _ ih => intro s; simp only [compoundBody, compoundItem]; exact ih s
  | right _ ih => intro s; simp only [compoundBody, compoundItem]; exact ih s
  | same _ ih =>
    intro ps x hx
    simp only [compoundBody] at hx ⊢
    revert hx
    split
    · exact fun h => h
    · exact ih _ x
    · exact fun h => h
  | @inside b n as as' ch ch' xs ys hv ha hr _ _ ihc ih =>
    intro ps x hx
    have key : Stays (compoundItem (.elem n as ch) ps) (compoundItem (.elem n as' ch') ps) := by
      simp only [compoundItem]
      split
      · exact Stays.refl _
      split
      · rw [boolOp_same ha]
        stay ((ihc []).consumed n) q
        exact Stays.refl _
      · have hk := leafPred_relay (F := F) (n := n) ha hr
        intro y hy
        cases ho : leafPred (F := F) n as ch with
        | none =>
          rw [ho] at hy
          rw [hk.2 ho]
          revert y
          change Stays _ _
          simp only
          stay (ihc ps) a
          exact Stays.refl _
        | some r =>
          rw [ho] at hy
          cases r with
          | error e => cases hy
          | ok s' =>
            rw [hk.1 s' ho]
            exact hy
    simp only [compoundBody] at hx ⊢
    cases hi : compoundItem (.elem n as ch) ps with
    | error e => rw [hi] at hx; cases hx
    | ok p =>
      rw [key p hi]
      rw [hi] at hx
      obtain ⟨ps', _ | _⟩ := p
      · exact hx
      · exact ih ps' x hx

omit [Arith F] [Lib F] in
theorem decodePred_relay {n : String} {as as' : Attrs} {b : Bool} {ch ch' : List Xml}
    (ha : SameAttrs as as') (hr : Relay b ch ch') :
    StaysOpt (decodePred (F := F) n as ch) (decodePred n as' ch') := by
  unfold decodePred
  split
  · rw [boolOp_same ha]
    exact (((compoundBody_relay hr []).consumed n).map _).some
  · exact leafPred_relay ha hr

theorem nodeBody_relay {b : Bool} {xs ys : List Xml} (r : Relay b xs ys) :
    ∀ x : Node F, Stays (nodeBody xs x) (nodeBody ys x) := by
  induction r with
  | nil => exact fun s => Stays.refl _
  | left _ ih => intro s; simp only [nodeBody, nodeItem]; exact ih s
  | right _ ih => intro s; simp only [nodeBody, nodeItem]; exact ih s
  | same _ ih =>
    intro ps x hx
    simp only [nodeBody] at hx ⊢
    revert hx
    split
    · exact fun h => h
    · exact ih _ x
    · exact fun h => h
  | @inside b n as as' ch ch' xs ys hv ha hr _ _ ihc ih =>
    intro ps x hx
    have key : Stays (nodeItem (.elem n as ch) ps) (nodeItem (.elem n as' ch') ps) := by
      simp only [nodeItem]
      split
      · exact Stays.refl _
      split
      · stay (attrs_stay settled_node ha (Node.zero (F := F))) y
        simp only
        stay ((ihc y).consumed n) q
        exact Stays.refl _
      split
      · unfold decodeDist
        stay (attrs_stay settled_dist ha (⟨"", Arith.zero, none, none⟩ : ScoreDistribution F)) y
        exact Stays.refl _
      split
      · exact Stays.refl _
      · have hk := decodePred_relay (F := F) (n := n) ha hr
        intro y hy
        cases ho : decodePred (F := F) n as ch with
        | none =>
          rw [ho] at hy
          rw [hk.2 ho]
          simp only at hy ⊢
          split at hy
          · rw [if_pos ‹_›]
            exact hy
          · rw [if_neg ‹_›]
            revert y
            change Stays _ _
            stay (ihc ps) a
            exact Stays.refl _
        | some r =>
          rw [ho] at hy
          cases r with
          | error e => cases hy
          | ok s' =>
            rw [hk.1 s' ho]
            exact hy
    simp only [nodeBody] at hx ⊢
    cases hi : nodeItem (.elem n as ch) ps with
    | error e => rw [hi] at hx; cases hx
    | ok p =>
      rw [key p hi]
      rw [hi] at hx
      obtain ⟨ps', _ | _⟩ := p
      · exact hx
      · exact ih ps' x hx

theorem decodeNode_relay {as as' : Attrs} {b : Bool} {ch ch' : List Xml}
    (ha : SameAttrs as as') (hr : Relay b ch ch') (x : Node F) :
    Stays (decodeNode as ch x) (decodeNode as' ch' x) := by
  unfold decodeNode
  stay (attrs_stay settled_node ha x) y
  exact (nodeBody_relay hr y).consumed "Node"

/-! ## Tables and expressions -/

omit [Arith F] [Lib F] in
theorem tableHandle_steady : SteadyOpt (tableHandle (F := F)) := by
  intro n as as' ch ch' s hv ha hr
  unfold tableHandle
  split
  · rename_i hn
    rw [bodyLoop_cells hr (by simp [hn])]
    exact StaysOpt.refl _
  · exact StaysOpt.refl _

omit [Arith F] [Lib F] in
theorem decodeTable_relay {b : Bool} {ch ch' : List Xml} (hr : Relay b ch ch')
    (rows : List (GoMap (GoVal F))) : Stays (decodeTable ch rows) (decodeTable ch' rows) :=
  (bodyLoop_relay tableHandle_steady hr rows).consumed _

omit [Arith F] [Lib F] in
theorem mapChild_steady : Steady (mapChild (F := F)) := by
  intro n as as' ch ch' s hv ha hr
  unfold mapChild
  split
  · exact (attrs_stay settled_pair ha _).map _
  split
  · exact (decodeTable_relay hr []).map _
  · exact Stays.refl _

omit [Arith F] [Lib F] in
theorem leafExpr_relay {n : String} {as as' : Attrs} {b : Bool}
    {ch ch' : List Xml} (hv : Free n ch ch') (ha : SameAttrs as as') (hr : Relay b ch ch') :
    StaysOpt (leafExpr (F := F) n as ch) (leafExpr n as' ch') := by
  unfold leafExpr
  split
  · rename_i h
    subst h
    rcases hv with hv | hv
    · exact absurd hv (by decide)
    · rw [hv.2]
      exact ((attrs_stay (settled_pure "dataType" DataType.ofString (by decide)) ha _).map _).some
  split
  · exact ((attrs_stay (settled_pure "field" id (by decide)) ha "").map _).some
  split
  · apply Stays.some
    apply Stays.map
    unfold decodeMap
    stay (attrs_stay settled_map ha (⟨none, .other "", [], []⟩ : MapValues F)) m
    exact reflectLoop_relay mapChild_steady hr m
  split
  · exact StaysOpt.refl _
  · exact StaysOpt.refl _

omit [Arith F] [Lib F] in
theorem function_same {as as' : Attrs} (ha : SameAttrs as as') :
    functionAttr as = functionAttr as' :=
  fold_same "function" id (by decide) ha _

omit [Arith F] [Lib F] in
theorem applyBody_relay {b : Bool} {xs ys : List Xml} (r : Relay b xs ys) :
    ∀ ps : List (Expr F), Stays (applyBody xs ps) (applyBody ys ps) := by
  induction r with
  | nil => exact fun s => Stays.refl _
  | left _ ih => intro s; simp only [applyBody, applyItem]; exact ih s
  | right _ ih => intro s; simp only [applyBody, applyItem]; exact ih s
  | same _ ih =>
    intro ps x hx
    simp only [applyBody] at hx ⊢
    revert hx
    split
    · exact fun h => h
    · exact ih _ x
    · exact fun h => h
  | @inside b n as as' ch ch' xs ys hv ha hr _ _ ihc ih =>
    intro ps x hx
    have key : Stays (applyItem (.elem n as ch) ps) (applyItem (.elem n as' ch') ps) := by
      simp only [applyItem]
      split
      · exact Stays.refl _
      split
      · rw [function_same ha]
        stay ((ihc []).consumed n) q
        exact Stays.refl _
      · have hk := leafExpr_relay (F := F) hv ha hr
        intro y hy
        cases ho : leafExpr (F := F) n as ch with
        | none =>
          rw [ho] at hy
          rw [hk.2 ho]
          revert y
          change Stays _ _
          simp only
          stay (ihc ps) a
          exact Stays.refl _
        | some r =>
          rw [ho] at hy
          cases r with
          | error e => cases hy
          | ok s' =>
            rw [hk.1 s' ho]
            exact hy
    simp only [applyBody] at hx ⊢
    cases hi : applyItem (.elem n as ch) ps with
    | error e => rw [hi] at hx; cases hx
    | ok p =>
      rw [key p hi]
      rw [hi] at hx
      obtain ⟨ps', _ | _⟩ := p
      · exact hx
      · exact ih ps' x hx

omit [Arith F] [Lib F] in
theorem decodeExpr_relay {n : String} {as as' : Attrs} {b : Bool}
    {ch ch' : List Xml} (hv : Free n ch ch') (ha : SameAttrs as as') (hr : Relay b ch ch') :
    StaysOpt (decodeExpr (F := F) n as ch) (decodeExpr n as' ch') := by
  unfold decodeExpr
  split
  · rw [function_same ha]
    exact (((applyBody_relay hr []).consumed n).map _).some
  · exact leafExpr_relay hv ha hr

omit [Arith F] [Lib F] in
theorem derivedHandle_steady : SteadyOpt (derivedHandle (F := F)) := by
  intro n as as' ch ch' s hv ha hr
  unfold derivedHandle
  split
  · exact StaysOpt.refl _
  · exact (decodeExpr_relay hv ha hr).map _

omit [Arith F] [Lib F] in
theorem decodeDerived_relay {as as' : Attrs} {b : Bool} {ch ch' : List Xml}
    (ha : SameAttrs as as') (hr : Relay b ch ch') :
    Stays (decodeDerived (F := F) as ch) (decodeDerived as' ch') := by
  unfold decodeDerived
  stay (attrs_stay settled_derived ha (⟨"", .other "", .other "", .other ""⟩ : DerivedField F)) d
  exact (bodyLoop_relay derivedHandle_steady hr d).consumed _

omit [Arith F] [Lib F] in
theorem localChild_steady : Steady (localChild (F := F)) := by
  intro n as as' ch ch' s hv ha hr
  unfold localChild
  split
  · exact (decodeDerived_relay ha hr).map _
  · exact Stays.refl _

omit [Arith F] [Lib F] in
theorem functionHandle_steady : SteadyOpt (functionHandle (F := F)) := by
  intro n as as' ch ch' s hv ha hr
  unfold functionHandle
  split
  · exact StaysOpt.refl _
  · exact (decodeExpr_relay hv ha hr).map _

/-! ## Schema, outputs, targets, verification -/

theorem schemaChild_steady : Steady (schemaChild F) := by
  intro n as as' ch ch' s hv ha hr
  unfold schemaChild
  split
  · exact (attrs_stay settled_miningField ha _).map _
  · exact Stays.refl _

theorem outputChild_steady : Steady outputChild := by
  intro n as as' ch ch' s hv ha hr
  unfold outputChild
  split
  · exact (attrs_stay settled_output ha _).map _
  · exact Stays.refl _

theorem targetsChild_steady : Steady (targetsChild (F := F)) := by
  intro n as as' ch ch' s hv ha hr
  unfold targetsChild
  split
  · exact (attrs_stay settled_target ha _).map _
  · exact Stays.refl _

theorem verificationFieldsChild_steady : Steady (verificationFieldsChild (F := F)) := by
  intro n as as' ch ch' s hv ha hr
  unfold verificationFieldsChild
  split
  · exact (attrs_stay settled_verification ha _).map _
  · exact Stays.refl _

theorem verificationChild_steady : Steady (verificationChild (F := F)) := by
  intro n as as' ch ch' s hv ha hr
  unfold verificationChild
  split
  · exact (decodeTable_relay hr _).map _
  split
  · exact (reflectLoop_relay verificationFieldsChild_steady hr _).map _
  · exact Stays.refl _

theorem decodeVerification_relay {as as' : Attrs} {b : Bool} {ch ch' : List Xml}
    (ha : SameAttrs as as') (hr : Relay b ch ch') (m : Option (ModelVerification F)) :
    Stays (decodeVerification as ch m) (decodeVerification as' ch' m) := by
  unfold decodeVerification
  stay (attrs_stay settled_count ha ()) u
  exact (reflectLoop_relay verificationChild_steady hr _).map _

/-! ## Models -/

variable [Reflect]

theorem treeChild_steady : Steady (treeChild (F := F)) := by
  intro n as as' ch ch' s hv ha hr
  unfold treeChild
  split
  · exact (reflectLoop_relay localChild_steady hr _).map _
  split
  · exact (reflectLoop_relay schemaChild_steady hr _).map _
  split
  · rename_i h
    rcases h with h | h <;> (subst h; exact absurd (Free.not hv (by decide)) (by decide))
  split
  · exact (decodeVerification_relay ha hr _).map _
  split
  · exact (decodeNode_relay ha hr _).map _
  split
  · exact (reflectLoop_relay outputChild_steady hr _).map _
  split
  · exact (reflectLoop_relay targetsChild_steady hr _).map _
  · exact Stays.refl _

theorem decodeTree_relay {as as' : Attrs} {b : Bool} {ch ch' : List Xml}
    (ha : SameAttrs as as') (hr : Relay b ch ch') :
    Stays (decodeTree (F := F) as ch) (decodeTree as' ch') := by
  unfold decodeTree
  stay (attrs_stay settled_tree ha (TreeDoc.zero (F := F))) d
  exact reflectLoop_relay treeChild_steady hr d

omit [Reflect] in
theorem regTableChild_steady : Steady (regTableChild (F := F)) := by
  intro n as as' ch ch' s hv ha hr
  unfold regTableChild
  split
  · exact (attrs_stay settled_predictor ha _).map _
  · exact Stays.refl _

omit [Reflect] in
theorem decodeRegTable_relay {as as' : Attrs} {b : Bool} {ch ch' : List Xml}
    (ha : SameAttrs as as') (hr : Relay b ch ch') :
    Stays (decodeRegTable (F := F) as ch) (decodeRegTable as' ch') := by
  unfold decodeRegTable
  stay (attrs_stay settled_regTable ha (⟨Arith.zero, "", []⟩ : RegressionTable F)) d
  exact reflectLoop_relay regTableChild_steady hr d

theorem regressionChild_steady : Steady (regressionChild (F := F)) := by
  intro n as as' ch ch' s hv ha hr
  unfold regressionChild
  split
  · exact (reflectLoop_relay localChild_steady hr _).map _
  split
  · exact (reflectLoop_relay schemaChild_steady hr _).map _
  split
  · exact (decodeRegTable_relay ha hr).map _
  split
  · rename_i h
    rcases h with h | h <;> (subst h; exact absurd (Free.not hv (by decide)) (by decide))
  split
  · exact (decodeVerification_relay ha hr _).map _
  split
  · exact (reflectLoop_relay outputChild_steady hr _).map _
  split
  · exact (reflectLoop_relay targetsChild_steady hr _).map _
  · exact Stays.refl _

theorem decodeRegression_relay {as as' : Attrs} {b : Bool} {ch ch' : List Xml}
    (ha : SameAttrs as as') (hr : Relay b ch ch') :
    Stays (decodeRegression (F := F) as ch) (decodeRegression as' ch') := by
  unfold decodeRegression
  stay (attrs_stay settled_regression ha (⟨.other "", .empty, [], [], none⟩ : RegressionDoc F)) d
  exact reflectLoop_relay regressionChild_steady hr d

omit [Arith F] [Lib F] [Reflect] in
theorem other_verbatim {n : String} (h : n ∈ otherModels) : verbatim n = true := by
  have : ∀ m ∈ otherModels, verbatim m = true := by decide
  exact this n h

theorem leafModel_relay {n : String} {as as' : Attrs} {b : Bool}
    {ch ch' : List Xml} (hv : Free n ch ch') (ha : SameAttrs as as') (hr : Relay b ch ch') :
    StaysOpt (leafModel (F := F) n as ch) (leafModel n as' ch') := by
  unfold leafModel
  split
  · exact ((decodeTree_relay ha hr).map _).some
  split
  · exact ((decodeRegression_relay ha hr).map _).some
  split
  · rename_i h
    have hn : n ≠ "Constant" := by
      rintro rfl
      exact absurd h (by decide)
    have := other_verbatim h
    rw [Free.not hv hn] at this
    cases this
  · exact StaysOpt.refl _

omit [Reflect] in
theorem miningChild_steady : Steady (miningChild (F := F)) := by
  intro n as as' ch ch' s hv ha hr
  unfold miningChild
  split
  · exact (decodeVerification_relay ha hr _).map _
  split
  · exact (reflectLoop_relay schemaChild_steady hr _).map _
  split
  · exact (reflectLoop_relay localChild_steady hr _).map _
  split
  · exact (reflectLoop_relay outputChild_steady hr _).map _
  split
  · exact (reflectLoop_relay targetsChild_steady hr _).map _
  · exact Stays.refl _

omit [Arith F] [Lib F] [Reflect] in
theorem method_same {as as' : Attrs} (ha : SameAttrs as as') (m : MultipleModelMethod) :
    methodAttr as m = methodAttr as' m :=
  fold_same "multipleModelMethod" MultipleModelMethod.ofString (by decide) ha _

omit [Arith F] [Lib F] [Reflect] in
theorem segmentId_same {as as' : Attrs} (ha : SameAttrs as as') : segmentId as = segmentId as' :=
  fold_same "id" id (by decide) ha _

theorem mining_relay {b : Bool} {xs ys : List Xml} (r : Relay b xs ys) :
    (∀ x : MiningHead F × List (SegDoc F), Stays (miningBody xs x) (miningBody ys x)) ∧
    (∀ x : List (SegDoc F), Stays (segmentationBody xs x) (segmentationBody ys x)) ∧
    (∀ x : List (Pred F) × List (ModelElem F), Stays (segmentBody xs x) (segmentBody ys x)) := by
  induction r with
  | nil => exact ⟨fun s => Stays.refl _, fun s => Stays.refl _, fun s => Stays.refl _⟩
  | left _ ih =>
    obtain ⟨h1, h2, h3⟩ := ih
    refine ⟨fun s => ?_, fun s => ?_, fun s => ?_⟩
    · simp only [miningBody, miningItem]; exact h1 s
    · simp only [segmentationBody, segmentationItem]; exact h2 s
    · simp only [segmentBody, segmentItem]; exact h3 s
  | right _ ih =>
    obtain ⟨h1, h2, h3⟩ := ih
    refine ⟨fun s => ?_, fun s => ?_, fun s => ?_⟩
    · simp only [miningBody, miningItem]; exact h1 s
    · simp only [segmentationBody, segmentationItem]; exact h2 s
    · simp only [segmentBody, segmentItem]; exact h3 s
  | same _ ih =>
    obtain ⟨h1, h2, h3⟩ := ih
    refine ⟨fun s => ?_, fun s => ?_, fun s => ?_⟩
    · simp only [miningBody]
      split
      · exact Stays.refl _
      · exact h1 _
    · simp only [segmentationBody]
      split
      · exact Stays.refl _
      · exact h2 _
    · intro x hx
      simp only [segmentBody] at hx ⊢
      revert hx
      split
      · exact fun h => h
      · exact h3 _ x
      · exact fun h => h
  | @inside b n as as' ch ch' xs ys hv ha hr _ _ ihc ih =>
    obtain ⟨h1, h2, h3⟩ := ih
    obtain ⟨c1, c2, c3⟩ := ihc
    refine ⟨fun s => ?_, fun s => ?_, fun s => ?_⟩
    · have key : Stays (miningItem (.elem n as ch) s) (miningItem (.elem n as' ch') s) := by
        obtain ⟨h, segs⟩ := s
        simp only [miningItem]
        split
        · rw [method_same ha]
          stay (c2 segs) q
          exact Stays.refl _
        · stay (miningChild_steady (F := F) _ _ _ _ _ h hv ha hr) q
          exact Stays.refl _
      simp only [miningBody]
      stay key q
      exact h1 q
    · have key : Stays (segmentationItem (.elem n as ch) s)
          (segmentationItem (.elem n as' ch') s) := by
        simp only [segmentationItem]
        split
        · rw [segmentId_same ha]
          stay ((c3 ([], [])).consumed n) q
          exact Stays.refl _
        · exact Stays.refl _
      simp only [segmentationBody]
      stay key q
      exact h2 q
    · intro x hx
      have key : Stays (segmentItem (.elem n as ch) s) (segmentItem (.elem n as' ch') s) := by
        obtain ⟨ps, ms⟩ := s
        simp only [segmentItem]
        have hk := decodePred_relay (F := F) (n := n) ha hr
        intro y hy
        cases ho : decodePred (F := F) n as ch with
        | none =>
          rw [ho] at hy
          rw [hk.2 ho]
          simp only at hy ⊢
          split at hy
          · rw [if_pos ‹_›]
            revert y
            change Stays _ _
            stay (attrs_stay settled_mining ha (MiningHead.zero (F := F))) h
            simp only
            stay (c1 (h, [])) q
            exact Stays.refl _
          · rw [if_neg ‹_›]
            have hm := leafModel_relay (F := F) hv ha hr
            cases hl : leafModel (F := F) n as ch with
            | none =>
              rw [hl] at hy
              rw [hm.2 hl]
              revert y
              change Stays _ _
              simp only
              stay (c3 (ps, ms)) a
              exact Stays.refl _
            | some r =>
              rw [hl] at hy
              cases r with
              | error e => cases hy
              | ok m => rw [hm.1 m hl]; exact hy
        | some r =>
          rw [ho] at hy
          cases r with
          | error e => cases hy
          | ok s' =>
            rw [hk.1 s' ho]
            exact hy
      simp only [segmentBody] at hx ⊢
      cases hi : segmentItem (.elem n as ch) s with
      | error e => rw [hi] at hx; cases hx
      | ok p =>
        rw [key p hi]
        rw [hi] at hx
        obtain ⟨ps', _ | _⟩ := p
        · exact hx
        · exact h3 ps' x hx

theorem decodeModel_relay {n : String} {as as' : Attrs} {b : Bool}
    {ch ch' : List Xml} (hv : Free n ch ch') (ha : SameAttrs as as') (hr : Relay b ch ch') :
    StaysOpt (decodeModel (F := F) n as ch) (decodeModel n as' ch') := by
  unfold decodeModel
  split
  · apply Stays.some
    unfold decodeMining
    stay (attrs_stay settled_mining ha (MiningHead.zero (F := F))) h
    exact ((mining_relay hr).1 (h, [])).map _
  · exact leafModel_relay hv ha hr

/-! ## The document -/

omit [Reflect] in
theorem dataFieldChild_steady : Steady (dataFieldChild F) := by
  intro n as as' ch ch' s hv ha hr
  unfold dataFieldChild
  split
  · exact (attrs_stay settled_interval ha _).map _
  split
  · have : valueAttr as = valueAttr as' := fold_same "value" id (by decide) ha _
    rw [this]
    exact Stays.refl _
  · exact Stays.refl _

theorem dictChild_steady : Steady (dictChild F) := by
  intro n as as' ch ch' s hv ha hr
  unfold dictChild
  split
  · apply Stays.map
    unfold decodeDataField
    stay (attrs_stay settled_dataField ha ⟨"", .other "", []⟩) d
    exact reflectLoop_relay dataFieldChild_steady hr d
  split
  · rename_i h
    subst h
    exact absurd (Free.not hv (by decide)) (by decide)
  · exact Stays.refl _

omit [Arith F] [Lib F] [Reflect] in
theorem transChild_steady : Steady (transChild (F := F)) := by
  intro n as as' ch ch' s hv ha hr
  unfold transChild
  split
  · exact ((bodyLoop_relay functionHandle_steady hr ()).consumed n).map _
  · exact localChild_steady n as as' ch ch' s hv ha hr

theorem pmmlHandle_steady : SteadyOpt (pmmlHandle (F := F)) := by
  intro n as as' ch ch' s hv ha hr
  unfold pmmlHandle
  split
  · exact StaysOpt.refl _
  split
  · apply Stays.some
    apply Stays.map
    unfold decodeDict
    stay (attrs_stay settled_dict ha ()) u
    exact reflectLoop_relay dictChild_steady hr _
  split
  · exact ((reflectLoop_relay transChild_steady hr _).map _).some
  · exact (decodeModel_relay hv ha hr).map _

end Decoders

theorem Relay.symm {b : Bool} {xs ys : List Xml} (r : Relay b xs ys) : Relay b ys xs := by
  induction r with
  | nil => exact .nil
  | left _ ih => exact .right ih
  | right _ ih => exact .left ih
  | same _ ih => exact .same ih
  | inside hv ha _ hc _ ihc ih =>
    exact .inside (hv.imp_right fun h => ⟨h.1, h.2.symm⟩) (SameAttrs.symm ha) ihc (fun h => (hc h).symm) ih

section
variable {F : Type} [Arith F] [Lib F] [Reflect]

/-- C62: text between elements, the order of attributes, attributes no decoder reads and the spelling
of cells do not matter: if a document decodes, then so does any other way of writing it, to the same value. -/
theorem C62_layout {as as' : Attrs} {ch ch' : List Xml} (ha : SameAttrs as as')
    (hr : Relay false ch ch') (p : Pmml F) :
    decodePmml as ch = .ok p ↔ decodePmml as' ch' = .ok p := by
  have one : ∀ {as as' : Attrs} {ch ch' : List Xml}, SameAttrs as as' → Relay false ch ch' →
      Stays (decodePmml (F := F) as ch) (decodePmml as' ch') := by
    intro as as' ch ch' ha hr
    unfold decodePmml
    have : versionAttr as = versionAttr as' := fold_same "version" id (by decide) ha _
    rw [this]
    exact (bodyLoop_relay pmmlHandle_steady hr _).consumed _
  exact ⟨one ha hr p, one (SameAttrs.symm ha) (Relay.symm hr) p⟩

/-- C62 (nodes) -/
theorem C62_node {as as' : Attrs} {ch ch' : List Xml} (ha : SameAttrs as as')
    (hr : Relay false ch ch') (x y : Node F) :
    decodeNode as ch x = .ok y ↔ decodeNode as' ch' x = .ok y :=
  ⟨decodeNode_relay ha hr x y, decodeNode_relay (SameAttrs.symm ha) (Relay.symm hr) x y⟩

end

/-! ## Two ways of writing one tree model -/

section
open Replay

private def tight : List Xml :=
  [.elem "DataDictionary" [("numberOfFields", "1")]
    [.elem "DataField" [("name", "a"), ("dataType", "double")] []],
   .elem "TreeModel" [("functionName", "classification"), ("noTrueChildStrategy", "returnNullPrediction")]
    [.elem "LocalTransformations" []
      [.elem "DerivedField" [("name", "b"), ("dataType", "integer")]
        [.elem "Constant" [("dataType", "integer")] [.text "5" "5"]],
       .elem "DerivedField" [("name", "c"), ("dataType", "string")]
        [.elem "MapValues" [("outputColumn", "out")]
          [.elem "InlineTable" []
            [.elem "row" [] [.elem "in" [] [.text "a&b" "a&b"], .elem "out" [] [.text "1" "1"]]]]]],
     .elem "Node" [("id", "1"), ("score", "x")]
      [.elem "SimplePredicate" [("field", "a"), ("operator", "lessThan"), ("value", "3")] []]]]

private def airy : List Xml :=
  [.text "\n  " "\n  ",
   .elem "DataDictionary" [("x-generator", "me"), ("numberOfFields", "1")]
    [.elem "DataField" [("dataType", "double"), ("name", "a"), ("displayName", "A")] [], .text "\n" "\n"],
   .elem "TreeModel" [("noTrueChildStrategy", "returnNullPrediction"), ("functionName", "classification")]
    [.text "words" "words",
     .elem "LocalTransformations" []
      [.elem "DerivedField" [("dataType", "integer"), ("name", "b")]
        [.text " " " ", .elem "Constant" [("dataType", "integer"), ("parameterName", "p")] [.text "5" "5"]],
       .elem "DerivedField" [("name", "c"), ("dataType", "string")]
        [.elem "MapValues" [("outputColumn", "out")]
          [.elem "InlineTable" []
            [.elem "row" []
              [.text "\n" "\n",
               .elem "in" [] [.text "a&amp;" "a&", .text "<![CDATA[b]]>" "b"],
               .elem "out" [] [.text "1" "1"]]]]]],
     .elem "Node" [("score", "x"), ("id", "1")]
      [.text "\t" "\t",
       .elem "SimplePredicate" [("operator", "lessThan"), ("value", "3"), ("field", "a")]
        [.text " " " "]]]]

private theorem sameAttrs {as as' : Attrs} (h : decide ((as.map (·.1)).Nodup ∧ (as'.map (·.1)).Nodup ∧
    (∀ a ∈ as, a.1 ∈ readAttrs → a ∈ as') ∧ ∀ a ∈ as', a.1 ∈ readAttrs → a ∈ as) = true) :
    SameAttrs as as' := by
  obtain ⟨h1, h2, h3, h4⟩ := of_decide_eq_true h
  exact ⟨h1, h2, fun k hk v => ⟨fun h => h3 _ h hk, fun h => h4 _ h hk⟩⟩

private theorem ins {n : String} {as as' : Attrs} {ch ch' xs ys : List Xml} (hv : verbatim n = false)
    (ha : SameAttrs as as') (hr : Relay (n == "row") ch ch') (ht : Relay false xs ys) :
    Relay false (.elem n as ch :: xs) (.elem n as' ch' :: ys) :=
  .inside (.inl hv) ha hr nofun ht

private theorem tight_airy : Relay false tight airy :=
  .right (ins (by decide) (sameAttrs (by decide))
    (ins (by decide) (sameAttrs (by decide)) .nil (.right .nil))
  (ins (by decide) (sameAttrs (by decide))
    (.right (ins (by decide) (sameAttrs (by decide))
      (ins (by decide) (sameAttrs (by decide))
        (.right (.inside (.inr ⟨rfl, rfl⟩) (sameAttrs (by decide)) (.left (.right .nil)) nofun .nil))
        (ins (by decide) (sameAttrs (by decide))
          (ins (by decide) (sameAttrs (by decide))
            (ins (by decide) (sameAttrs (by decide))
              (ins (by decide) (sameAttrs (by decide))
                (.right (.inside (.inl (by decide)) (sameAttrs (by decide)) (.left (.right (.right .nil)))
                  (fun _ => by decide) (.same .nil))) .nil) .nil) .nil) .nil))
    (ins (by decide) (sameAttrs (by decide))
      (.right (ins (by decide) (sameAttrs (by decide)) (.right .nil) .nil)) .nil))) .nil))

private local instance : Reflect := ⟨fun _ _ _ => true⟩

/-- Both decode (the hypotheses and both sides of `C62_layout` are met). -/
example : ∃ p : Pmml F64, decodePmml [] tight = .ok p ∧ decodePmml [] airy = .ok p ∧
    p.models.length = 1 := by
  have h : (match decodePmml (F := F64) [] tight with
      | .ok p => decide (p.models.length = 1) | .error _ => false) = true := by decide +kernel
  cases hp : decodePmml (F := F64) [] tight with
  | error e => rw [hp] at h; cases h
  | ok p =>
    rw [hp] at h
    exact ⟨p, rfl, (C62_layout (sameAttrs (by decide)) tight_airy p).1 hp, of_decide_eq_true h⟩

/-- The exception is real: white space inside a `Constant` is part of its value. -/
example : decodeExpr (F := F64) "Constant" [] [.text "5" "5"] ≠
    decodeExpr "Constant" [] [.text " 5" " 5"] := by
  simp [decodeExpr, leafExpr, attrLoop, Except.map, Xml.sources, Xml.source]

end

end Gopmml.Props
