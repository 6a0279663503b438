import Verif.Spec.Prune
import Verif.Proofs.Rearrange

/-!
# What a document need not have
-/

namespace Gopmml
namespace Said
open Spec Spec.Said

set_option linter.unusedSectionVars false
set_option linter.unusedSimpArgs false

/-- A list of names with all that matters for answers. -/
class CoversNames (N : List String) : Prop where
  names : ∀ k ∈ coreNames, k ∈ N

/-- A list of attributes with all that matters for answers. -/
class CoversAttrs (A : List String) : Prop where
  attrs : ∀ k ∈ coreAttrs, k ∈ A

theorem cn {N : List String} [h : CoversNames N] {k : String} (hk : k ∈ coreNames) : k ∈ N := h.names k hk

theorem ca {A : List String} [h : CoversAttrs A] {k : String} (hk : k ∈ coreAttrs) : k ∈ A := h.attrs k hk

instance : CoversNames coreNames := ⟨fun _ h => h⟩

instance : CoversAttrs coreAttrs := ⟨fun _ h => h⟩

instance : CoversNames saidNames := ⟨by decide⟩

instance : CoversAttrs saidAttrs := ⟨by decide⟩

/-! ## Attributes -/

section
variable {A : List String} {as as' : Attrs} (h : AttrsPruned A as as')
include h

theorem prunedAttrs_last {k : String} (hk : k ∈ A) : lastAttr k as = lastAttr k as' := by
  unfold lastAttr
  rw [h.2 k hk]

theorem prunedAttrs_text {k : String} (hk : k ∈ A) : text k as = text k as' := by
  unfold text
  rw [prunedAttrs_last h hk]

variable (F : Type) [Arith F] [Lib F]

theorem prunedAttrs_numberIf {k : String} (hk : k ∈ A) : numberIf (F := F) k as = numberIf k as' := by
  unfold numberIf
  rw [prunedAttrs_last h hk]

theorem prunedAttrs_num {k : String} (hk : k ∈ A) : num (F := F) k as = num k as' := by
  unfold num
  rw [prunedAttrs_numberIf h F hk]

theorem prunedAttrs_whole {k : String} (hk : k ∈ A) : whole k as = whole k as' := by
  unfold whole
  rw [prunedAttrs_last h hk]

theorem prunedAttrs_count [CoversAttrs A] : nodeCount (F := F) as = nodeCount as' := by
  have : lastAttr "recordCount" (as.filter fun a => decide (a.2 ≠ "")) =
      lastAttr "recordCount" (as'.filter fun a => decide (a.2 ≠ "")) := by
    unfold lastAttr
    have hc : ∀ l : Attrs, (l.filter fun a => decide (a.2 ≠ "")).filter (fun a => decide (a.1 = "recordCount")) =
        (l.filter fun a => decide (a.1 = "recordCount")).filter fun a => decide (a.2 ≠ "") := fun l => by
      rw [List.filter_filter, List.filter_filter]
      congr 1
      funext a
      exact Bool.and_comm _ _
    rw [hc, hc, h.2 _ (ca (by decide))]
  unfold nodeCount
  rw [this]
end

variable {N A : List String}

theorem prunedAttrs_append {a a' b b' : Attrs} (h : AttrsPruned A a a') (g : AttrsPruned A b b') :
    AttrsPruned A (a ++ b) (a' ++ b') :=
  ⟨h.1.append g.1, fun k hk => by rw [List.filter_append, List.filter_append, h.2 k hk, g.2 k hk]⟩

theorem prunedAttrs_refl (a : Attrs) : AttrsPruned A a a := ⟨.refl _, fun _ _ => rfl⟩

/-! ## Contents -/

theorem pruned_append {x x' : List Xml} (h : Pruned N A x x') (y : List Xml) : Pruned N A (x ++ y) (x' ++ y) := by
  induction h with
  | refl => exact .refl _
  | trans _ _ i j => exact i.trans j
  | skip x _ i => exact .skip x i
  | drop as ch cs hn => exact .drop as ch _ hn
  | hollow as ch cs hn => exact .hollow as ch _ hn
  | inside as cs hn hn' hr _ => exact .inside as _ hn hn' hr
  | attrs n ch cs ha => exact .attrs n ch _ ha

theorem pruned_prepend (y : List Xml) {x x' : List Xml} (h : Pruned N A x x') : Pruned N A (y ++ x) (y ++ x') := by
  induction y with
  | nil => exact h
  | cons c y ih => exact .skip c ih

theorem inside_pruned {k : String} (hk : k ∈ N ∧ k ∉ leafNames) {x x' : List Xml} (h : Pruned N A x x') :
    Pruned N A (inside k x) (inside k x') := by
  induction h with
  | refl => exact .refl _
  | trans _ _ i j => exact i.trans j
  | skip x _ i =>
    cases x with
    | text r v => exact i
    | elem n as ch =>
      rw [inside_elem, inside_elem]
      split
      · exact pruned_prepend _ i
      · exact i
  | drop as ch cs hn =>
    rw [inside_elem, if_neg fun e => hn (by rw [e]; exact hk.1)]
    exact .refl _
  | hollow as ch cs hn =>
    rw [inside_elem, inside_elem, if_neg fun e => hk.2 (by rw [← e]; exact hn), if_neg fun e => hk.2 (by rw [← e]; exact hn)]
    exact .refl _
  | inside as cs hn hn' hr _ =>
    rw [inside_elem, inside_elem]
    split
    · exact pruned_append hr _
    · exact .refl _
  | attrs n ch cs ha =>
    rw [inside_elem, inside_elem]
    exact .refl _

theorem attrsOf_pruned {k : String} (hk : k ∈ N) {x x' : List Xml} (h : Pruned N A x x') :
    AttrsPruned A (attrsOf k x) (attrsOf k x') := by
  induction h with
  | refl => exact prunedAttrs_refl _
  | trans _ _ i j => exact ⟨j.1.trans i.1, fun k hk => (i.2 k hk).trans (j.2 k hk)⟩
  | skip x _ i =>
    cases x with
    | text r v => exact i
    | elem n as ch =>
      rw [attrsOf_elem, attrsOf_elem]
      split
      · exact prunedAttrs_append (prunedAttrs_refl _) i
      · exact i
  | drop as ch cs hn =>
    rw [attrsOf_elem, if_neg fun e => hn (by rw [e]; exact hk)]
    exact prunedAttrs_refl _
  | hollow as ch cs hn =>
    rw [attrsOf_elem, attrsOf_elem]
    exact prunedAttrs_refl _
  | inside as cs hn hn' hr _ =>
    rw [attrsOf_elem, attrsOf_elem]
    exact prunedAttrs_refl _
  | attrs n ch cs ha =>
    rw [attrsOf_elem, attrsOf_elem]
    split
    · exact prunedAttrs_append ha (prunedAttrs_refl _)
    · exact prunedAttrs_refl _

theorem chardata_pruned {x x' : List Xml} (h : Pruned N A x x') : Xml.chardata x = Xml.chardata x' := by
  induction h with
  | refl => rfl
  | trans _ _ i j => exact i.trans j
  | skip x _ i => cases x <;> simp only [Xml.chardata, i]
  | drop => rfl
  | hollow => rfl
  | inside => rfl
  | attrs => rfl

/-- What is collected from a content item by item, from items that matter. -/
structure Gathered (N A : List String) {β : Type} (f : List Xml → List β) : Prop where
  cons : ∀ x xs, f (x :: xs) = f [x] ++ f xs
  drop : ∀ n as ch, n ∉ N → f [.elem n as ch] = []
  hollow : ∀ n as ch, n ∈ leafNames → f [.elem n as ch] = f [.elem n as []]
  attrs : ∀ n as as' ch, AttrsPruned A as as' → f [.elem n as ch] = f [.elem n as' ch]

theorem gather {ι : Type} {β : ι → Type} {f : (i : ι) → List Xml → List (β i)} (hf : ∀ i, Gathered N A (f i))
    (hi : ∀ i n as ch ch', n ≠ "Constant" → n ≠ "row" → Pruned N A ch ch' → (∀ j, f j ch = f j ch') →
      f i [.elem n as ch] = f i [.elem n as ch']) {x x' : List Xml} (h : Pruned N A x x') : ∀ i, f i x = f i x' := by
  induction h with
  | refl => exact fun _ => rfl
  | trans _ _ i j => exact fun k => (i k).trans (j k)
  | @skip x ch ch' _ ih => intro i; rw [(hf i).cons x ch, (hf i).cons x ch', ih]
  | drop as ch cs hn => intro i; rw [(hf i).cons _ cs, (hf i).drop _ as ch hn, List.nil_append]
  | @hollow n as ch cs hn =>
    intro i
    rw [(hf i).cons (.elem n as ch) cs, (hf i).cons (.elem n as []) cs, (hf i).hollow _ as ch hn]
  | @inside n as ch ch' cs hn hn' hr ih =>
    intro i
    rw [(hf i).cons (.elem n as ch) cs, (hf i).cons (.elem n as ch') cs, hi i n as _ _ hn hn' hr ih]
  | @attrs n as as' ch cs ha =>
    intro i
    rw [(hf i).cons (.elem n as ch) cs, (hf i).cons (.elem n as' ch) cs, (hf i).attrs _ _ _ _ ha]

theorem named_gather {β : Type} {k : String} {g : Attrs → List Xml → β} (hk : k ∈ N)
    (hl : k ∉ leafNames ∨ ∀ as ch, g as ch = g as [])
    (ha : ∀ as as' ch, AttrsPruned A as as' → g as ch = g as' ch)
    (hc : k ≠ "row" → ∀ as ch ch', Pruned N A ch ch' → g as ch = g as ch') {x x' : List Xml} (h : Pruned N A x x') :
    ((named k x).map fun e => g e.2.1 e.2.2) = (named k x').map fun e => g e.2.1 e.2.2 := by
  refine gather (ι := Unit) (f := fun _ ch => (named k ch).map fun e => g e.2.1 e.2.2) (fun _ => ⟨?_, ?_, ?_, ?_⟩) ?_ h ()
  · intro x xs
    rw [show x :: xs = [x] ++ xs from rfl, named_append, List.map_append]
  · intro n as ch hn
    have h1 : n ≠ k := fun h => hn (h ▸ hk)
    simp [named, Xml.elems, h1]
  · intro n as ch hn
    by_cases h1 : n = k
    · rcases hl with hl | hl
      · exact absurd (h1 ▸ hn) hl
      · simp [named, Xml.elems, h1, hl as ch]
    · simp [named, Xml.elems, h1]
  · intro n as as' ch hs
    by_cases h1 : n = k
    · simp [named, Xml.elems, h1, ha _ _ ch hs]
    · simp [named, Xml.elems, h1]
  · intro _ n as ch ch' _ hn' hr _
    by_cases h1 : n = k
    · simp [named, Xml.elems, h1, hc (h1 ▸ hn') as _ _ hr]
    · simp [named, Xml.elems, h1]

/-! ## What is said -/

variable {F : Type} [Arith F] [Lib F] [CoversNames N] [CoversAttrs A]

theorem gathered_items {β : Type} {f : List Xml → List β} {item : Xml → List β} (hnil : f [] = [])
    (hcons : ∀ x xs, f (x :: xs) = item x ++ f xs)
    (hdrop : ∀ n as ch, n ∉ N → item (.elem n as ch) = [])
    (hhollow : ∀ n as ch, n ∈ leafNames → item (.elem n as ch) = item (.elem n as []))
    (hattrs : ∀ n as as' ch, AttrsPruned A as as' → item (.elem n as ch) = item (.elem n as' ch)) : Gathered N A f where
  cons x xs := by rw [hcons, hcons x [], hnil, List.append_nil]
  drop n as ch hn := by rw [hcons, hnil, List.append_nil, hdrop n as ch hn]
  hollow n as ch hn := by rw [hcons, hcons (.elem n as []), hhollow n as ch hn]
  attrs n as as' ch h := by rw [hcons, hcons (.elem n as' ch), hattrs n as as' ch h]

theorem said_ne {n k : String} (hk : k ∈ N) (h : n ∉ N) : n ≠ k := fun e => h (e ▸ hk)

theorem leaf_ne {n k : String} (hk : k ∉ leafNames) (h : n ∈ leafNames) : n ≠ k := fun e => hk (e ▸ h)

theorem preds_pruned {x x' : List Xml} (h : Pruned N A x x') : preds (F := F) x = preds x' := by
  refine gather (ι := Unit) (f := fun _ ch => preds (F := F) ch)
    (fun _ => gathered_items (item := predOf) rfl (fun _ _ => rfl) ?_ ?_ ?_) ?_ h ()
  · intro n as ch hn
    simp only [predOf, said_ne (k := "CompoundPredicate") (cn (by decide)) hn, said_ne (k := "SimplePredicate") (cn (by decide)) hn,
      said_ne (k := "SimpleSetPredicate") (cn (by decide)) hn, said_ne (k := "True") (cn (by decide)) hn,
      said_ne (k := "False") (cn (by decide)) hn, if_false]
  · intro n as ch hn
    simp only [predOf, leaf_ne (k := "CompoundPredicate") (by decide) hn, if_false]
  · intro n as as' ch hs
    simp (disch := exact ca (by decide)) only [predOf, prunedAttrs_text hs]
  · intro _ n as ch ch' _ _ _ ih
    simp only [preds, predOf, ih ()]

theorem dists_pruned {x x' : List Xml} (h : Pruned N A x x') : dists (F := F) x = dists x' :=
  named_gather (g := fun as _ => Spec.Said.dist as) (cn (by decide)) (.inr fun _ _ => rfl)
    (fun _ _ _ hs => by simp (disch := exact ca (by decide)) only [Spec.Said.dist, prunedAttrs_text hs, prunedAttrs_num hs, prunedAttrs_numberIf hs])
    (fun _ _ _ _ _ => rfl) h

theorem nodes_pruned {x x' : List Xml} (h : Pruned N A x x') : nodes (F := F) x = nodes x' := by
  refine gather (ι := Unit) (f := fun _ ch => nodes (F := F) ch)
    (fun _ => gathered_items (item := nodeOf) rfl (fun _ _ => rfl) ?_ ?_ ?_) ?_ h ()
  · intro n as ch hn
    simp only [nodeOf, said_ne (k := "Node") (cn (by decide)) hn, if_false]
  · intro n as ch hn
    simp only [nodeOf, leaf_ne (k := "Node") (by decide) hn, if_false]
  · intro n as as' ch hs
    simp (disch := exact ca (by decide)) only [nodeOf, prunedAttrs_text hs, prunedAttrs_count hs]
  · intro _ n as ch ch' _ _ hr ih
    simp only [nodes, nodeOf, ih (), dists_pruned hr, preds_pruned hr]

theorem root_pruned {x x' : List Xml} (h : Pruned N A x x') : root (F := F) x = root x' := by
  have h1 : AttrsPruned A (attrsOf "Node" x) (attrsOf "Node" x') := attrsOf_pruned (cn (by decide)) h
  have h2 : Pruned N A (inside "Node" x) (inside "Node" x') := inside_pruned ⟨cn (by decide), by decide⟩ h
  simp (disch := exact ca (by decide)) only [root, prunedAttrs_text h1, prunedAttrs_count h1, dists_pruned h2, nodes_pruned h2,
    preds_pruned h2]

theorem table_pruned {x x' : List Xml} (h : Pruned N A x x') : table (F := F) x = table x' :=
  named_gather (g := fun _ ch => record ch) (cn (by decide)) (.inl (by decide)) (fun _ _ _ _ => rfl)
    (fun hn => absurd rfl hn) h

theorem mapValues_pruned (as : Attrs) {x x' : List Xml} (h : Pruned N A x x') :
    mapValues (F := F) as x = mapValues as x' := by
  unfold mapValues
  congr 1
  · exact named_gather (g := fun as _ => columnPair as) (cn (by decide)) (.inr fun _ _ => rfl)
      (fun _ _ _ hs => by simp (disch := exact ca (by decide)) only [columnPair, prunedAttrs_last hs]) (fun _ _ _ _ _ => rfl) h
  · exact named_gather (g := fun _ ch => table ch) (cn (by decide)) (.inl (by decide)) (fun _ _ _ _ => rfl)
      (fun _ _ _ _ hr => table_pruned hr) h

theorem exprs_pruned {x x' : List Xml} (h : Pruned N A x x') : exprs (F := F) x = exprs x' := by
  refine gather (ι := Unit) (f := fun _ ch => exprs (F := F) ch)
    (fun _ => gathered_items (item := exprOf) rfl (fun _ _ => rfl) ?_ ?_ ?_) ?_ h ()
  · intro n as ch hn
    have h1 : n ∉ ["Aggregate", "Discretize", "Lag", "NormContinuous", "NormDiscrete", "TextIndex"] := by
      intro h1
      simp only [List.mem_cons, List.not_mem_nil, or_false] at h1
      rcases h1 with rfl | rfl | rfl | rfl | rfl | rfl <;> exact hn (cn (by decide))
    simp only [exprOf, said_ne (k := "Apply") (cn (by decide)) hn, said_ne (k := "Constant") (cn (by decide)) hn,
      said_ne (k := "FieldRef") (cn (by decide)) hn, said_ne (k := "MapValues") (cn (by decide)) hn, h1, if_false]
  · intro n as ch hn
    simp only [exprOf, leaf_ne (k := "Apply") (by decide) hn, leaf_ne (k := "Constant") (by decide) hn,
      leaf_ne (k := "MapValues") (by decide) hn, if_false]
  · intro n as as' ch hs
    simp (disch := exact ca (by decide)) only [exprOf, prunedAttrs_text hs, mapValues, prunedAttrs_last hs]
  · intro _ n as ch ch' hn _ hr ih
    simp only [exprs, exprOf, ih (), mapValues_pruned _ hr, hn, if_false]

theorem deriveds_pruned {x x' : List Xml} (h : Pruned N A x x') : deriveds (F := F) x = deriveds x' :=
  named_gather (g := fun as ch => derived as ch) (cn (by decide)) (.inl (by decide))
    (fun _ _ _ hs => by simp (disch := exact ca (by decide)) only [derived, prunedAttrs_text hs])
    (fun _ _ _ _ hr => by simp only [derived, exprs_pruned hr]) h

theorem outputs_pruned {x x' : List Xml} (h : Pruned N A x x') : outputs x = outputs x' :=
  named_gather (g := fun as _ => output as) (cn (by decide)) (.inr fun _ _ => rfl)
    (fun _ _ _ hs => by simp (disch := exact ca (by decide)) only [output, prunedAttrs_text hs]) (fun _ _ _ _ _ => rfl)
    (inside_pruned ⟨cn (by decide), by decide⟩ h)

theorem targets_pruned {x x' : List Xml} (h : Pruned N A x x') : targets (F := F) x = targets x' :=
  named_gather (g := fun as _ => target as) (cn (by decide)) (.inr fun _ _ => rfl)
    (fun _ _ _ hs => by simp (disch := exact ca (by decide)) only [target, prunedAttrs_text hs, prunedAttrs_numberIf hs])
    (fun _ _ _ _ _ => rfl) (inside_pruned ⟨cn (by decide), by decide⟩ h)

/-! ## Everything that is said -/

theorem schema_pruned {x x' : List Xml} (h : Pruned saidNames saidAttrs x x') : schema x = schema x' :=
  named_gather (g := fun as _ => miningField as) (by decide) (.inr fun _ _ => rfl)
    (fun _ _ _ hs => by simp (disch := decide) only [miningField, prunedAttrs_text hs, prunedAttrs_last hs])
    (fun _ _ _ _ _ => rfl) (inside_pruned ⟨by decide, by decide⟩ h)

theorem verification_pruned {x x' : List Xml} (h : Pruned saidNames saidAttrs x x') : verification (F := F) x = verification x' := by
  have h1 : named "ModelVerification" x = [] ↔ named "ModelVerification" x' = [] := by
    have := named_gather (k := "ModelVerification") (g := fun _ _ => ()) (by decide) (.inl (by decide))
      (fun _ _ _ _ => rfl) (fun _ _ _ _ _ => rfl) h
    rw [← List.map_eq_nil_iff (f := fun _ => ()), this, List.map_eq_nil_iff]
  have h0 : Pruned saidNames saidAttrs (inside "ModelVerification" x) (inside "ModelVerification" x') := inside_pruned ⟨by decide, by decide⟩ h
  have h2 := named_gather (k := "VerificationField") (g := fun as _ => verificationField (F := F) as) (by decide)
    (.inr fun _ _ => rfl)
    (fun _ _ _ hs => by simp (disch := decide) only [verificationField, prunedAttrs_text hs, prunedAttrs_numberIf hs])
    (fun _ _ _ _ _ => rfl) (inside_pruned (k := "VerificationFields") ⟨by decide, by decide⟩ h0)
  simp only [verification, h1, h2, table_pruned (inside_pruned (k := "InlineTable") ⟨by decide, by decide⟩ h0)]

theorem tree_pruned (as : Attrs) {x x' : List Xml} (h : Pruned saidNames saidAttrs x x') : tree (F := F) as x = tree as x' := by
  simp only [tree, deriveds_pruned (inside_pruned (k := "LocalTransformations") ⟨by decide, by decide⟩ h), schema_pruned h,
    verification_pruned h, root_pruned h]

theorem regressionTable_pruned (as : Attrs) {x x' : List Xml} (h : Pruned saidNames saidAttrs x x') :
    regressionTable (F := F) as x = regressionTable as x' := by
  unfold regressionTable
  congr 1
  exact named_gather (g := fun as _ => predictor as) (by decide) (.inr fun _ _ => rfl)
    (fun _ _ _ hs => by
      simp (disch := decide) only [predictor, prunedAttrs_text hs, prunedAttrs_num hs, prunedAttrs_whole hs])
    (fun _ _ _ _ _ => rfl) h

theorem regression_pruned (as : Attrs) {x x' : List Xml} (h : Pruned saidNames saidAttrs x x') :
    regression (F := F) as x = regression as x' := by
  have h1 := named_gather (k := "RegressionTable") (g := fun as ch => regressionTable (F := F) as ch) (by decide)
    (.inl (by decide))
    (fun _ _ _ hs => by simp (disch := decide) only [regressionTable, prunedAttrs_text hs, prunedAttrs_num hs])
    (fun _ as _ _ hr => regressionTable_pruned as hr) h
  simp only [regression, h1, outputs_pruned h, verification_pruned h]

theorem miningHead_pruned (as : Attrs) {x x' : List Xml} (h : Pruned saidNames saidAttrs x x') :
    miningHead (F := F) as x = miningHead as x' := by
  have h1 : AttrsPruned saidAttrs (attrsOf "Segmentation" x) (attrsOf "Segmentation" x') := attrsOf_pruned (by decide) h
  have h2 : text "multipleModelMethod" (attrsOf "Segmentation" x) =
      text "multipleModelMethod" (attrsOf "Segmentation" x') := prunedAttrs_text h1 (by decide)
  simp only [miningHead, h2, deriveds_pruned (inside_pruned (k := "LocalTransformations") ⟨by decide, by decide⟩ h),
    schema_pruned h, verification_pruned h, outputs_pruned h, targets_pruned h]

theorem part_pruned {x x' : List Xml} (h : Pruned saidNames saidAttrs x x') : ∀ i, part F i x = part F i x' := by
  refine gather (f := part F) (fun i => ?_) ?_ h
  · cases i with
    | models =>
      refine gathered_items (f := fun ch => models (F := F) ch) (item := modelOf) rfl (fun _ _ => rfl) ?_ ?_ ?_
      · intro n as ch hn
        have h1 : n ∉ ["AssociationModel", "BaselineModel", "BayesianNetworkModel", "ClusteringModel",
            "GaussianProcessModel", "GeneralRegressionModel", "NaiveBayesModel", "NearestNeighborModel",
            "NeuralNetwork", "RuleSetModel", "Scorecard", "SequenceModel", "SupportVectorMachineModel",
            "TextModel", "TimeSeriesModel"] := by
          intro h1
          simp only [List.mem_cons, List.not_mem_nil, or_false] at h1
          rcases h1 with rfl | rfl | rfl | rfl | rfl | rfl | rfl | rfl | rfl | rfl | rfl | rfl | rfl | rfl | rfl <;>
            exact hn (by decide)
        simp only [modelOf, said_ne (k := "TreeModel") (by decide) hn, said_ne (k := "RegressionModel") (by decide) hn,
          said_ne (k := "MiningModel") (by decide) hn, h1, if_false]
      · intro n as ch hn
        simp only [modelOf, leaf_ne (k := "TreeModel") (by decide) hn, leaf_ne (k := "RegressionModel") (by decide) hn,
          leaf_ne (k := "MiningModel") (by decide) hn, if_false]
      · intro n as as' ch hs
        simp (disch := decide) only [modelOf, tree, regression, miningHead, prunedAttrs_text hs, prunedAttrs_num hs]
    | segmentations =>
      refine gathered_items (f := fun ch => segmentations (F := F) ch) (item := segmentation) rfl (fun _ _ => rfl) ?_ ?_ ?_
      · intro n as ch hn
        simp only [segmentation, said_ne (k := "Segmentation") (by decide) hn, if_false]
      · intro n as ch hn
        simp only [segmentation, leaf_ne (k := "Segmentation") (by decide) hn, if_false]
      · intro n as as' ch hs
        simp only [segmentation]
    | segments =>
      refine gathered_items (f := fun ch => segments (F := F) ch) (item := segment) rfl (fun _ _ => rfl) ?_ ?_ ?_
      · intro n as ch hn
        simp only [segment, said_ne (k := "Segment") (by decide) hn, if_false]
      · intro n as ch hn
        simp only [segment, leaf_ne (k := "Segment") (by decide) hn, if_false]
      · intro n as as' ch hs
        simp (disch := decide) only [segment, prunedAttrs_text hs]
  · intro i n as ch ch' hn _ hr ih
    have h1 : models (F := F) ch = models ch' := ih .models
    have h2 : segmentations (F := F) ch = segmentations ch' := ih .segmentations
    have h3 : segments (F := F) ch = segments ch' := ih .segments
    cases i with
    | models => simp only [part, models, modelOf, tree_pruned as hr, regression_pruned as hr, miningHead_pruned as hr, h2]; rfl
    | segmentations => simp only [part, segmentations, segmentation, h3]; rfl
    | segments => simp only [part, segments, segment, h1, preds_pruned hr]; rfl

theorem pmml_pruned {as as' : Attrs} (ha : AttrsPruned saidAttrs as as') {x x' : List Xml} (h : Pruned saidNames saidAttrs x x') :
    pmml (F := F) as x = pmml as' x' := by
  have h1 := named_gather (k := "DataField") (g := fun as ch => dataField as ch) (by decide) (.inl (by decide))
    (fun _ _ _ hs => by simp (disch := decide) only [dataField, prunedAttrs_text hs])
    (fun _ as _ _ hr => by
      unfold dataField
      congr 1
      exact named_gather (g := fun as _ => text "value" as) (by decide) (.inr fun _ _ => rfl)
        (fun _ _ _ hs => prunedAttrs_text hs (by decide)) (fun _ _ _ _ _ => rfl) hr)
    (inside_pruned (k := "DataDictionary") ⟨by decide, by decide⟩ h)
  have h2 : models (F := F) x = models x' := part_pruned h .models
  have h3 : text "version" as = text "version" as' := prunedAttrs_text ha (by decide)
  simp only [pmml, h3, h1, h2, deriveds_pruned (inside_pruned (k := "TransformationDictionary") ⟨by decide, by decide⟩ h)]

/-! ## What can be read -/

open Structs

theorem attrs_all_pruned {as as' : Attrs} (h : AttrsPruned A as as') (s : GoStruct)
    (ha : as.all (attrReads F s) = true) : as'.all (attrReads F s) = true := by
  rw [List.all_eq_true] at ha ⊢
  exact fun a hm => ha a (h.1.subset hm)

theorem float_empty : Kind.float64.reads F "" = true := by
  unfold Kind.reads attrFloat
  simp [Except.isOk, Except.toBool]

theorem childrenRead_pruned {x x' : List Xml} (h : Pruned N A x x') :
    ∀ s, childrenRead F s x = true → childrenRead F s x' = true := by
  induction h with
  | refl => exact fun _ h => h
  | trans _ _ i j => exact fun s h => j s (i s h)
  | skip x _ ih =>
    intro s h
    rw [childrenRead_cons, Bool.and_eq_true] at h ⊢
    exact ⟨h.1, ih s h.2⟩
  | drop as ch cs hn =>
    intro s h
    rw [childrenRead_cons, Bool.and_eq_true] at h
    exact h.2
  | @hollow n as ch cs hn =>
    intro s h
    rw [childrenRead_cons, Bool.and_eq_true, childReads_elem] at h ⊢
    refine ⟨?_, h.2⟩
    cases hf : find n s.fields with
    | none => simpa [hf] using h.1
    | some t =>
      have h1 := h.1
      simp only [hf] at h1 ⊢
      split
      · exact float_empty
      · rename_i hne
        rw [if_neg hne] at h1
        cases hs : find t goStructs with
        | none => rw [reads, hs]
        | some s' =>
          rw [reads_eq hs, Bool.and_eq_true] at h1 ⊢
          exact ⟨h1.1, childrenRead_nil s'⟩
  | @inside n as ch ch' cs hn hn' hr ih =>
    intro s h
    rw [childrenRead_cons, Bool.and_eq_true, childReads_elem] at h ⊢
    refine ⟨?_, h.2⟩
    cases hf : find n s.fields with
    | none => simpa [hf] using h.1
    | some t =>
      have h1 := h.1
      simp only [hf] at h1 ⊢
      rw [← chardata_pruned hr]
      split
      · rename_i he
        rwa [if_pos he] at h1
      · rename_i hne
        rw [if_neg hne] at h1
        cases hs : find t goStructs with
        | none => rw [reads, hs]
        | some s' =>
          rw [reads_eq hs, Bool.and_eq_true] at h1 ⊢
          exact ⟨h1.1, ih s' h1.2⟩
  | @attrs n as as' ch cs ha =>
    intro s h
    rw [childrenRead_cons, Bool.and_eq_true, childReads_elem] at h ⊢
    refine ⟨?_, h.2⟩
    cases hf : find n s.fields with
    | none => simpa [hf] using h.1
    | some t =>
      have h1 := h.1
      simp only [hf] at h1 ⊢
      split
      · rename_i he
        rwa [if_pos he] at h1
      · rename_i hne
        rw [if_neg hne] at h1
        cases hs : find t goStructs with
        | none => rw [reads, hs]
        | some s' =>
          rw [reads_eq hs, Bool.and_eq_true] at h1 ⊢
          exact ⟨attrs_all_pruned ha s' h1.1, h1.2⟩

theorem reads_pruned {t : String} {as as' : Attrs} (ha : AttrsPruned A as as') {x x' : List Xml} (h : Pruned N A x x')
    (hr : reads F t as x = true) : reads F t as' x' = true := by
  cases hs : find t goStructs with
  | none => rw [reads, hs]
  | some s' =>
    rw [reads_eq hs, Bool.and_eq_true] at hr ⊢
    exact ⟨attrs_all_pruned ha s' hr.1, childrenRead_pruned h s' hr.2⟩

/-! ## Everything at once -/

theorem bareAttrs_pruned (A : List String) (as : Attrs) : AttrsPruned A as (bareAttrs A as) := by
  refine ⟨List.filter_sublist, fun k hk => ?_⟩
  unfold bareAttrs
  rw [List.filter_filter]
  refine List.filter_congr fun a _ => ?_
  by_cases h : a.1 = k
  · simp [h, hk]
  · simp [h]

mutual
theorem bareItem_pruned (N A : List String) : ∀ (x : Xml) (cs : List Xml), Pruned N A (x :: cs) (bareItem N A x ++ cs)
  | .text r v, cs => by rw [bareItem]; exact .refl _
  | .elem n as ch, cs => by
    rw [bareItem]
    split
    · rename_i hn
      exact .drop as ch cs hn
    · split
      · rename_i hl
        exact (Pruned.hollow as ch cs hl).trans (.attrs n [] cs (bareAttrs_pruned A as))
      · split
        · exact .attrs n ch cs (bareAttrs_pruned A as)
        · rename_i hn
          rw [not_or] at hn
          exact (Pruned.inside as cs hn.1 hn.2 (bare_pruned N A ch)).trans (.attrs n _ cs (bareAttrs_pruned A as))
theorem bare_pruned (N A : List String) : ∀ ch : List Xml, Pruned N A ch (bare N A ch)
  | [] => by rw [bare]; exact .refl _
  | c :: cs => by
    rw [bare]
    exact (bareItem_pruned N A c cs).trans (pruned_prepend _ (bare_pruned N A cs))
end

end Said
end Gopmml
