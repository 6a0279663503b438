import Verif.Spec.Rearrange
import Verif.Props.Said

/-!
# Documents in another order
-/

namespace Gopmml
namespace Said
open Spec Spec.Said

set_option linter.unusedSectionVars false
set_option linter.unusedSimpArgs false

/-! ## Attributes -/

section
variable {as as' : Attrs} (h : AttrsReordered as as')
include h

theorem sameAttrs_last (k : String) : lastAttr k as = lastAttr k as' := by
  unfold lastAttr
  rw [h.2 k]

theorem sameAttrs_text (k : String) : text k as = text k as' := by
  unfold text
  rw [sameAttrs_last h]

variable (F : Type) [Arith F] [Lib F]

theorem sameAttrs_numberIf (k : String) : numberIf (F := F) k as = numberIf k as' := by
  unfold numberIf
  rw [sameAttrs_last h]

theorem sameAttrs_num (k : String) : num (F := F) k as = num k as' := by
  unfold num
  rw [sameAttrs_numberIf h]

theorem sameAttrs_whole (k : String) : whole k as = whole k as' := by
  unfold whole
  rw [sameAttrs_last h]

theorem sameAttrs_count : nodeCount (F := F) as = nodeCount as' := by
  have : lastAttr "recordCount" (as.filter fun a => decide (a.2 ≠ "")) =
      lastAttr "recordCount" (as'.filter fun a => decide (a.2 ≠ "")) := by
    unfold lastAttr
    have hc : ∀ l : Attrs, (l.filter fun a => decide (a.2 ≠ "")).filter (fun a => decide (a.1 = "recordCount")) =
        (l.filter fun a => decide (a.1 = "recordCount")).filter fun a => decide (a.2 ≠ "") := fun l => by
      rw [List.filter_filter, List.filter_filter]
      congr 1
      funext a
      exact Bool.and_comm _ _
    rw [hc, hc, h.2]
  unfold nodeCount
  rw [this]
end

theorem sameAttrs_append {a a' b b' : Attrs} (h : AttrsReordered a a') (g : AttrsReordered b b') : AttrsReordered (a ++ b) (a' ++ b') :=
  ⟨h.1.append g.1, fun k => by rw [List.filter_append, List.filter_append, h.2, g.2]⟩

theorem sameAttrs_refl (a : Attrs) : AttrsReordered a a := ⟨.refl _, fun _ => rfl⟩

/-! ## Contents -/

theorem rearranged_append {x x' : List Xml} (h : Rearranged x x') (y : List Xml) : Rearranged (x ++ y) (x' ++ y) := by
  induction h with
  | refl => exact .refl _
  | trans _ _ i j => exact i.trans j
  | skip x _ i => exact .skip x i
  | swap ch hk => exact .swap _ hk
  | inside as cs hn hr _ => exact .inside as _ hn hr
  | attrs n ch cs ha => exact .attrs n ch _ ha

theorem rearranged_prepend (y : List Xml) {x x' : List Xml} (h : Rearranged x x') : Rearranged (y ++ x) (y ++ x') := by
  induction y with
  | nil => exact h
  | cons c y ih => exact .skip c ih

theorem kind_name {n n' : String} {as as' : Attrs} {ch ch' : List Xml}
    (h : kindOf (.elem n as ch) ≠ kindOf (.elem n' as' ch')) : n ≠ n' := by
  rintro rfl
  exact h rfl

theorem inside_rearranged (k : String) {x x' : List Xml} (h : Rearranged x x') : Rearranged (inside k x) (inside k x') := by
  induction h with
  | refl => exact .refl _
  | trans _ _ i j => exact i.trans j
  | skip x _ i =>
    cases x with
    | text r v => exact i
    | elem n as ch =>
      rw [inside_elem, inside_elem]
      split
      · exact rearranged_prepend _ i
      · exact i
  | @swap x y ch hk =>
    cases x with
    | text r v => cases y <;> exact .refl _
    | elem n as c =>
      cases y with
      | text r v => exact .refl _
      | elem n' as' c' =>
        have := kind_name hk
        simp only [inside_elem]
        by_cases h1 : n = k
        · rw [if_pos h1, if_neg (fun h2 => this (h1.trans h2.symm)), if_neg (fun h2 => this (h1.trans h2.symm)), if_pos h1]
          exact .refl _
        · rw [if_neg h1, if_neg h1]
          exact .refl _
  | inside as cs hn hr _ =>
    rw [inside_elem, inside_elem]
    split
    · exact rearranged_append hr _
    · exact .refl _
  | attrs n ch cs ha =>
    rw [inside_elem, inside_elem]
    exact .refl _

theorem attrsOf_rearranged (k : String) {x x' : List Xml} (h : Rearranged x x') : AttrsReordered (attrsOf k x) (attrsOf k x') := by
  induction h with
  | refl => exact sameAttrs_refl _
  | trans _ _ i j => exact ⟨i.1.trans j.1, fun k => (i.2 k).trans (j.2 k)⟩
  | skip x _ i =>
    cases x with
    | text r v => exact i
    | elem n as ch =>
      rw [attrsOf_elem, attrsOf_elem]
      split
      · exact sameAttrs_append (sameAttrs_refl _) i
      · exact i
  | @swap x y ch hk =>
    cases x with
    | text r v => cases y <;> exact sameAttrs_refl _
    | elem n as c =>
      cases y with
      | text r v => exact sameAttrs_refl _
      | elem n' as' c' =>
        have := kind_name hk
        simp only [attrsOf_elem]
        by_cases h1 : n = k
        · rw [if_pos h1, if_neg (fun h2 => this (h1.trans h2.symm)), if_neg (fun h2 => this (h1.trans h2.symm)), if_pos h1]
          exact sameAttrs_refl _
        · rw [if_neg h1, if_neg h1]
          exact sameAttrs_refl _
  | inside as cs hn hr _ =>
    rw [attrsOf_elem, attrsOf_elem]
    exact sameAttrs_refl _
  | attrs n ch cs ha =>
    rw [attrsOf_elem, attrsOf_elem]
    split
    · exact sameAttrs_append ha (sameAttrs_refl _)
    · exact sameAttrs_refl _

theorem chardata_rearranged {x x' : List Xml} (h : Rearranged x x') : Xml.chardata x = Xml.chardata x' := by
  induction h with
  | refl => rfl
  | trans _ _ i j => exact i.trans j
  | skip x _ i => cases x <;> simp only [Xml.chardata, i]
  | @swap x y ch hk =>
    cases x with
    | text r v =>
      cases y with
      | text r' v' => exact absurd rfl hk
      | elem => rfl
    | elem => cases y <;> rfl
  | inside => rfl
  | attrs => rfl

/-- What is collected from a content item by item, from items of one kind only. -/
structure Collected {β : Type} (f : List Xml → List β) : Prop where
  nil : f [] = []
  cons : ∀ x xs, f (x :: xs) = f [x] ++ f xs
  kind : ∀ x y, kindOf x ≠ kindOf y → f [x] = [] ∨ f [y] = []
  attrs : ∀ n as as' ch, AttrsReordered as as' → f [.elem n as ch] = f [.elem n as' ch]

theorem collect {ι : Type} {β : ι → Type} {f : (i : ι) → List Xml → List (β i)} (hf : ∀ i, Collected (f i))
    (hi : ∀ i n as ch ch', n ≠ "Constant" → Rearranged ch ch' → (∀ j, f j ch = f j ch') →
      f i [.elem n as ch] = f i [.elem n as ch']) {x x' : List Xml} (h : Rearranged x x') : ∀ i, f i x = f i x' := by
  induction h with
  | refl => exact fun _ => rfl
  | trans _ _ i j => exact fun k => (i k).trans (j k)
  | @skip x ch ch' _ ih => intro i; rw [(hf i).cons x ch, (hf i).cons x ch', ih]
  | @swap x y ch hk =>
    intro i
    rw [(hf i).cons x, (hf i).cons y, (hf i).cons y (x :: ch), (hf i).cons x ch]
    rcases (hf i).kind x y hk with h | h <;> simp [h]
  | @inside n as ch ch' cs hn hr ih => intro i; rw [(hf i).cons (.elem n as ch) cs, (hf i).cons (.elem n as ch') cs, hi i n as _ _ hn hr ih]
  | @attrs n as as' ch cs ha => intro i; rw [(hf i).cons (.elem n as ch) cs, (hf i).cons (.elem n as' ch) cs, (hf i).attrs _ _ _ _ ha]

theorem named_collect {β : Type} {k : String} {g : Attrs → List Xml → β}
    (ha : ∀ as as' ch, AttrsReordered as as' → g as ch = g as' ch)
    (hc : ∀ as ch ch', Rearranged ch ch' → g as ch = g as ch') {x x' : List Xml} (h : Rearranged x x') :
    ((named k x).map fun e => g e.2.1 e.2.2) = (named k x').map fun e => g e.2.1 e.2.2 := by
  refine collect (ι := Unit) (f := fun _ ch => (named k ch).map fun e => g e.2.1 e.2.2) (fun _ => ⟨rfl, ?_, ?_, ?_⟩) ?_ h ()
  · intro x xs
    rw [show x :: xs = [x] ++ xs from rfl, named_append, List.map_append]
  · intro x y hxy
    cases x with
    | text => exact .inl rfl
    | elem n as ch =>
      cases y with
      | text => exact .inr rfl
      | elem n' as' ch' =>
        have := kind_name hxy
        by_cases h1 : n = k
        · exact .inr (by simp [named_elem, named, Xml.elems, show n' ≠ k from fun h2 => this (h1.trans h2.symm)])
        · exact .inl (by simp [named_elem, named, Xml.elems, h1])
  · intro n as as' ch hs
    by_cases h1 : n = k
    · simp [named, Xml.elems, h1, ha _ _ ch hs]
    · simp [named, Xml.elems, h1]
  · intro _ n as ch ch' _ hr _
    by_cases h1 : n = k
    · simp [named, Xml.elems, h1, hc as _ _ hr]
    · simp [named, Xml.elems, h1]

theorem cells_rearranged (k : String) {x x' : List Xml} (h : Rearranged x x') :
    ((named k x).map fun e => Xml.chardata e.2.2) = (named k x').map fun e => Xml.chardata e.2.2 :=
  named_collect (g := fun _ ch => Xml.chardata ch) (fun _ _ _ _ => rfl) (fun _ _ _ hr => chardata_rearranged hr) h

/-! ## What is said -/

variable {F : Type} [Arith F] [Lib F]

theorem collected_named {β : Type} {f : List Xml → List β} {item : Xml → List β} {K : ItemKind} (hnil : f [] = [])
    (hcons : ∀ x xs, f (x :: xs) = item x ++ f xs) (hkind : ∀ x, item x ≠ [] → kindOf x = K)
    (hattrs : ∀ n as as' ch, AttrsReordered as as' → item (.elem n as ch) = item (.elem n as' ch)) : Collected f where
  nil := hnil
  cons x xs := by rw [hcons, hcons x [], hnil, List.append_nil]
  kind x y h := by
    rw [hcons, hcons y, hnil, List.append_nil, List.append_nil]
    by_contra hc
    rw [not_or] at hc
    exact h ((hkind x hc.1).trans (hkind y hc.2).symm)
  attrs n as as' ch h := by rw [hcons, hcons (.elem n as' ch), hattrs n as as' ch h]

theorem preds_rearranged {x x' : List Xml} (h : Rearranged x x') : preds (F := F) x = preds x' := by
  refine collect (ι := Unit) (f := fun _ ch => preds (F := F) ch)
    (fun _ => collected_named (item := predOf) (K := .predicate) rfl (fun _ _ => rfl) ?_ ?_) ?_ h ()
  · intro x hx
    cases x with
    | text => simp [predOf] at hx
    | elem n as ch =>
      have : n ∈ predicateNames := by
        by_contra hn
        exact hx (predOf_none fun hm => hn (by simpa [predicateNames, or_comm, or_left_comm, or_assoc] using hm))
      simp [kindOf, this]
  · intro n as as' ch hs
    simp only [predOf, sameAttrs_text hs]
  · intro _ n as ch ch' _ _ ih
    simp only [preds, predOf, ih ()]

theorem dists_rearranged {x x' : List Xml} (h : Rearranged x x') : dists (F := F) x = dists x' :=
  named_collect (g := fun as _ => Spec.Said.dist as)
    (fun _ _ _ hs => by simp only [Spec.Said.dist, sameAttrs_text hs, sameAttrs_num hs, sameAttrs_numberIf hs]) (fun _ _ _ _ => rfl) h

theorem nodes_rearranged {x x' : List Xml} (h : Rearranged x x') : nodes (F := F) x = nodes x' := by
  refine collect (ι := Unit) (f := fun _ ch => nodes (F := F) ch)
    (fun _ => collected_named (item := nodeOf) (K := .named "Node") rfl (fun _ _ => rfl) ?_ ?_) ?_ h ()
  · intro x hx
    cases x with
    | text => simp [nodeOf] at hx
    | elem n as ch =>
      have : n = "Node" := by
        by_contra hn
        exact hx (nodeOf_none hn)
      subst this
      simp [kindOf, predicateNames, expressionNames, modelNames]
  · intro n as as' ch hs
    simp only [nodeOf, sameAttrs_text hs, sameAttrs_count hs]
  · intro _ n as ch ch' _ hr ih
    simp only [nodes, nodeOf, ih (), dists_rearranged hr, preds_rearranged hr]

theorem root_rearranged {x x' : List Xml} (h : Rearranged x x') : root (F := F) x = root x' := by
  simp only [root, sameAttrs_text (attrsOf_rearranged _ h), sameAttrs_count (attrsOf_rearranged _ h),
    dists_rearranged (inside_rearranged _ h), nodes_rearranged (inside_rearranged _ h),
    preds_rearranged (inside_rearranged _ h)]

theorem record_rearranged {x x' : List Xml} (h : Rearranged x x') : record (F := F) x = record x' := by
  refine Std.ExtTreeMap.ext_getElem? fun k => ?_
  have hk : ∀ ch : List Xml, ((named k ch).getLast?).map (fun e => GoVal.str (Xml.chardata e.2.2)) =
      (((named k ch).map fun e => Xml.chardata e.2.2).getLast?).map (GoVal.str (F := F)) := fun ch => by
    rw [List.getLast?_map, Option.map_map]
    rfl
  rw [Props.C113_cells, Props.C113_cells, hk, hk, cells_rearranged k h]

theorem table_rearranged {x x' : List Xml} (h : Rearranged x x') : table (F := F) x = table x' :=
  named_collect (g := fun _ ch => record ch) (fun _ _ _ _ => rfl) (fun _ _ _ hr => record_rearranged hr) h

theorem mapValues_rearranged (as : Attrs) {x x' : List Xml} (h : Rearranged x x') :
    mapValues (F := F) as x = mapValues as x' := by
  unfold mapValues
  congr 1
  · exact named_collect (g := fun as _ => columnPair as)
      (fun _ _ _ hs => by simp only [columnPair, sameAttrs_last hs]) (fun _ _ _ _ => rfl) h
  · exact named_collect (g := fun _ ch => table ch) (fun _ _ _ _ => rfl) (fun _ _ _ hr => table_rearranged hr) h

theorem exprs_rearranged {x x' : List Xml} (h : Rearranged x x') : exprs (F := F) x = exprs x' := by
  refine collect (ι := Unit) (f := fun _ ch => exprs (F := F) ch)
    (fun _ => collected_named (item := exprOf) (K := .expression) rfl (fun _ _ => rfl) ?_ ?_) ?_ h ()
  · intro x hx
    cases x with
    | text => simp [exprOf] at hx
    | elem n as ch =>
      have : n ∈ expressionNames := by
        by_contra hn
        simp only [expressionNames, List.mem_cons, List.not_mem_nil, or_false, not_or] at hn
        simp [exprOf, hn] at hx
      have h2 : n ∉ predicateNames := by
        intro h2
        simp only [expressionNames, List.mem_cons, List.not_mem_nil, or_false] at this
        rcases this with rfl | rfl | rfl | rfl | rfl | rfl | rfl | rfl | rfl | rfl <;> exact absurd h2 (by decide)
      simp [kindOf, this, h2]
  · intro n as as' ch hs
    simp only [exprOf, sameAttrs_text hs, mapValues, sameAttrs_last hs]
  · intro _ n as ch ch' hn hr ih
    simp only [exprs, exprOf, ih (), mapValues_rearranged _ hr, hn, if_false]

theorem deriveds_rearranged {x x' : List Xml} (h : Rearranged x x') : deriveds (F := F) x = deriveds x' :=
  named_collect (g := fun as ch => derived as ch) (fun _ _ _ hs => by simp only [derived, sameAttrs_text hs])
    (fun _ _ _ hr => by simp only [derived, exprs_rearranged hr]) h

theorem schema_rearranged {x x' : List Xml} (h : Rearranged x x') : schema x = schema x' :=
  named_collect (g := fun as _ => miningField as)
    (fun _ _ _ hs => by simp only [miningField, sameAttrs_text hs, sameAttrs_last hs]) (fun _ _ _ _ => rfl) (inside_rearranged _ h)

theorem outputs_rearranged {x x' : List Xml} (h : Rearranged x x') : outputs x = outputs x' :=
  named_collect (g := fun as _ => output as)
    (fun _ _ _ hs => by simp only [output, sameAttrs_text hs]) (fun _ _ _ _ => rfl) (inside_rearranged _ h)

theorem targets_rearranged {x x' : List Xml} (h : Rearranged x x') : targets (F := F) x = targets x' :=
  named_collect (g := fun as _ => target as)
    (fun _ _ _ hs => by simp only [target, sameAttrs_text hs, sameAttrs_numberIf hs]) (fun _ _ _ _ => rfl) (inside_rearranged _ h)

theorem verification_rearranged {x x' : List Xml} (h : Rearranged x x') : verification (F := F) x = verification x' := by
  have h1 : named "ModelVerification" x = [] ↔ named "ModelVerification" x' = [] := by
    have := named_collect (k := "ModelVerification") (g := fun _ _ => ()) (fun _ _ _ _ => rfl) (fun _ _ _ _ => rfl) h
    rw [← List.map_eq_nil_iff (f := fun _ => ()), this, List.map_eq_nil_iff]
  have h2 := named_collect (k := "VerificationField") (g := fun as _ => verificationField (F := F) as)
    (fun _ _ _ hs => by simp only [verificationField, sameAttrs_text hs, sameAttrs_numberIf hs]) (fun _ _ _ _ => rfl)
    (inside_rearranged "VerificationFields" (inside_rearranged "ModelVerification" h))
  simp only [verification, h1, h2, table_rearranged (inside_rearranged "InlineTable" (inside_rearranged "ModelVerification" h))]

theorem tree_rearranged (as : Attrs) {x x' : List Xml} (h : Rearranged x x') : tree (F := F) as x = tree as x' := by
  simp only [tree, deriveds_rearranged (inside_rearranged _ h), schema_rearranged h, verification_rearranged h, root_rearranged h]

theorem regressionTable_rearranged (as : Attrs) {x x' : List Xml} (h : Rearranged x x') :
    regressionTable (F := F) as x = regressionTable as x' := by
  unfold regressionTable
  congr 1
  exact named_collect (g := fun as _ => predictor as)
    (fun _ _ _ hs => by simp only [predictor, sameAttrs_text hs, sameAttrs_num hs, sameAttrs_whole hs]) (fun _ _ _ _ => rfl) h

theorem regression_rearranged (as : Attrs) {x x' : List Xml} (h : Rearranged x x') :
    regression (F := F) as x = regression as x' := by
  have h1 := named_collect (k := "RegressionTable") (g := fun as ch => regressionTable (F := F) as ch)
    (fun _ _ _ hs => by simp only [regressionTable, sameAttrs_text hs, sameAttrs_num hs])
    (fun as _ _ hr => regressionTable_rearranged as hr) h
  simp only [regression, h1, outputs_rearranged h, verification_rearranged h]

theorem miningHead_rearranged (as : Attrs) {x x' : List Xml} (h : Rearranged x x') :
    miningHead (F := F) as x = miningHead as x' := by
  simp only [miningHead, sameAttrs_text (attrsOf_rearranged _ h), deriveds_rearranged (inside_rearranged _ h),
    schema_rearranged h, verification_rearranged h, outputs_rearranged h, targets_rearranged h]

/-- The three functions that use each other. -/
inductive Part where
  | models
  | segmentations
  | segments

def partType (F : Type) : Part → Type
  | .models => ModelElem F
  | _ => SegDoc F

def part (F : Type) [Arith F] [Lib F] : (i : Part) → List Xml → List (partType F i)
  | .models => fun ch => models (F := F) ch
  | .segmentations => fun ch => segmentations (F := F) ch
  | .segments => fun ch => segments (F := F) ch

theorem part_rearranged {x x' : List Xml} (h : Rearranged x x') : ∀ i, part F i x = part F i x' := by
  refine collect (f := part F) (fun i => ?_) ?_ h
  · cases i with
    | models =>
      refine collected_named (f := fun ch => models (F := F) ch) (item := modelOf) (K := .model) rfl (fun _ _ => rfl) ?_ ?_
      · intro x hx
        cases x with
        | text => simp [modelOf] at hx
        | elem n as ch =>
          have : n ∈ modelNames := by
            by_contra hn
            simp only [modelNames, List.mem_cons, List.not_mem_nil, or_false, not_or] at hn
            simp [modelOf, hn] at hx
          have h2 : n ∉ predicateNames ∧ n ∉ expressionNames := by
            simp only [modelNames, List.mem_cons, List.not_mem_nil, or_false] at this
            rcases this with rfl | rfl | rfl | rfl | rfl | rfl | rfl | rfl | rfl | rfl | rfl | rfl | rfl | rfl | rfl |
              rfl | rfl | rfl <;> decide
          simp [kindOf, this, h2]
      · intro n as as' ch hs
        simp only [modelOf, tree, regression, miningHead, sameAttrs_text hs, sameAttrs_num hs]
    | segmentations =>
      refine collected_named (f := fun ch => segmentations (F := F) ch) (item := segmentation) (K := .named "Segmentation")
        rfl (fun _ _ => rfl) ?_ ?_
      · intro x hx
        cases x with
        | text => simp [segmentation] at hx
        | elem n as ch =>
          by_cases hn : n = "Segmentation"
          · subst hn
            simp [kindOf, predicateNames, expressionNames, modelNames]
          · simp [segmentation, hn] at hx
      · intro n as as' ch hs
        simp only [segmentation]
    | segments =>
      refine collected_named (f := fun ch => segments (F := F) ch) (item := segment) (K := .named "Segment")
        rfl (fun _ _ => rfl) ?_ ?_
      · intro x hx
        cases x with
        | text => simp [segment] at hx
        | elem n as ch =>
          by_cases hn : n = "Segment"
          · subst hn
            simp [kindOf, predicateNames, expressionNames, modelNames]
          · simp [segment, hn] at hx
      · intro n as as' ch hs
        simp only [segment, sameAttrs_text hs]
  · intro i n as ch ch' hn hr ih
    have h1 : models (F := F) ch = models ch' := ih .models
    have h2 : segmentations (F := F) ch = segmentations ch' := ih .segmentations
    have h3 : segments (F := F) ch = segments ch' := ih .segments
    cases i with
    | models => simp only [part, models, modelOf, tree_rearranged as hr, regression_rearranged as hr, miningHead_rearranged as hr, h2]; rfl
    | segmentations => simp only [part, segmentations, segmentation, h3]; rfl
    | segments => simp only [part, segments, segment, h1, preds_rearranged hr]; rfl

theorem pmml_rearranged {as as' : Attrs} (ha : AttrsReordered as as') {x x' : List Xml} (h : Rearranged x x') :
    pmml (F := F) as x = pmml as' x' := by
  have h1 := named_collect (k := "DataField") (g := fun as ch => dataField as ch)
    (fun _ _ _ hs => by simp only [dataField, sameAttrs_text hs])
    (fun as _ _ hr => by
      unfold dataField
      congr 1
      exact named_collect (g := fun as _ => text "value" as) (fun _ _ _ hs => sameAttrs_text hs _) (fun _ _ _ _ => rfl) hr)
    (inside_rearranged "DataDictionary" h)
  have h2 : models (F := F) x = models x' := part_rearranged h .models
  simp only [pmml, sameAttrs_text ha, h1, h2, deriveds_rearranged (inside_rearranged _ h)]

/-! ## What can be read -/

open Structs

theorem childrenRead_rearranged {x x' : List Xml} (h : Rearranged x x') : ∀ s, childrenRead F s x = childrenRead F s x' := by
  induction h with
  | refl => exact fun _ => rfl
  | trans _ _ i j => exact fun s => (i s).trans (j s)
  | skip x _ ih => intro s; rw [childrenRead_cons, childrenRead_cons, ih]
  | swap ch hk => intro s; simp only [childrenRead_cons, Bool.and_left_comm]
  | @inside n as ch ch' cs hn hr ih =>
    intro s
    rw [childrenRead_cons, childrenRead_cons, childReads_elem, childReads_elem, chardata_rearranged hr]
    have : ∀ t, reads F t as ch = reads F t as ch' := fun t => by
      cases hs : find t goStructs with
      | none => rw [reads, reads, hs]
      | some s' => rw [reads_eq hs, reads_eq hs, ih s']
    simp only [this]
  | attrs n ch cs ha =>
    intro s
    rw [childrenRead_cons, childrenRead_cons, childReads_elem, childReads_elem]
    simp only [Props.reads_perm (F := F) ha.1 (.refl ch)]

theorem reads_rearranged {t : String} {as as' : Attrs} (ha : AttrsReordered as as') {x x' : List Xml} (h : Rearranged x x') :
    reads F t as x = reads F t as' x' := by
  rw [Props.reads_perm (F := F) ha.1 (.refl x)]
  cases hs : find t goStructs with
  | none => rw [reads, reads, hs]
  | some s' => rw [reads_eq hs, reads_eq hs, childrenRead_rearranged h s']

end Said
end Gopmml
