import Mathlib.Data.List.Forall2
import Verif.Spec.Xml

/-!
# Lemmas about the decoders of Model/Xml.lean
-/

namespace Gopmml

theorem Xml.listInd {P : List Xml → Prop} (nil : P [])
    (text : ∀ r v cs, P cs → P (.text r v :: cs))
    (elem : ∀ n as ch cs, P ch → P cs → P (.elem n as ch :: cs)) : ∀ l, P l
  | [] => nil
  | .text r v :: cs => text r v cs (listInd nil text elem cs)
  | .elem n as ch :: cs => elem n as ch cs (listInd nil text elem ch) (listInd nil text elem cs)

/-- Handle the child elements one after the other; fail on an unknown one. -/
def readAll {σ : Type} (h : String → Attrs → List Xml → σ → Option (Dec σ)) :
    List (String × Attrs × List Xml) → σ → Option σ
  | [], s => some s
  | (n, as, ch) :: es, s =>
    match h n as ch s with
    | some (.ok s') => readAll h es s'
    | _ => none

section
variable {σ : Type} (h : String → Attrs → List Xml → σ → Option (Dec σ))

theorem bodyLoop_text (r v : String) (cs : List Xml) (s : σ) :
    bodyLoop h (.text r v :: cs) s = bodyLoop h cs s := by
  simp only [bodyLoop, bodyItem]

theorem bodyLoop_elem (n : String) (as : Attrs) (ch cs : List Xml) (s : σ) :
    bodyLoop h (.elem n as ch :: cs) s =
      match h n as ch s with
      | some (.error e) => .error e
      | some (.ok s') => bodyLoop h cs s'
      | none =>
        match bodyLoop h ch s with
        | .error e => .error e
        | .ok (s', _) => .ok (s', false) := by
  simp only [bodyLoop, bodyItem]
  cases h n as ch s with
  | none =>
    simp only
    cases bodyLoop h ch s <;> rfl
  | some r => cases r <;> rfl

theorem bodyLoop_own : ∀ (cs : List Xml) (s s' : σ),
    bodyLoop h cs s = .ok (s', true) ↔ readAll h (Xml.elems cs) s = some s'
  | [], s, s' => by simp [bodyLoop, Xml.elems, readAll]
  | .text _ _ :: cs, s, s' => by
    rw [bodyLoop_text]
    exact bodyLoop_own cs s s'
  | .elem n as ch :: cs, s, s' => by
    rw [bodyLoop_elem]
    simp only [Xml.elems, readAll]
    cases hh : h n as ch s with
    | none =>
      simp only
      cases bodyLoop h ch s <;> simp
    | some r =>
      cases r with
      | error e => simp
      | ok s1 => simpa using bodyLoop_own cs s1 s'

theorem consumed_ok {name : String} {r : Dec (σ × Bool)} {s : σ} :
    consumed name r = .ok s ↔ r = .ok (s, true) := by
  unfold consumed
  split <;> simp_all

theorem consumed_bodyLoop {name : String} {cs : List Xml} {s s' : σ} :
    consumed name (bodyLoop h cs s) = .ok s' ↔ readAll h (Xml.elems cs) s = some s' := by
  rw [consumed_ok, bodyLoop_own]

variable {h}

theorem readAll_mem {es : List (String × Attrs × List Xml)} {s s' : σ}
    (hr : readAll h es s = some s') :
    ∀ e ∈ es, ∃ t t', h e.1 e.2.1 e.2.2 t = some (.ok t') := by
  induction es generalizing s with
  | nil => simp
  | cons e es ih =>
    obtain ⟨n, as, ch⟩ := e
    simp only [readAll] at hr
    intro e he
    cases hh : h n as ch s with
    | none => simp [hh] at hr
    | some r =>
      cases r with
      | error e => simp [hh] at hr
      | ok s1 =>
        simp only [hh] at hr
        rcases List.mem_cons.1 he with rfl | he
        · exact ⟨s, s1, hh⟩
        · exact ih hr e he

end

theorem Xml.mem_elems {n : String} {as : Attrs} {ch cs : List Xml} :
    (n, as, ch) ∈ Xml.elems cs ↔ Xml.elem n as ch ∈ cs := by
  induction cs with
  | nil => simp [Xml.elems]
  | cons c cs ih =>
    cases c with
    | text r v => simpa [Xml.elems] using ih
    | elem n' as' ch' => simp [Xml.elems, ih]

theorem reflectLoop_mem {σ : Type} {h : String → Attrs → List Xml → σ → Dec σ} {cs : List Xml}
    {s s' : σ} (hr : reflectLoop h cs s = .ok s') :
    ∀ n as ch, Xml.elem n as ch ∈ cs → ∃ t t', h n as ch t = .ok t' := by
  induction cs generalizing s with
  | nil => simp
  | cons c cs ih =>
    intro n as ch hm
    cases c with
    | text r v =>
      simp only [List.mem_cons, reduceCtorEq, false_or] at hm
      exact ih hr n as ch hm
    | elem n' as' ch' =>
      simp only [reflectLoop] at hr
      cases hh : h n' as' ch' s with
      | error e => simp [hh] at hr
      | ok s1 =>
        simp only [hh] at hr
        rcases List.mem_cons.1 hm with he | hm
        · cases he; exact ⟨s, s1, hh⟩
        · exact ih hr n as ch hm

/-! ## The recursive loops are instances of `bodyLoop` -/

section
variable {F : Type} [Arith F] [Lib F]

/-- The `switch` of `CompoundPredicate.UnmarshalXML`. -/
def compoundHandle (n : String) (as : Attrs) (ch : List Xml) (ps : List (Pred F)) :
    Option (Dec (List (Pred F))) :=
  if n = "Extension" then some (.ok ps)
  else (decodePred n as ch).map fun r => r.map fun p => ps ++ [p]

omit [Arith F] [Lib F] in
theorem compoundBody_eq : ∀ (cs : List Xml) (ps : List (Pred F)),
    compoundBody cs ps = bodyLoop compoundHandle cs ps := by
  apply Xml.listInd
  · intro ps; rfl
  · intro r v cs ih ps
    rw [bodyLoop_text, ← ih ps]
    simp only [compoundBody, compoundItem]
  · intro n as ch cs ihch ihcs ps
    rw [bodyLoop_elem]
    simp only [compoundBody, compoundItem, compoundHandle]
    by_cases h1 : n = "Extension"
    · simp only [if_pos h1]; exact ihcs ps
    · simp only [if_neg h1]
      by_cases h2 : n = "CompoundPredicate"
      · simp only [if_pos h2, decodePred, Option.map_some]
        cases consumed n (compoundBody ch []) with
        | error e => rfl
        | ok qs => exact ihcs _
      · simp only [if_neg h2, decodePred]
        cases leafPred n as ch with
        | none =>
          simp only [Option.map_none]
          rw [ihch ps]
          cases bodyLoop compoundHandle ch ps <;> rfl
        | some r =>
          cases r with
          | error e => rfl
          | ok p => exact ihcs _

/-- The `switch` of `Node.UnmarshalXML`. -/
def nodeHandle (n : String) (as : Attrs) (ch : List Xml) (x : Node F) : Option (Dec (Node F)) :=
  if n = "Extension" ∨ n = "Partition" then some (.ok x)
  else if n = "Node" then some ((decodeNode as ch Node.zero).map x.addNode)
  else if n = "ScoreDistribution" then some ((decodeDist as).map x.addDist)
  else if n = "DecisionTree" ∨ n = "Regression" then some (.ok x)
  else (decodePred n as ch).map fun r => r.map x.setPred

omit [Arith F] [Lib F] in
theorem decodePred_embedded {n : String} (h : n = "DecisionTree" ∨ n = "Regression") (as : Attrs)
    (ch : List Xml) : decodePred (F := F) n as ch = none := by
  rcases h with rfl | rfl <;> simp [decodePred, leafPred]

theorem nodeBody_eq : ∀ (cs : List Xml) (x : Node F),
    nodeBody cs x = bodyLoop nodeHandle cs x := by
  apply Xml.listInd
  · intro x; rfl
  · intro r v cs ih x
    rw [bodyLoop_text, ← ih x]
    simp only [nodeBody, nodeItem]
  · intro n as ch cs ihch ihcs x
    rw [bodyLoop_elem]
    simp only [nodeBody, nodeItem, nodeHandle]
    by_cases h1 : n = "Extension"
    · simp only [h1, true_or, if_true]; exact ihcs x
    by_cases h4 : n = "Partition"
    · subst h4
      simp only [or_true, if_true]; exact ihcs x
    by_cases h2 : n = "Node"
    · subst h2
      simp only [if_true, decodeNode]
      cases attrLoop nodeAttr as (Node.zero (F := F)) with
      | error e => rfl
      | ok y =>
        simp only
        cases consumed "Node" (nodeBody ch y) with
        | error e => rfl
        | ok c => exact ihcs _
    by_cases h3 : n = "ScoreDistribution"
    · subst h3
      simp only [if_true]
      cases decodeDist (F := F) as with
      | error e => rfl
      | ok d => exact ihcs _
    by_cases h5 : n = "DecisionTree" ∨ n = "Regression"
    · rw [decodePred_embedded h5]
      simp only [if_neg h2, if_neg h3, if_pos h5, h1, h4, or_false, if_false]
      exact ihcs _
    simp only [if_neg h2, if_neg h3, if_neg h5, h1, h4, or_false, if_false]
    cases decodePred n as ch with
    | none =>
      simp only [Option.map_none]
      rw [ihch x]
      cases bodyLoop nodeHandle ch x <;> rfl
    | some r =>
      cases r with
      | error e => rfl
      | ok p => exact ihcs _

/-- The `switch` of `Apply.UnmarshalXML`. -/
def applyHandle (n : String) (as : Attrs) (ch : List Xml) (xs : List (Expr F)) :
    Option (Dec (List (Expr F))) :=
  if n = "Extension" then some (.ok xs)
  else (decodeExpr n as ch).map fun r => r.map fun x => xs ++ [x]

omit [Arith F] [Lib F] in
theorem applyBody_eq : ∀ (cs : List Xml) (xs : List (Expr F)),
    applyBody cs xs = bodyLoop applyHandle cs xs := by
  apply Xml.listInd
  · intro ps; rfl
  · intro r v cs ih ps
    rw [bodyLoop_text, ← ih ps]
    simp only [applyBody, applyItem]
  · intro n as ch cs ihch ihcs ps
    rw [bodyLoop_elem]
    simp only [applyBody, applyItem, applyHandle]
    by_cases h1 : n = "Extension"
    · simp only [if_pos h1]; exact ihcs ps
    · simp only [if_neg h1]
      by_cases h2 : n = "Apply"
      · simp only [if_pos h2, decodeExpr, Option.map_some]
        cases consumed n (applyBody ch []) with
        | error e => rfl
        | ok qs => exact ihcs _
      · simp only [if_neg h2, decodeExpr]
        cases leafExpr n as ch with
        | none =>
          simp only [Option.map_none]
          rw [ihch ps]
          cases bodyLoop applyHandle ch ps <;> rfl
        | some r =>
          cases r with
          | error e => rfl
          | ok p => exact ihcs _

variable [Reflect]

/-- The `switch` of `Segment.UnmarshalXML`. -/
def segmentHandle (n : String) (as : Attrs) (ch : List Xml)
    (x : List (Pred F) × List (ModelElem F)) : Option (Dec (List (Pred F) × List (ModelElem F))) :=
  match decodePred n as ch with
  | some r => some (r.map fun p => (x.1 ++ [p], x.2))
  | none => (decodeModel n as ch).map fun r => r.map fun m => (x.1, x.2 ++ [m])

theorem segmentBody_eq : ∀ (cs : List Xml) (x : List (Pred F) × List (ModelElem F)),
    segmentBody cs x = bodyLoop segmentHandle cs x := by
  apply Xml.listInd
  · intro ps; rfl
  · intro r v cs ih ps
    rw [bodyLoop_text, ← ih ps]
    simp only [segmentBody, segmentItem]
  · rintro n as ch cs ihch ihcs ⟨ps, ms⟩
    rw [bodyLoop_elem]
    simp only [segmentBody, segmentItem, segmentHandle]
    cases decodePred (F := F) n as ch with
    | some r =>
      cases r with
      | error e => rfl
      | ok p => exact ihcs _
    | none =>
      simp only
      by_cases h2 : n = "MiningModel"
      · simp only [if_pos h2, decodeModel, decodeMining, Option.map_some]
        cases attrLoop miningAttr as (MiningHead.zero (F := F)) with
        | error e => rfl
        | ok h =>
          simp only
          cases miningBody ch (h, []) with
          | error e => rfl
          | ok r => exact ihcs _
      · simp only [if_neg h2, decodeModel]
        cases leafModel (F := F) n as ch with
        | none =>
          simp only [Option.map_none]
          rw [ihch _]
          cases bodyLoop segmentHandle ch (ps, ms) <;> rfl
        | some r =>
          cases r with
          | error e => rfl
          | ok p => exact ihcs _

/-- `Segmentation`'s `switch`. -/
def segmentationChild (n : String) (as : Attrs) (ch : List Xml) (segs : List (SegDoc F)) :
    Dec (List (SegDoc F)) :=
  if n = "Segment" then (decodeSegment as ch).map fun s => segs ++ [s] else .ok segs

theorem segmentationBody_eq : ∀ (cs : List Xml) (x : List (SegDoc F)),
    segmentationBody cs x = reflectLoop segmentationChild cs x := by
  apply Xml.listInd
  · intro ps; rfl
  · intro r v cs ih ps
    simp only [segmentationBody, segmentationItem, reflectLoop]
    exact ih ps
  · rintro n as ch cs ihch ihcs x
    simp only [segmentationBody, segmentationItem, reflectLoop, segmentationChild, decodeSegment]
    by_cases h : n = "Segment"
    · subst h
      simp only [if_true]
      cases consumed "Segment" (segmentBody (F := F) ch ([], [])) with
      | error e => rfl
      | ok r => exact ihcs _
    · simp only [if_neg h]
      exact ihcs _

/-- `MiningModel`'s `switch`. -/
def miningHandle (n : String) (as : Attrs) (ch : List Xml) (x : MiningHead F × List (SegDoc F)) :
    Dec (MiningHead F × List (SegDoc F)) :=
  if n = "Segmentation" then
    (reflectLoop segmentationChild ch x.2).map fun segs =>
      ({ x.1 with method := methodAttr as x.1.method }, segs)
  else (miningChild n as ch x.1).map fun h => (h, x.2)

theorem miningBody_eq : ∀ (cs : List Xml) (x : MiningHead F × List (SegDoc F)),
    miningBody cs x = reflectLoop miningHandle cs x := by
  apply Xml.listInd
  · intro ps; rfl
  · intro r v cs ih ps
    simp only [miningBody, miningItem, reflectLoop]
    exact ih ps
  · rintro n as ch cs ihch ihcs ⟨h, segs⟩
    simp only [miningBody, miningItem, reflectLoop, miningHandle]
    by_cases hn : n = "Segmentation"
    · simp only [if_pos hn, segmentationBody_eq]
      cases reflectLoop (segmentationChild (F := F)) ch segs with
      | error e => rfl
      | ok r => exact ihcs _
    · simp only [if_neg hn]
      cases miningChild n as ch h with
      | error e => rfl
      | ok r => exact ihcs _

end

end Gopmml
