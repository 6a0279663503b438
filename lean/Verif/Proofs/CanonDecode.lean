import Verif.Proofs.Text
import Verif.Spec.Canon

/-!
# The normal form of a file: what decoding gives
-/

namespace Gopmml.XmlText

open Gopmml Spec

/-! ## Enumerations -/

theorem ok_miningFunction (s : String) : OkMiningFunction (.ofString s) ∧ miningFunction (.ofString s) = s := by
  unfold MiningFunction.ofString; split_ifs <;> simp_all [OkMiningFunction, miningFunction]
theorem ok_missing (s : String) : OkMissing (.ofString s) ∧ missingValueStrategy (.ofString s) = s := by
  unfold MissingValueStrategy.ofString; split_ifs <;> simp_all [OkMissing, missingValueStrategy]
theorem ok_noTrue (s : String) : OkNoTrue (.ofString s) ∧ noTrueChildStrategy (.ofString s) = s := by
  unfold NoTrueChildStrategy.ofString; split_ifs <;> simp_all [OkNoTrue, noTrueChildStrategy]
theorem ok_simpleOp (s : String) : OkSimpleOp (.ofString s) ∧ simpleOp (.ofString s) = s := by
  unfold SimpleOp.ofString; split_ifs <;> simp_all [OkSimpleOp, simpleOp]
theorem ok_boolOp (s : String) : OkBoolOp (.ofString s) ∧ boolOp (.ofString s) = s := by
  unfold BoolOp.ofString; split_ifs <;> simp_all [OkBoolOp, boolOp]
theorem ok_usage (s : String) : OkUsage (.ofString s) ∧ usageType (.ofString s) = s := by
  unfold UsageType.ofString; split_ifs <;> simp_all [OkUsage, usageType]
theorem ok_dataType (s : String) : OkDataType (.ofString s) ∧ dataType (.ofString s) = s := by
  unfold DataType.ofString; split_ifs <;> simp_all [OkDataType, dataType]
theorem ok_opType (s : String) : OkOpType (.ofString s) ∧ opType (.ofString s) = s := by
  unfold OpType.ofString; split_ifs <;> simp_all [OkOpType, opType]
theorem ok_feature (s : String) : OkFeature (.ofString s) ∧ resultFeature (.ofString s) = s := by
  unfold ResultFeature.ofString; split_ifs <;> simp_all [OkFeature, resultFeature]
theorem ok_normalization (s : String) : OkNormalization (.ofString s) ∧ normalization (.ofString s) = s := by
  unfold Normalization.ofString; split_ifs <;> simp_all [OkNormalization, normalization]
theorem ok_method (s : String) : OkMethod (.ofString s) ∧ multipleModelMethod (.ofString s) = s := by
  unfold MultipleModelMethod.ofString; split_ifs <;> simp_all [OkMethod, multipleModelMethod]

/-! ## Loops -/

section
variable {σ : Type} {T : String → Prop} {I : σ → Prop}

theorem map_ok {α β : Type} {r : Dec α} {g : α → β} {b : β} (h : r.map g = .ok b) : ∃ a, r = .ok a ∧ g a = b := by
  cases r with
  | error e => simp [Except.map] at h
  | ok a => simp only [Except.map, Except.ok.injEq] at h; exact ⟨a, rfl, h⟩

theorem attrLoop_inv {f : String → String → σ → Dec σ} (hf : ∀ k v s s', T v → I s → f k v s = .ok s' → I s') :
    ∀ {as : Attrs} {s s' : σ}, (∀ a ∈ as, T a.2) → I s → attrLoop f as s = .ok s' → I s'
  | [], s, s', _, hi, h => by
    simp only [attrLoop, Except.ok.injEq] at h
    exact h ▸ hi
  | (k, v) :: as, s, s', ha, hi, h => by
    rw [attrLoop] at h
    split at h
    · simp at h
    · rename_i s₁ h1
      exact attrLoop_inv hf (fun a h => ha a (by simp [h])) (hf k v s s₁ (ha (k, v) (by simp)) hi h1) h

theorem fold_inv {f : σ → String × String → σ} (hf : ∀ s a, T a.2 → I s → I (f s a)) :
    ∀ {as : Attrs} {s : σ}, (∀ a ∈ as, T a.2) → I s → I (as.foldl f s)
  | [], s, _, hi => hi
  | a :: as, s, ha, hi => fold_inv (as := as) hf (fun b h => ha b (by simp [h])) (hf s a (ha a (by simp)) hi)

mutual
theorem bodyItem_inv {h : String → Attrs → List Xml → σ → Option (Dec σ)}
    (hh : ∀ n as ch s s', (∀ a ∈ as, T a.2) → XmlsTexts T ch → I s → h n as ch s = some (.ok s') → I s') :
    ∀ (x : Xml) {s s' : σ} {b : Bool}, XmlTexts T x → I s → bodyItem h x s = .ok (s', b) → I s'
  | .text _ _, s, s', b, _, hi, e => by
    simp only [bodyItem, Except.ok.injEq, Prod.mk.injEq] at e
    exact e.1 ▸ hi
  | .elem n as ch, s, s', b, hx, hi, e => by
    rw [bodyItem] at e
    rw [XmlTexts] at hx
    split at e
    · simp at e
    · rename_i s₁ h1
      simp only [Except.ok.injEq, Prod.mk.injEq] at e
      exact e.1 ▸ hh n as ch s s₁ hx.1 hx.2 hi h1
    · split at e
      · simp at e
      · rename_i s₁ b₁ h1
        simp only [Except.ok.injEq, Prod.mk.injEq] at e
        exact e.1 ▸ bodyLoop_inv hh ch hx.2 hi h1
theorem bodyLoop_inv {h : String → Attrs → List Xml → σ → Option (Dec σ)}
    (hh : ∀ n as ch s s', (∀ a ∈ as, T a.2) → XmlsTexts T ch → I s → h n as ch s = some (.ok s') → I s') :
    ∀ (xs : List Xml) {s s' : σ} {b : Bool}, XmlsTexts T xs → I s → bodyLoop h xs s = .ok (s', b) → I s'
  | [], s, s', b, _, hi, e => by
    simp only [bodyLoop, Except.ok.injEq, Prod.mk.injEq] at e
    exact e.1 ▸ hi
  | x :: xs, s, s', b, hx, hi, e => by
    rw [bodyLoop] at e
    rw [XmlsTexts] at hx
    split at e
    · simp at e
    · rename_i s₁ h1
      exact bodyLoop_inv hh xs hx.2 (bodyItem_inv hh x hx.1 hi h1) e
    · rename_i s₁ h1
      simp only [Except.ok.injEq, Prod.mk.injEq] at e
      exact e.1 ▸ bodyItem_inv hh x hx.1 hi h1
end

theorem consumed_inv {n : String} {r : Dec (σ × Bool)} {s : σ} (h : consumed n r = .ok s) : r = .ok (s, true) := by
  unfold consumed at h
  split at h <;> simp_all

theorem reflectLoop_inv {h : String → Attrs → List Xml → σ → Dec σ}
    (hh : ∀ n as ch s s', (∀ a ∈ as, T a.2) → XmlsTexts T ch → I s → h n as ch s = .ok s' → I s') :
    ∀ {xs : List Xml} {s s' : σ}, XmlsTexts T xs → I s → reflectLoop h xs s = .ok s' → I s'
  | [], s, s', _, hi, e => by
    simp only [reflectLoop, Except.ok.injEq] at e
    exact e ▸ hi
  | .text _ _ :: xs, s, s', hx, hi, e => by
    rw [reflectLoop] at e
    rw [XmlsTexts] at hx
    exact reflectLoop_inv hh hx.2 hi e
  | .elem n as ch :: xs, s, s', hx, hi, e => by
    rw [reflectLoop] at e
    rw [XmlsTexts, XmlTexts] at hx
    split at e
    · simp at e
    · rename_i s₁ h1
      exact reflectLoop_inv hh hx.2 (hh n as ch s s₁ hx.1.1 hx.1.2 hi h1) e

end

theorem chardata_texts {T : String → Prop} (h0 : T "") (h1 : ∀ s t, T s → T t → T (s ++ t)) :
    ∀ {xs : List Xml}, XmlsTexts T xs → T (Xml.chardata xs)
  | [], _ => by rw [Xml.chardata]; exact h0
  | .text _ v :: xs, h => by
    rw [Xml.chardata]
    rw [XmlsTexts, XmlTexts] at h
    exact h1 _ _ h.1 (chardata_texts h0 h1 h.2)
  | .elem n as ch :: xs, h => by
    rw [Xml.chardata]
    rw [XmlsTexts] at h
    exact chardata_texts h0 h1 h.2

theorem attrInt_range {s : String} {n : Int} (h : attrInt s = .ok n) : -2 ^ 63 ≤ n ∧ n < 2 ^ 63 := by
  unfold attrInt at h
  split_ifs at h
  · simp only [Except.ok.injEq] at h
    subst h
    decide
  · unfold parsed at h
    split at h
    · rename_i x hx
      simp only [Except.ok.injEq] at h
      subst h
      rw [parseInt_split] at hx
      dsimp only at hx
      split_ifs at hx <;> simp only [Option.some.injEq] at hx <;> omega
    · simp at h

set_option linter.unusedSectionVars false

section
variable {F : Type} [Arith F] [Lib F] {T : String → Prop} {fmt : F → String} (h0 : T "")
  (hT : ∀ s t, T s → T t → T (s ++ t)) (hp : ∀ x, Printable fmt x)

/-! ## Predicates -/

def GoodPred (T : String → Prop) (p : Pred F) : Prop := OkPred p ∧ PredTexts T p

omit [Arith F] [Lib F] in
theorem ok_preds : ∀ {ps : List (Pred F)}, (∀ p ∈ ps, GoodPred T p) → OkPreds ps ∧ PredsTexts T ps
  | [], _ => ⟨trivial, trivial⟩
  | p :: ps, h =>
    have h1 := h p (by simp)
    have h2 := ok_preds (ps := ps) fun q hq => h q (by simp [hq])
    ⟨⟨h1.1, h2.1⟩, ⟨h1.2, h2.2⟩⟩

omit [Arith F] [Lib F] in
include h0 in
theorem leafPred_good {n : String} {as : Attrs} {ch : List Xml} {p : Pred F} (ha : ∀ a ∈ as, T a.2)
    (h : leafPred n as ch = some (.ok p)) : GoodPred T p := by
  unfold leafPred at h
  split_ifs at h
  · simp only [Option.some.injEq, Except.ok.injEq] at h
    subst h; exact ⟨trivial, trivial⟩
  · rw [Option.some.injEq] at h
    obtain ⟨q, h1, rfl⟩ := map_ok h
    have : (OkSimpleOp q.op ∧ q.raw = .nil) ∧ T q.field ∧ T (simpleOp q.op) ∧ T q.value := by
      refine attrLoop_inv (I := fun q : SimplePred F => (OkSimpleOp q.op ∧ q.raw = .nil) ∧ T q.field ∧
        T (simpleOp q.op) ∧ T q.value) ?_ ha (by exact ⟨⟨by simp [OkSimpleOp], rfl⟩, h0, h0, h0⟩) h1
      intro k v s s' hv hi h
      unfold simpleAttr at h
      split_ifs at h <;> simp only [Except.ok.injEq] at h <;> subst h
      · exact ⟨hi.1, hv, hi.2.2⟩
      · exact ⟨⟨(ok_simpleOp v).1, hi.1.2⟩, hi.2.1, by rw [(ok_simpleOp v).2]; exact hv, hi.2.2.2⟩
      · exact ⟨hi.1, hi.2.1, hi.2.2.1, hv⟩
      · exact hi
    exact this
  · rw [Option.some.injEq] at h
    split at h
    · simp at h
    · rename_i f hf
      obtain ⟨-, -, rfl⟩ := map_ok h
      refine ⟨trivial, attrLoop_inv (I := T) ?_ ha h0 hf⟩
      intro k v s s' hv hi h
      simp only [Except.ok.injEq] at h
      subst h
      split_ifs
      · exact hv
      · exact hi
  · simp only [Option.some.injEq, Except.ok.injEq] at h
    subst h; exact ⟨trivial, trivial⟩

include h0 in
omit F [Arith F] [Lib F] fmt in
theorem boolOpAttr_good {as : Attrs} (ha : ∀ a ∈ as, T a.2) : OkBoolOp (boolOpAttr as) ∧ T (boolOp (boolOpAttr as)) := by
  unfold boolOpAttr
  refine fold_inv (T := T) (I := fun op => OkBoolOp op ∧ T (boolOp op)) ?_ ha ⟨by simp [OkBoolOp], h0⟩
  intro s a hv hi
  split_ifs
  · exact ⟨(ok_boolOp _).1, by rw [(ok_boolOp _).2]; exact hv⟩
  · exact hi

omit [Arith F] [Lib F] in
include h0 in
mutual
theorem compoundItem_good : ∀ (x : Xml) {ps ps' : List (Pred F)} {b : Bool}, XmlTexts T x → (∀ p ∈ ps, GoodPred T p) →
    compoundItem x ps = .ok (ps', b) → ∀ p ∈ ps', GoodPred T p
  | .text _ _, ps, ps', b, _, hi, e => by
    simp only [compoundItem, Except.ok.injEq, Prod.mk.injEq] at e
    exact e.1 ▸ hi
  | .elem n as ch, ps, ps', b, hx, hi, e => by
    rw [compoundItem] at e
    rw [XmlTexts] at hx
    split_ifs at e
    · simp only [Except.ok.injEq, Prod.mk.injEq] at e
      exact e.1 ▸ hi
    · split at e
      · simp at e
      · rename_i qs h1
        simp only [Except.ok.injEq, Prod.mk.injEq] at e
        have hq := compoundBody_good ch (ps := []) hx.2 (by simp) (consumed_inv h1)
        rw [← e.1]
        intro p hp
        rcases List.mem_append.1 hp with hp | hp
        · exact hi p hp
        · rw [List.mem_singleton] at hp
          subst hp
          have h2 := ok_preds hq
          have h3 := boolOpAttr_good h0 hx.1
          exact ⟨⟨h3.1, h2.1⟩, ⟨h3.2, h2.2⟩⟩
    · split at e
      · simp at e
      · rename_i p h1
        simp only [Except.ok.injEq, Prod.mk.injEq] at e
        rw [← e.1]
        intro q hq
        rcases List.mem_append.1 hq with hq | hq
        · exact hi q hq
        · rw [List.mem_singleton] at hq
          subst hq
          exact leafPred_good h0 hx.1 h1
      · split at e
        · simp at e
        · rename_i ps₁ b₁ h1
          simp only [Except.ok.injEq, Prod.mk.injEq] at e
          exact e.1 ▸ compoundBody_good ch hx.2 hi h1
theorem compoundBody_good : ∀ (xs : List Xml) {ps ps' : List (Pred F)} {b : Bool}, XmlsTexts T xs →
    (∀ p ∈ ps, GoodPred T p) → compoundBody xs ps = .ok (ps', b) → ∀ p ∈ ps', GoodPred T p
  | [], ps, ps', b, _, hi, e => by
    simp only [compoundBody, Except.ok.injEq, Prod.mk.injEq] at e
    exact e.1 ▸ hi
  | x :: xs, ps, ps', b, hx, hi, e => by
    rw [compoundBody] at e
    rw [XmlsTexts] at hx
    split at e
    · simp at e
    · rename_i s₁ h1
      exact compoundBody_good xs hx.2 (compoundItem_good x hx.1 hi h1) e
    · rename_i s₁ h1
      simp only [Except.ok.injEq, Prod.mk.injEq] at e
      exact e.1 ▸ compoundItem_good x hx.1 hi h1
end

omit [Arith F] [Lib F] in
include h0 in
theorem decodePred_good {n : String} {as : Attrs} {ch : List Xml} {p : Pred F} (ha : ∀ a ∈ as, T a.2)
    (hc : XmlsTexts T ch) (h : decodePred n as ch = some (.ok p)) : GoodPred T p := by
  unfold decodePred at h
  split_ifs at h
  · rw [Option.some.injEq] at h
    obtain ⟨ps, h1, rfl⟩ := map_ok h
    have h2 := ok_preds (compoundBody_good h0 ch (ps := []) hc (by simp) (consumed_inv h1))
    have h3 := boolOpAttr_good h0 ha
    exact ⟨⟨h3.1, h2.1⟩, ⟨h3.2, h2.2⟩⟩
  · exact leafPred_good h0 ha h

/-! ## Nodes -/

def GoodNode (fmt : F → String) (T : String → Prop) (n : Node F) : Prop := OkNode fmt n ∧ NodeTexts T n

omit [Arith F] in
theorem good_node {id dc sc : String} {rc : F} {ds : List (ScoreDistribution F)} {ns : List (Node F)}
    {p : Option (Pred F)} : GoodNode fmt T (.mk id dc sc rc ds ns p) ↔
      T id ∧ T dc ∧ T sc ∧ Printable fmt rc ∧ (∀ d ∈ ds, OkDist fmt d ∧ T d.value) ∧ (∀ q ∈ p, GoodPred T q) ∧
        ∀ n ∈ ns, GoodNode fmt T n := by
  have key : ∀ l : List (Node F), OkNodes fmt l ∧ NodesTexts T l ↔ ∀ n ∈ l, GoodNode fmt T n := by
    intro l
    induction l with
    | nil => simp [OkNodes, NodesTexts]
    | cons n l ih =>
      rw [List.forall_mem_cons, ← ih, OkNodes, NodesTexts, GoodNode]
      tauto
  rw [← key, GoodNode, OkNode, NodeTexts]
  simp only [GoodPred]
  constructor
  · rintro ⟨⟨h1, h2, h3, h4⟩, h5, h6, h7, h8, h9, h10⟩
    exact ⟨h5, h6, h7, h1, fun d hd => ⟨h2 d hd, h8 d hd⟩, fun q hq => ⟨h3 q hq, h9 q hq⟩, h4, h10⟩
  · rintro ⟨h5, h6, h7, h1, h2, h3, h4, h10⟩
    exact ⟨⟨h1, fun d hd => (h2 d hd).1, fun q hq => (h3 q hq).1, h4⟩, h5, h6, h7, fun d hd => (h2 d hd).2,
      fun q hq => (h3 q hq).2, h10⟩

include h0 hp

theorem decodeDist_good {as : Attrs} {d : ScoreDistribution F} (ha : ∀ a ∈ as, T a.2) (h : decodeDist as = .ok d) :
    OkDist fmt d ∧ T d.value := by
  refine attrLoop_inv (T := T) (I := fun d => OkDist fmt d ∧ T d.value) ?_ ha
    (by exact ⟨⟨hp _, by simp, by simp⟩, h0⟩) h
  intro k v s s' hv hi h
  unfold distAttr at h
  refine ⟨⟨hp _, fun x _ => hp x, fun x _ => hp x⟩, ?_⟩
  split_ifs at h
  · obtain ⟨x, -, rfl⟩ := map_ok h; exact hi.2
  · obtain ⟨x, -, rfl⟩ := map_ok h; exact hi.2
  · obtain ⟨x, -, rfl⟩ := map_ok h; exact hi.2
  · simp only [Except.ok.injEq] at h; subst h; exact hv
  · simp only [Except.ok.injEq] at h; subst h; exact hi.2

theorem nodeAttr_good {k v : String} {x x' : Node F} (hv : T v) (hi : GoodNode fmt T x)
    (h : nodeAttr k v x = .ok x') : GoodNode fmt T x' := by
  obtain ⟨id, dc, sc, rc, ds, ns, p⟩ := x
  obtain ⟨h1, h2, h3, h4, h5⟩ := good_node.1 hi
  unfold nodeAttr at h
  split_ifs at h
  · simp only [Except.ok.injEq] at h; subst h; exact good_node.2 ⟨h1, hv, h3, h4, h5⟩
  · simp only [Except.ok.injEq] at h; subst h; exact good_node.2 ⟨hv, h2, h3, h4, h5⟩
  · simp only [Except.ok.injEq] at h; subst h; exact hi
  · obtain ⟨x, -, rfl⟩ := map_ok h; exact good_node.2 ⟨h1, h2, h3, hp _, h5⟩
  · simp only [Except.ok.injEq] at h; subst h; exact good_node.2 ⟨h1, h2, hv, h4, h5⟩
  · simp only [Except.ok.injEq] at h; subst h; exact hi

theorem zero_good : GoodNode fmt T (Node.zero : Node F) :=
  good_node.2 ⟨h0, h0, h0, hp _, by simp, by simp, by simp⟩

omit h0 hp [Arith F] in
theorem addNode_good {x c : Node F} (hx : GoodNode fmt T x) (hc : GoodNode fmt T c) : GoodNode fmt T (x.addNode c) := by
  obtain ⟨id, dc, sc, rc, ds, ns, p⟩ := x
  obtain ⟨h1, h2, h3, h4, h5, h6, h7⟩ := good_node.1 hx
  refine good_node.2 ⟨h1, h2, h3, h4, h5, h6, ?_⟩
  intro n hn
  rcases List.mem_append.1 hn with hn | hn
  · exact h7 n hn
  · rw [List.mem_singleton] at hn; exact hn ▸ hc

omit h0 hp [Arith F] in
theorem addDist_good {x : Node F} {d : ScoreDistribution F} (hx : GoodNode fmt T x) (hd : OkDist fmt d ∧ T d.value) :
    GoodNode fmt T (x.addDist d) := by
  obtain ⟨id, dc, sc, rc, ds, ns, p⟩ := x
  obtain ⟨h1, h2, h3, h4, h5, h6, h7⟩ := good_node.1 hx
  refine good_node.2 ⟨h1, h2, h3, h4, ?_, h6, h7⟩
  intro n hn
  rcases List.mem_append.1 hn with hn | hn
  · exact h5 n hn
  · rw [List.mem_singleton] at hn; exact hn ▸ hd

omit h0 hp [Arith F] in
theorem setPred_good {x : Node F} {q : Pred F} (hx : GoodNode fmt T x) (hq : GoodPred T q) :
    GoodNode fmt T (x.setPred q) := by
  obtain ⟨id, dc, sc, rc, ds, ns, p⟩ := x
  obtain ⟨h1, h2, h3, h4, h5, h6, h7⟩ := good_node.1 hx
  exact good_node.2 ⟨h1, h2, h3, h4, h5, by simpa using hq, h7⟩

mutual
theorem nodeItem_good : ∀ (c : Xml) {x x' : Node F} {b : Bool}, XmlTexts T c → GoodNode fmt T x →
    nodeItem c x = .ok (x', b) → GoodNode fmt T x'
  | .text _ _, x, x', b, _, hi, e => by
    simp only [nodeItem, Except.ok.injEq, Prod.mk.injEq] at e
    exact e.1 ▸ hi
  | .elem n as ch, x, x', b, hx, hi, e => by
    rw [nodeItem] at e
    rw [XmlTexts] at hx
    split_ifs at e
    rotate_right
    · split at e
      · simp at e
      · rename_i p h1
        simp only [Except.ok.injEq, Prod.mk.injEq] at e
        exact e.1 ▸ setPred_good hi (decodePred_good h0 hx.1 hx.2 h1)
      · split at e
        · simp at e
        · rename_i x₁ b₁ h1
          simp only [Except.ok.injEq, Prod.mk.injEq] at e
          exact e.1 ▸ nodeBody_good ch hx.2 hi h1
    · simp only [Except.ok.injEq, Prod.mk.injEq] at e
      exact e.1 ▸ hi
    · split at e
      · simp at e
      · rename_i y h1
        split at e
        · simp at e
        · rename_i c h2
          simp only [Except.ok.injEq, Prod.mk.injEq] at e
          have hy := attrLoop_inv (I := GoodNode fmt T) (fun k v s s' hv hi h => nodeAttr_good h0 hp hv hi h) hx.1
            (zero_good h0 hp) h1
          exact e.1 ▸ addNode_good hi (nodeBody_good ch hx.2 hy (consumed_inv h2))
    · split at e
      · simp at e
      · rename_i d h1
        simp only [Except.ok.injEq, Prod.mk.injEq] at e
        exact e.1 ▸ addDist_good hi (decodeDist_good h0 hp hx.1 h1)
    · simp only [Except.ok.injEq, Prod.mk.injEq] at e
      exact e.1 ▸ hi
    · split at e
      · simp at e
      · rename_i p h1
        simp only [Except.ok.injEq, Prod.mk.injEq] at e
        exact e.1 ▸ setPred_good hi (decodePred_good h0 hx.1 hx.2 h1)
      · simp only [Except.ok.injEq, Prod.mk.injEq] at e
        exact e.1 ▸ hi
theorem nodeBody_good : ∀ (xs : List Xml) {x x' : Node F} {b : Bool}, XmlsTexts T xs → GoodNode fmt T x →
    nodeBody xs x = .ok (x', b) → GoodNode fmt T x'
  | [], x, x', b, _, hi, e => by
    simp only [nodeBody, Except.ok.injEq, Prod.mk.injEq] at e
    exact e.1 ▸ hi
  | c :: xs, x, x', b, hx, hi, e => by
    rw [nodeBody] at e
    rw [XmlsTexts] at hx
    split at e
    · simp at e
    · rename_i s₁ h1
      exact nodeBody_good xs hx.2 (nodeItem_good c hx.1 hi h1) e
    · rename_i s₁ h1
      simp only [Except.ok.injEq, Prod.mk.injEq] at e
      exact e.1 ▸ nodeItem_good c hx.1 hi h1
end

theorem decodeNode_good {as : Attrs} {ch : List Xml} {x x' : Node F} (ha : ∀ a ∈ as, T a.2) (hc : XmlsTexts T ch)
    (hi : GoodNode fmt T x) (h : decodeNode as ch x = .ok x') : GoodNode fmt T x' := by
  unfold decodeNode at h
  split at h
  · simp at h
  · rename_i y h1
    exact nodeBody_good h0 hp ch hc (attrLoop_inv (I := GoodNode fmt T)
      (fun k v s s' hv hi h => nodeAttr_good h0 hp hv hi h) ha hi h1) (consumed_inv h)

omit hp

/-! ## Tables and expressions -/

def GoodTable (T : String → Prop) (t : List (GoMap (GoVal F))) : Prop := ∀ r ∈ t, OkRow r ∧ RowTexts T r

include hT in
omit [Arith F] [Lib F] in
theorem decodeTable_good {ch : List Xml} {rows t : List (GoMap (GoVal F))} (hc : XmlsTexts T ch)
    (hi : GoodTable T rows) (h : decodeTable ch rows = .ok t) : GoodTable T t := by
  refine bodyLoop_inv (T := T) (I := GoodTable T) ?_ ch hc hi (consumed_inv h)
  intro n as ch s s' ha hc hi h
  unfold tableHandle at h
  split_ifs at h
  rw [Option.some.injEq] at h
  split at h
  · simp at h
  · rename_i r hr
    simp only [Except.ok.injEq] at h
    subst h
    intro r' hr'
    rcases List.mem_append.1 hr' with hr' | hr'
    · exact hi r' hr'
    · rw [List.mem_singleton] at hr'
      subst hr'
      have key : ∀ (k : String) (v : GoVal F), r'[k]? = some v → ∃ s, v = GoVal.str s ∧ T s := by
        refine bodyLoop_inv (T := T) (I := fun r : GoMap (GoVal F) => ∀ (k : String) (v : GoVal F),
          r[k]? = some v → ∃ s, v = GoVal.str s ∧ T s) ?_ ch hc (by simp) (consumed_inv hr)
        intro n as ch s s' ha hc hi h k v hk
        simp only [rowHandle, Option.some.injEq, Except.ok.injEq] at h
        subst h
        rw [Std.ExtTreeMap.getElem?_insert] at hk
        split_ifs at hk
        · simp only [Option.some.injEq] at hk
          exact ⟨_, hk.symm, chardata_texts h0 hT hc⟩
        · exact hi k v hk
      have hm : ∀ c ∈ r'.toList, ∃ s, c.2 = GoVal.str s ∧ T s := by
        intro c hc
        exact key c.1 c.2 (Std.ExtTreeMap.mem_toList_iff_getElem?_eq_some.1 hc)
      refine ⟨fun c hc => ?_, fun c hc s hs => ?_⟩
      · obtain ⟨s, h, -⟩ := hm c hc
        exact ⟨s, h⟩
      · obtain ⟨s', h, h'⟩ := hm c hc
        rw [hs] at h
        cases h
        exact h'

def GoodMap (T : String → Prop) (m : MapValues F) : Prop := OkMap m ∧ MapTexts T m

include hT in
omit [Arith F] [Lib F] in
theorem decodeMap_good {as : Attrs} {ch : List Xml} {m : MapValues F} (ha : ∀ a ∈ as, T a.2) (hc : XmlsTexts T ch)
    (h : decodeMap as ch = .ok m) : GoodMap T m := by
  unfold decodeMap at h
  split at h
  · simp at h
  · rename_i m₁ h1
    have hm : GoodMap T m₁ := by
      refine attrLoop_inv (T := T) (I := GoodMap T) ?_ ha (by exact ⟨⟨by simp [OkDataType], by simp⟩, h0, by simp, by simp, by simp⟩) h1
      intro k v s s' hv hi h
      unfold mapAttr at h
      split_ifs at h <;> simp only [Except.ok.injEq] at h <;> subst h
      · exact ⟨hi.1, hi.2.1, by simpa using hv, hi.2.2.2⟩
      · exact ⟨⟨(ok_dataType v).1, hi.1.2⟩, by rw [(ok_dataType v).2]; exact hv, hi.2.2⟩
      · exact hi
    refine reflectLoop_inv (T := T) (I := GoodMap T) ?_ hc hm h
    intro n as ch s s' ha hc hi h
    unfold mapChild at h
    split_ifs at h
    · obtain ⟨p, h2, rfl⟩ := map_ok h
      have hp : T p.field ∧ T p.column := by
        refine attrLoop_inv (T := T) (I := fun p : FieldColumnPair => T p.field ∧ T p.column) ?_ ha ⟨h0, h0⟩ h2
        intro k v s s' hv hi h
        unfold pairAttr at h
        split_ifs at h <;> simp only [Except.ok.injEq] at h <;> subst h
        · exact ⟨hi.1, hv⟩
        · exact ⟨hv, hi.2⟩
        · exact hi
      refine ⟨hi.1, hi.2.1, hi.2.2.1, ?_, hi.2.2.2.2⟩
      intro q hq
      rcases List.mem_append.1 hq with hq | hq
      · exact hi.2.2.2.1 q hq
      · rw [List.mem_singleton] at hq; exact hq ▸ hp
    · obtain ⟨t, h2, rfl⟩ := map_ok h
      have ht := decodeTable_good h0 hT hc (rows := []) (by simp [GoodTable]) h2
      refine ⟨⟨hi.1.1, ?_⟩, hi.2.1, hi.2.2.1, hi.2.2.2.1, ?_⟩
      · intro q hq
        rcases List.mem_append.1 hq with hq | hq
        · exact hi.1.2 q hq
        · rw [List.mem_singleton] at hq
          subst hq
          exact fun r hr => (ht r hr).1
      · intro q hq
        rcases List.mem_append.1 hq with hq | hq
        · exact hi.2.2.2.2 q hq
        · rw [List.mem_singleton] at hq
          subst hq
          exact fun r hr => (ht r hr).2
    · simp only [Except.ok.injEq] at h
      exact h ▸ hi

def GoodExpr (T : String → Prop) (x : Expr F) : Prop := OkExpr x ∧ ExprTexts T x

omit h0 [Arith F] [Lib F] in
theorem ok_exprs : ∀ {xs : List (Expr F)}, (∀ x ∈ xs, GoodExpr T x) → OkExprs xs
  | [], _ => trivial
  | x :: xs, h => ⟨(h x (by simp)).1, ok_exprs fun y hy => h y (by simp [hy])⟩

include hT in
omit [Arith F] [Lib F] in
theorem leafExpr_good {n : String} {as : Attrs} {ch : List Xml} {x : Expr F} (ha : ∀ a ∈ as, T a.2)
    (hc : XmlsTexts T ch) (h : leafExpr n as ch = some (.ok x)) : GoodExpr T x := by
  unfold leafExpr at h
  split_ifs at h with h1 h2 h3 h4
  · rw [Option.some.injEq] at h
    obtain ⟨t, h1, rfl⟩ := map_ok h
    have : OkDataType t ∧ T (dataType t) := by
      refine attrLoop_inv (T := T) (I := fun t => OkDataType t ∧ T (dataType t)) ?_ ha (by exact ⟨by simp [OkDataType], h0⟩) h1
      intro k v s s' hv hi h
      simp only [Except.ok.injEq] at h
      subst h
      split_ifs
      · exact ⟨(ok_dataType v).1, by rw [(ok_dataType v).2]; exact hv⟩
      · exact hi
    refine ⟨this.1, ?_⟩
    rw [ExprTexts]; exact this.2
  · rw [Option.some.injEq] at h
    obtain ⟨f, h1, rfl⟩ := map_ok h
    refine ⟨trivial, ?_⟩
    rw [ExprTexts]
    refine attrLoop_inv (I := T) ?_ ha h0 h1
    intro k v s s' hv hi h
    simp only [Except.ok.injEq] at h
    subst h
    split_ifs
    · exact hv
    · exact hi
  · rw [Option.some.injEq] at h
    obtain ⟨m, h1, rfl⟩ := map_ok h
    have := decodeMap_good h0 hT ha hc h1
    refine ⟨this.1, ?_⟩
    rw [ExprTexts]; exact this.2
  · simp only [Option.some.injEq, Except.ok.injEq] at h
    subst h
    refine ⟨?_, by rw [ExprTexts]; trivial⟩
    show n ∈ _
    simpa [otherExpr, or_assoc] using h4

omit [Arith F] [Lib F] F fmt in
theorem functionAttr_good {as : Attrs} (ha : ∀ a ∈ as, T a.2) : T (functionAttr as) := by
  unfold functionAttr
  refine fold_inv (T := T) (I := T) ?_ ha h0
  intro s a hv hi
  split_ifs
  · exact hv
  · exact hi

omit [Arith F] [Lib F] in
include hT in
mutual
theorem applyItem_good : ∀ (x : Xml) {ps ps' : List (Expr F)} {b : Bool}, XmlTexts T x → (∀ p ∈ ps, GoodExpr T p) →
    applyItem x ps = .ok (ps', b) → ∀ p ∈ ps', GoodExpr T p
  | .text _ _, ps, ps', b, _, hi, e => by
    simp only [applyItem, Except.ok.injEq, Prod.mk.injEq] at e
    exact e.1 ▸ hi
  | .elem n as ch, ps, ps', b, hx, hi, e => by
    rw [applyItem] at e
    rw [XmlTexts] at hx
    split_ifs at e
    · simp only [Except.ok.injEq, Prod.mk.injEq] at e
      exact e.1 ▸ hi
    · split at e
      · simp at e
      · rename_i qs h1
        simp only [Except.ok.injEq, Prod.mk.injEq] at e
        have hq := applyBody_good ch (ps := []) hx.2 (by simp) (consumed_inv h1)
        rw [← e.1]
        intro p hp
        rcases List.mem_append.1 hp with hp | hp
        · exact hi p hp
        · rw [List.mem_singleton] at hp
          subst hp
          refine ⟨ok_exprs hq, ?_⟩
          rw [ExprTexts]
          exact ⟨functionAttr_good h0 hx.1, fun x hx => (hq x hx).2⟩
    · split at e
      · simp at e
      · rename_i p h1
        simp only [Except.ok.injEq, Prod.mk.injEq] at e
        rw [← e.1]
        intro q hq
        rcases List.mem_append.1 hq with hq | hq
        · exact hi q hq
        · rw [List.mem_singleton] at hq
          subst hq
          exact leafExpr_good h0 hT hx.1 hx.2 h1
      · split at e
        · simp at e
        · rename_i ps₁ b₁ h1
          simp only [Except.ok.injEq, Prod.mk.injEq] at e
          exact e.1 ▸ applyBody_good ch hx.2 hi h1
theorem applyBody_good : ∀ (xs : List Xml) {ps ps' : List (Expr F)} {b : Bool}, XmlsTexts T xs →
    (∀ p ∈ ps, GoodExpr T p) → applyBody xs ps = .ok (ps', b) → ∀ p ∈ ps', GoodExpr T p
  | [], ps, ps', b, _, hi, e => by
    simp only [applyBody, Except.ok.injEq, Prod.mk.injEq] at e
    exact e.1 ▸ hi
  | x :: xs, ps, ps', b, hx, hi, e => by
    rw [applyBody] at e
    rw [XmlsTexts] at hx
    split at e
    · simp at e
    · rename_i s₁ h1
      exact applyBody_good xs hx.2 (applyItem_good x hx.1 hi h1) e
    · rename_i s₁ h1
      simp only [Except.ok.injEq, Prod.mk.injEq] at e
      exact e.1 ▸ applyItem_good x hx.1 hi h1
end

include hT in
omit [Arith F] [Lib F] in
theorem decodeExpr_good {n : String} {as : Attrs} {ch : List Xml} {x : Expr F} (ha : ∀ a ∈ as, T a.2)
    (hc : XmlsTexts T ch) (h : decodeExpr n as ch = some (.ok x)) : GoodExpr T x := by
  unfold decodeExpr at h
  split_ifs at h
  · rw [Option.some.injEq] at h
    obtain ⟨xs, h1, rfl⟩ := map_ok h
    have hq := applyBody_good h0 hT ch (ps := []) hc (by simp) (consumed_inv h1)
    refine ⟨ok_exprs hq, ?_⟩
    rw [ExprTexts]
    exact ⟨functionAttr_good h0 ha, fun x hx => (hq x hx).2⟩
  · exact leafExpr_good h0 hT ha hc h

def GoodDerived (T : String → Prop) (d : DerivedField F) : Prop := OkDerived d ∧ DerivedTexts T d

include hT in
omit [Arith F] [Lib F] in
theorem decodeDerived_good {as : Attrs} {ch : List Xml} {d : DerivedField F} (ha : ∀ a ∈ as, T a.2)
    (hc : XmlsTexts T ch) (h : decodeDerived as ch = .ok d) : GoodDerived T d := by
  unfold decodeDerived at h
  split at h
  · simp at h
  · rename_i d₁ h1
    have hm : GoodDerived T d₁ := by
      refine attrLoop_inv (T := T) (I := GoodDerived T) ?_ ha
        (by exact ⟨⟨by simp [OkDataType], by simp [OkOpType], .inl rfl⟩, h0, h0, h0, by rw [ExprTexts]; trivial⟩) h1
      intro k v s s' hv hi h
      unfold derivedAttr at h
      split_ifs at h <;> simp only [Except.ok.injEq] at h <;> subst h
      · exact ⟨⟨(ok_dataType v).1, hi.1.2⟩, hi.2.1, by rw [(ok_dataType v).2]; exact hv, hi.2.2.2⟩
      · exact ⟨hi.1, hv, hi.2.2⟩
      · exact ⟨⟨hi.1.1, (ok_opType v).1, hi.1.2.2⟩, hi.2.1, hi.2.2.1, by rw [(ok_opType v).2]; exact hv, hi.2.2.2.2⟩
      · exact hi
    refine bodyLoop_inv (T := T) (I := GoodDerived T) ?_ ch hc hm (consumed_inv h)
    intro n as ch s s' ha hc hi h
    unfold derivedHandle at h
    split_ifs at h
    · simp only [Option.some.injEq, Except.ok.injEq] at h
      exact h ▸ hi
    · rw [Option.map_eq_some_iff] at h
      obtain ⟨r, h2, h3⟩ := h
      obtain ⟨x, rfl, rfl⟩ := map_ok h3
      have := decodeExpr_good h0 hT ha hc h2
      exact ⟨⟨hi.1.1, hi.1.2.1, .inr this.1⟩, hi.2.1, hi.2.2.1, hi.2.2.2.1, this.2⟩

omit h0 in
theorem append_good {α : Type} {I : α → Prop} {l : List α} {a : α} (hl : ∀ x ∈ l, I x) (ha : I a) : ∀ x ∈ l ++ [a], I x := by
  intro x hx
  rcases List.mem_append.1 hx with hx | hx
  · exact hl x hx
  · rw [List.mem_singleton] at hx; exact hx ▸ ha

include hT in
omit [Arith F] [Lib F] in
theorem localChild_good {n : String} {as : Attrs} {ch : List Xml} {ds ds' : List (DerivedField F)} (ha : ∀ a ∈ as, T a.2)
    (hc : XmlsTexts T ch) (hi : ∀ d ∈ ds, GoodDerived T d) (h : localChild n as ch ds = .ok ds') :
    ∀ d ∈ ds', GoodDerived T d := by
  unfold localChild at h
  split_ifs at h
  · obtain ⟨d, h1, rfl⟩ := map_ok h
    exact append_good hi (decodeDerived_good h0 hT ha hc h1)
  · simp only [Except.ok.injEq] at h
    exact h ▸ hi

include hT in
omit [Arith F] [Lib F] in
theorem local_good {ch : List Xml} {ds ds' : List (DerivedField F)} (hc : XmlsTexts T ch)
    (hi : ∀ d ∈ ds, GoodDerived T d) (h : reflectLoop localChild ch ds = .ok ds') : ∀ d ∈ ds', GoodDerived T d :=
  reflectLoop_inv (T := T) (I := fun ds : List (DerivedField F) => ∀ d ∈ ds, GoodDerived T d)
    (fun _ _ _ _ _ ha hc hi h => localChild_good h0 hT ha hc hi h) hc hi h

/-! ## Schema, outputs, targets, verification -/

def GoodField (T : String → Prop) (m : MiningField) : Prop := OkMiningField m ∧ MiningFieldTexts T m

theorem schema_good {ch : List Xml} {fs fs' : List MiningField} (hc : XmlsTexts T ch)
    (hi : ∀ f ∈ fs, GoodField T f) (h : reflectLoop (schemaChild F) ch fs = .ok fs') : ∀ f ∈ fs', GoodField T f := by
  refine reflectLoop_inv (T := T) (I := fun fs : List MiningField => ∀ d ∈ fs, GoodField T d) ?_ hc hi h
  intro n as ch s s' ha hc hi h
  unfold schemaChild at h
  split_ifs at h
  · obtain ⟨f, h1, rfl⟩ := map_ok h
    refine append_good hi ?_
    refine attrLoop_inv (T := T) (I := GoodField T) ?_ ha
      (by exact ⟨by simp [OkMiningField, OkUsage], h0, h0, h0, h0, by simp⟩) h1
    intro k v s s' hv hi h
    obtain ⟨h1, h2, h3, h4, h5, h6⟩ := hi
    unfold miningFieldAttr at h
    split_ifs at h
    · obtain ⟨x, -, rfl⟩ := map_ok h; exact ⟨h1, h2, h3, h4, h5, h6⟩
    all_goals simp only [Except.ok.injEq] at h; subst h
    · exact ⟨h1, h2, h3, h4, hv, h6⟩
    · exact ⟨h1, h2, h3, h4, h5, by simpa using hv⟩
    · exact ⟨h1, hv, h3, h4, h5, h6⟩
    · exact ⟨h1, h2, h3, hv, h5, h6⟩
    · exact ⟨(ok_usage v).1, h2, by rw [(ok_usage v).2]; exact hv, h4, h5, h6⟩
    · exact ⟨h1, h2, h3, h4, h5, h6⟩
  · simp only [Except.ok.injEq] at h
    exact h ▸ hi

def GoodOutput (T : String → Prop) (f : OutputField) : Prop := OkOutput f ∧ OutputTexts T f

omit [Arith F] [Lib F] F fmt in
theorem outputs_good {ch : List Xml} {fs fs' : List OutputField} (hc : XmlsTexts T ch)
    (hi : ∀ f ∈ fs, GoodOutput T f) (h : reflectLoop outputChild ch fs = .ok fs') : ∀ f ∈ fs', GoodOutput T f := by
  refine reflectLoop_inv (T := T) (I := fun fs : List OutputField => ∀ d ∈ fs, GoodOutput T d) ?_ hc hi h
  intro n as ch s s' ha hc hi h
  unfold outputChild at h
  split_ifs at h
  · obtain ⟨f, h1, rfl⟩ := map_ok h
    refine append_good hi ?_
    refine attrLoop_inv (T := T) (I := GoodOutput T) ?_ ha (by exact ⟨trivial, h0, h0, h0⟩) h1
    intro k v s s' hv hi h
    obtain ⟨h1, h2, h3, h4⟩ := hi
    unfold outputAttr at h
    split_ifs at h
    · obtain ⟨x, -, rfl⟩ := map_ok h; exact ⟨h1, h2, h3, h4⟩
    all_goals simp only [Except.ok.injEq] at h; subst h
    · exact ⟨(ok_feature v).1, h2, by rw [(ok_feature v).2]; exact hv, h4⟩
    · exact ⟨h1, hv, h3, h4⟩
    · exact ⟨h1, h2, h3, hv⟩
    · exact ⟨h1, h2, h3, h4⟩
  · simp only [Except.ok.injEq] at h
    exact h ▸ hi

include hp in
theorem targets_good {ch : List Xml} {ts ts' : List (Target F)} (hc : XmlsTexts T ch)
    (hi : ∀ t ∈ ts, OkTarget fmt t ∧ T t.field) (h : reflectLoop targetsChild ch ts = .ok ts') :
    ∀ t ∈ ts', OkTarget fmt t ∧ T t.field := by
  refine reflectLoop_inv (T := T) (I := fun fs : List (Target F) => ∀ t ∈ fs, OkTarget fmt t ∧ T t.field) ?_ hc hi h
  intro n as ch s s' ha hc hi h
  unfold targetsChild at h
  split_ifs at h
  · obtain ⟨f, h1, rfl⟩ := map_ok h
    refine append_good hi ⟨⟨fun x _ => hp x, fun x _ => hp x⟩, ?_⟩
    refine attrLoop_inv (T := T) (I := fun t : Target F => T t.field) ?_ ha h0 h1
    intro k v s s' hv hi h
    unfold targetAttr at h
    split_ifs at h
    · simp only [Except.ok.injEq] at h; subst h; exact hv
    · obtain ⟨x, -, rfl⟩ := map_ok h; exact hi
    · obtain ⟨x, -, rfl⟩ := map_ok h; exact hi
    · obtain ⟨x, -, rfl⟩ := map_ok h; exact hi
    · simp only [Except.ok.injEq] at h; subst h; exact hi
  · simp only [Except.ok.injEq] at h
    exact h ▸ hi

def GoodVerification (fmt : F → String) (T : String → Prop) (v : ModelVerification F) : Prop :=
  OkVerification fmt v ∧ VerificationTexts T v

include hp hT in
theorem decodeVerification_good {as : Attrs} {ch : List Xml} {m m' : Option (ModelVerification F)}
    (hc : XmlsTexts T ch) (hi : ∀ v ∈ m, GoodVerification fmt T v) (h : decodeVerification as ch m = .ok m') :
    ∀ v ∈ m', GoodVerification fmt T v := by
  unfold decodeVerification at h
  split at h
  · simp at h
  · obtain ⟨v, h1, rfl⟩ := map_ok h
    simp only [Option.mem_def, Option.some.injEq, forall_eq']
    refine reflectLoop_inv (T := T) (I := GoodVerification fmt T) ?_ hc ?_ h1
    · intro n as ch s s' ha hc hi h
      unfold verificationChild at h
      split_ifs at h
      · obtain ⟨t, h2, rfl⟩ := map_ok h
        have := decodeTable_good h0 hT hc (fun r hr => ⟨hi.1.2 r hr, hi.2.2 r hr⟩) h2
        exact ⟨⟨hi.1.1, fun r hr => (this r hr).1⟩, hi.2.1, fun r hr => (this r hr).2⟩
      · obtain ⟨fs, h2, rfl⟩ := map_ok h
        refine ⟨⟨fun f _ x _ => hp x, hi.1.2⟩, ?_, hi.2.2⟩
        refine reflectLoop_inv (T := T) (I := fun fs : List (VerificationField F) => ∀ f ∈ fs, T f.field ∧ T f.column)
          ?_ hc hi.2.1 h2
        intro n as ch s s' ha hc hi h
        unfold verificationFieldsChild at h
        split_ifs at h
        · obtain ⟨f, h1, rfl⟩ := map_ok h
          refine append_good hi ?_
          refine attrLoop_inv (T := T) (I := fun t : VerificationField F => T t.field ∧ T t.column) ?_ ha ⟨h0, h0⟩ h1
          intro k v s s' hv hi h
          unfold verificationAttr at h
          split_ifs at h
          · simp only [Except.ok.injEq] at h; subst h; exact ⟨hv, hi.2⟩
          · simp only [Except.ok.injEq] at h; subst h; exact ⟨hi.1, hv⟩
          · obtain ⟨x, -, rfl⟩ := map_ok h; exact hi
          · obtain ⟨x, -, rfl⟩ := map_ok h; exact hi
          · simp only [Except.ok.injEq] at h; subst h; exact hi
        · simp only [Except.ok.injEq] at h
          exact h ▸ hi
      · simp only [Except.ok.injEq] at h
        exact h ▸ hi
    · cases m with
      | none => exact ⟨⟨by simp, by simp [OkTable]⟩, by simp, by simp⟩
      | some v => exact hi v rfl

/-! ## Models -/

variable [Reflect]

def GoodTree (fmt : F → String) (T : String → Prop) (d : TreeDoc F) : Prop := OkTree fmt d ∧ TreeTexts T d

include hp hT in
theorem decodeTree_good {as : Attrs} {ch : List Xml} {d : TreeDoc F} (ha : ∀ a ∈ as, T a.2) (hc : XmlsTexts T ch)
    (h : decodeTree as ch = .ok d) : GoodTree fmt T d := by
  unfold decodeTree at h
  split at h
  · simp at h
  · rename_i d₁ h1
    have hd : GoodTree fmt T d₁ := by
      refine attrLoop_inv (T := T) (I := GoodTree fmt T) ?_ ha ?_ h1
      · intro k v s s' hv hi h
        obtain ⟨⟨h1, h2, h3, h4, h5⟩, h6, h7, h8, h9⟩ := hi
        unfold treeAttr at h
        split_ifs at h
        · simp only [Except.ok.injEq] at h; subst h
          exact ⟨⟨(ok_miningFunction v).1, h2, h3, h4, h5⟩, by rw [(ok_miningFunction v).2]; exact hv, h7, h8, h9⟩
        · obtain ⟨x, -, rfl⟩ := map_ok h; exact ⟨⟨h1, h2, h3, h4, h5⟩, h6, h7, h8, h9⟩
        · obtain ⟨x, -, rfl⟩ := map_ok h; exact ⟨⟨h1, hp _, h3, h4, h5⟩, h6, h7, h8, h9⟩
        · simp only [Except.ok.injEq] at h; subst h
          exact ⟨⟨h1, h2, (ok_missing v).1, h4, h5⟩, h6, by rw [(ok_missing v).2]; exact hv, h8, h9⟩
        · simp only [Except.ok.injEq] at h; subst h
          exact ⟨⟨h1, h2, h3, (ok_noTrue v).1, h5⟩, h6, h7, by rw [(ok_noTrue v).2]; exact hv, h9⟩
        · simp only [Except.ok.injEq] at h; subst h; exact ⟨⟨h1, h2, h3, h4, h5⟩, h6, h7, h8, h9⟩
      · have := zero_good (F := F) h0 hp
        exact ⟨⟨by simp [OkMiningFunction, TreeDoc.zero], hp _, by simp [OkMissing, TreeDoc.zero],
          by simp [OkNoTrue, TreeDoc.zero], by simp [TreeDoc.zero], by simp [TreeDoc.zero], by simp [TreeDoc.zero], this.1⟩,
          h0, h0, h0, by simp [TreeDoc.zero], by simp [TreeDoc.zero], by simp [TreeDoc.zero], this.2⟩
    refine reflectLoop_inv (T := T) (I := GoodTree fmt T) ?_ hc hd h
    intro n as ch s s' ha hc hi h
    have hi' := hi
    obtain ⟨⟨h1, h2, h3, h4, h5, h6, h7, h8⟩, k1, k2, k3, k4, k5, k6, k7⟩ := hi
    unfold treeChild at h
    split_ifs at h
    · obtain ⟨l, h9, rfl⟩ := map_ok h
      have := local_good h0 hT hc (fun d hd => ⟨h5 d hd, k4 d hd⟩) h9
      exact ⟨⟨h1, h2, h3, h4, fun d hd => (this d hd).1, h6, h7, h8⟩, k1, k2, k3, fun d hd => (this d hd).2, k5, k6, k7⟩
    · obtain ⟨l, h9, rfl⟩ := map_ok h
      have := schema_good h0 hc (fun d hd => ⟨h6 d hd, k5 d hd⟩) h9
      exact ⟨⟨h1, h2, h3, h4, h5, fun d hd => (this d hd).1, h7, h8⟩, k1, k2, k3, k4, fun d hd => (this d hd).2, k6, k7⟩
    · obtain ⟨l, -, rfl⟩ := map_ok h; exact hi'
    · obtain ⟨l, h9, rfl⟩ := map_ok h
      have := decodeVerification_good h0 hT hp hc (fun d hd => ⟨h7 d hd, k6 d hd⟩) h9
      exact ⟨⟨h1, h2, h3, h4, h5, h6, fun d hd => (this d hd).1, h8⟩, k1, k2, k3, k4, k5, fun d hd => (this d hd).2, k7⟩
    · obtain ⟨l, h9, rfl⟩ := map_ok h
      have := decodeNode_good h0 hp ha hc ⟨h8, k7⟩ h9
      exact ⟨⟨h1, h2, h3, h4, h5, h6, h7, this.1⟩, k1, k2, k3, k4, k5, k6, this.2⟩
    · obtain ⟨l, -, rfl⟩ := map_ok h; exact hi'
    · obtain ⟨l, -, rfl⟩ := map_ok h; exact hi'
    · simp only [Except.ok.injEq] at h; exact h ▸ hi'

def GoodRegression (fmt : F → String) (T : String → Prop) (d : RegressionDoc F) : Prop :=
  OkRegression fmt d ∧ RegressionTexts T d

include hp in
omit [Reflect] in
theorem decodeRegTable_good {as : Attrs} {ch : List Xml} {t : RegressionTable F} (ha : ∀ a ∈ as, T a.2)
    (hc : XmlsTexts T ch) (h : decodeRegTable as ch = .ok t) : OkRegTable fmt t ∧ RegTableTexts T t := by
  unfold decodeRegTable at h
  split at h
  · simp at h
  · rename_i t₁ h1
    have ht : OkRegTable fmt t₁ ∧ RegTableTexts T t₁ := by
      refine attrLoop_inv (T := T) (I := fun t => OkRegTable fmt t ∧ RegTableTexts T t) ?_ ha
        (by exact ⟨⟨hp _, by simp⟩, h0, by simp⟩) h1
      intro k v s s' hv hi h
      unfold regTableAttr at h
      split_ifs at h
      · obtain ⟨x, -, rfl⟩ := map_ok h; exact ⟨⟨hp _, hi.1.2⟩, hi.2⟩
      · simp only [Except.ok.injEq] at h; subst h; exact ⟨hi.1, hv, hi.2.2⟩
      · simp only [Except.ok.injEq] at h; exact h ▸ hi
    refine reflectLoop_inv (T := T) (I := fun t => OkRegTable fmt t ∧ RegTableTexts T t) ?_ hc ht h
    intro n as ch s s' ha hc hi h
    unfold regTableChild at h
    split_ifs at h
    · obtain ⟨p, h2, rfl⟩ := map_ok h
      have : (-2 ^ 63 ≤ p.exponent ∧ p.exponent < 2 ^ 63) ∧ T p.name := by
        refine attrLoop_inv (T := T) (I := fun p : NumericPredictor F =>
          (-2 ^ 63 ≤ p.exponent ∧ p.exponent < 2 ^ 63) ∧ T p.name) ?_ ha (by exact ⟨⟨by simp, by simp⟩, h0⟩) h2
        intro k v s s' hv hi h
        unfold predictorAttr at h
        split_ifs at h
        · simp only [Except.ok.injEq] at h; subst h; exact ⟨hi.1, hv⟩
        · obtain ⟨x, -, rfl⟩ := map_ok h; exact hi
        · obtain ⟨x, hx, rfl⟩ := map_ok h; exact ⟨attrInt_range hx, hi.2⟩
        · simp only [Except.ok.injEq] at h; exact h ▸ hi
      refine ⟨⟨hi.1.1, append_good hi.1.2 ⟨hp _, this.1⟩⟩, hi.2.1, append_good hi.2.2 this.2⟩
    · simp only [Except.ok.injEq] at h; exact h ▸ hi

include hp hT in
theorem decodeRegression_good {as : Attrs} {ch : List Xml} {d : RegressionDoc F} (ha : ∀ a ∈ as, T a.2)
    (hc : XmlsTexts T ch) (h : decodeRegression as ch = .ok d) : GoodRegression fmt T d := by
  unfold decodeRegression at h
  split at h
  · simp at h
  · rename_i d₁ h1
    have hd : GoodRegression fmt T d₁ := by
      refine attrLoop_inv (T := T) (I := GoodRegression fmt T) ?_ ha
        (by exact ⟨⟨by simp [OkMiningFunction], trivial, by simp, by simp, by simp⟩, h0, h0, by simp, by simp, by simp⟩) h1
      intro k v s s' hv hi h
      obtain ⟨⟨h1, h2, h3⟩, h6, h7, h8⟩ := hi
      unfold regressionAttr at h
      split_ifs at h
      · simp only [Except.ok.injEq] at h; subst h
        exact ⟨⟨(ok_miningFunction v).1, h2, h3⟩, by rw [(ok_miningFunction v).2]; exact hv, h7, h8⟩
      · obtain ⟨x, -, rfl⟩ := map_ok h; exact ⟨⟨h1, h2, h3⟩, h6, h7, h8⟩
      · simp only [Except.ok.injEq] at h; subst h
        exact ⟨⟨h1, (ok_normalization v).1, h3⟩, h6, by rw [(ok_normalization v).2]; exact hv, h8⟩
      · simp only [Except.ok.injEq] at h; subst h; exact ⟨⟨h1, h2, h3⟩, h6, h7, h8⟩
    refine reflectLoop_inv (T := T) (I := GoodRegression fmt T) ?_ hc hd h
    intro n as ch s s' ha hc hi h
    have hi' := hi
    obtain ⟨⟨h1, h2, h3, h4, h5⟩, k1, k2, k3, k4, k5⟩ := hi
    unfold regressionChild at h
    split_ifs at h
    · obtain ⟨l, -, rfl⟩ := map_ok h; exact hi'
    · obtain ⟨l, -, rfl⟩ := map_ok h; exact hi'
    · obtain ⟨t, h9, rfl⟩ := map_ok h
      have := decodeRegTable_good h0 hp ha hc h9
      exact ⟨⟨h1, h2, h3, append_good h4 this.1, h5⟩, k1, k2, k3, append_good k4 this.2, k5⟩
    · obtain ⟨l, -, rfl⟩ := map_ok h; exact hi'
    · obtain ⟨l, h9, rfl⟩ := map_ok h
      have := decodeVerification_good h0 hT hp hc (fun d hd => ⟨h5 d hd, k5 d hd⟩) h9
      exact ⟨⟨h1, h2, h3, h4, fun d hd => (this d hd).1⟩, k1, k2, k3, k4, fun d hd => (this d hd).2⟩
    · obtain ⟨l, h9, rfl⟩ := map_ok h
      have := outputs_good h0 hc (fun d hd => ⟨h3 d hd, k3 d hd⟩) h9
      exact ⟨⟨h1, h2, fun d hd => (this d hd).1, h4, h5⟩, k1, k2, fun d hd => (this d hd).2, k4, k5⟩
    · obtain ⟨l, -, rfl⟩ := map_ok h; exact hi'
    · simp only [Except.ok.injEq] at h; exact h ▸ hi'

def GoodModel (fmt : F → String) (T : String → Prop) (m : ModelElem F) : Prop := OkModel fmt m ∧ ModelTexts T m
def GoodSeg (fmt : F → String) (T : String → Prop) (s : SegDoc F) : Prop := OkSeg fmt s ∧ SegTexts T s
def GoodHead (fmt : F → String) (T : String → Prop) (h : MiningHead F) : Prop := OkHead fmt h ∧ HeadTexts T h

omit h0 [Arith F] [Reflect] in
theorem ok_models : ∀ {ms : List (ModelElem F)}, (∀ m ∈ ms, GoodModel fmt T m) → OkModels fmt ms ∧ ModelsTexts T ms
  | [], _ => ⟨trivial, trivial⟩
  | p :: ps, h =>
    have h1 := h p (by simp)
    have h2 := ok_models (ms := ps) fun q hq => h q (by simp [hq])
    ⟨⟨h1.1, h2.1⟩, ⟨h1.2, h2.2⟩⟩

omit h0 [Arith F] [Reflect] in
theorem ok_segs : ∀ {ss : List (SegDoc F)}, (∀ s ∈ ss, GoodSeg fmt T s) → OkSegs fmt ss ∧ SegsTexts T ss
  | [], _ => ⟨trivial, trivial⟩
  | p :: ps, h =>
    have h1 := h p (by simp)
    have h2 := ok_segs (ss := ps) fun q hq => h q (by simp [hq])
    ⟨⟨h1.1, h2.1⟩, ⟨h1.2, h2.2⟩⟩

include hp hT in
theorem leafModel_good {n : String} {as : Attrs} {ch : List Xml} {m : ModelElem F} (ha : ∀ a ∈ as, T a.2)
    (hc : XmlsTexts T ch) (h : leafModel n as ch = some (.ok m)) : GoodModel fmt T m := by
  unfold leafModel at h
  split_ifs at h with h1 h2 h3
  · rw [Option.some.injEq] at h
    obtain ⟨d, h1, rfl⟩ := map_ok h
    exact decodeTree_good h0 hT hp ha hc h1
  · rw [Option.some.injEq] at h
    obtain ⟨d, h1, rfl⟩ := map_ok h
    exact decodeRegression_good h0 hT hp ha hc h1
  · rw [Option.some.injEq] at h
    obtain ⟨d, -, rfl⟩ := map_ok h
    refine ⟨?_, trivial⟩
    show n ∈ modelKinds ∧ n ∉ _
    have key : ∀ k ∈ otherModels, k ∈ modelKinds ∧ k ∉ ["TreeModel", "RegressionModel", "MiningModel"] := by decide
    exact key n h3

theorem miningAttr_good {as : Attrs} {h h' : MiningHead F} (ha : ∀ a ∈ as, T a.2) (hi : GoodHead fmt T h)
    (he : attrLoop miningAttr as h = .ok h') : GoodHead fmt T h' := by
  refine attrLoop_inv (T := T) (I := GoodHead fmt T) ?_ ha hi he
  intro k v s s' hv hi h
  unfold miningAttr at h
  split_ifs at h
  · simp only [Except.ok.injEq] at h; subst h
    exact ⟨⟨(ok_miningFunction v).1, hi.1.2⟩, by rw [(ok_miningFunction v).2]; exact hv, hi.2.2⟩
  · obtain ⟨x, -, rfl⟩ := map_ok h; exact hi
  · simp only [Except.ok.injEq] at h; exact h ▸ hi

theorem headZero_good : GoodHead fmt T (MiningHead.zero : MiningHead F) :=
  ⟨⟨by simp [OkMiningFunction, MiningHead.zero], trivial, by simp [MiningHead.zero], by simp [MiningHead.zero],
    by simp [MiningHead.zero], by simp [MiningHead.zero], by simp [MiningHead.zero]⟩,
    h0, h0, by simp [MiningHead.zero], by simp [MiningHead.zero],
    by simp [MiningHead.zero], by simp [MiningHead.zero], by simp [MiningHead.zero]⟩

include hp hT in
theorem miningChild_good {n : String} {as : Attrs} {ch : List Xml} {h h' : MiningHead F}
    (hc : XmlsTexts T ch) (hi : GoodHead fmt T h) (he : miningChild n as ch h = .ok h') : GoodHead fmt T h' := by
  have hi' := hi
  obtain ⟨⟨h1, h2, h3, h4, h5, h6, h7⟩, k1, k2, k3, k4, k5, k6, k7⟩ := hi
  unfold miningChild at he
  split_ifs at he
  · obtain ⟨l, h9, rfl⟩ := map_ok he
    have := decodeVerification_good h0 hT hp hc (fun d hd => ⟨h3 d hd, k3 d hd⟩) h9
    exact ⟨⟨h1, h2, fun d hd => (this d hd).1, h4, h5, h6, h7⟩, k1, k2, fun d hd => (this d hd).2, k4, k5, k6, k7⟩
  · obtain ⟨l, h9, rfl⟩ := map_ok he
    have := schema_good h0 hc (fun d hd => ⟨h4 d hd, k4 d hd⟩) h9
    exact ⟨⟨h1, h2, h3, fun d hd => (this d hd).1, h5, h6, h7⟩, k1, k2, k3, fun d hd => (this d hd).2, k5, k6, k7⟩
  · obtain ⟨l, h9, rfl⟩ := map_ok he
    have := local_good h0 hT hc (fun d hd => ⟨h5 d hd, k5 d hd⟩) h9
    exact ⟨⟨h1, h2, h3, h4, fun d hd => (this d hd).1, h6, h7⟩, k1, k2, k3, k4, fun d hd => (this d hd).2, k6, k7⟩
  · obtain ⟨l, h9, rfl⟩ := map_ok he
    have := outputs_good h0 hc (fun d hd => ⟨h6 d hd, k6 d hd⟩) h9
    exact ⟨⟨h1, h2, h3, h4, h5, fun d hd => (this d hd).1, h7⟩, k1, k2, k3, k4, k5, fun d hd => (this d hd).2, k7⟩
  · obtain ⟨l, h9, rfl⟩ := map_ok he
    have := targets_good h0 hp hc (fun d hd => ⟨h7 d hd, k7 d hd⟩) h9
    exact ⟨⟨h1, h2, h3, h4, h5, h6, fun d hd => (this d hd).1⟩, k1, k2, k3, k4, k5, k6, fun d hd => (this d hd).2⟩
  · simp only [Except.ok.injEq] at he; exact he ▸ hi'

omit h0 F [Arith F] [Lib F] [Reflect] fmt in
theorem methodAttr_good {as : Attrs} {m : MultipleModelMethod} (ha : ∀ a ∈ as, T a.2)
    (hi : OkMethod m ∧ T (multipleModelMethod m)) :
    OkMethod (methodAttr as m) ∧ T (multipleModelMethod (methodAttr as m)) := by
  unfold methodAttr
  refine fold_inv (T := T) (I := fun m => OkMethod m ∧ T (multipleModelMethod m)) ?_ ha hi
  intro s a hv hi
  split_ifs
  · exact ⟨(ok_method _).1, by rw [(ok_method _).2]; exact hv⟩
  · exact hi

omit F [Arith F] [Lib F] [Reflect] fmt in
theorem segmentId_good {as : Attrs} (ha : ∀ a ∈ as, T a.2) : T (segmentId as) := by
  unfold segmentId
  refine fold_inv (T := T) (I := T) ?_ ha h0
  intro s a hv hi
  split_ifs
  · exact hv
  · exact hi

include hp hT in
mutual
theorem miningItem_good : ∀ (c : Xml) {x x' : MiningHead F × List (SegDoc F)}, XmlTexts T c →
    (GoodHead fmt T x.1 ∧ ∀ s ∈ x.2, GoodSeg fmt T s) → miningItem c x = .ok x' →
    GoodHead fmt T x'.1 ∧ ∀ s ∈ x'.2, GoodSeg fmt T s
  | .text _ _, x, x', _, hi, e => by
    simp only [miningItem, Except.ok.injEq] at e
    exact e ▸ hi
  | .elem n as ch, (h, segs), x', hx, hi, e => by
    rw [miningItem] at e
    rw [XmlTexts] at hx
    split_ifs at e
    · split at e
      · simp at e
      · rename_i segs' h1
        simp only [Except.ok.injEq] at e
        subst e
        have hm := methodAttr_good (T := T) (m := h.method) hx.1 ⟨hi.1.1.2.1, hi.1.2.2.1⟩
        exact ⟨⟨⟨hi.1.1.1, hm.1, hi.1.1.2.2⟩, hi.1.2.1, hm.2, hi.1.2.2.2⟩, segmentationBody_good ch hx.2 hi.2 h1⟩
    · split at e
      · simp at e
      · rename_i h' h1
        simp only [Except.ok.injEq] at e
        subst e
        exact ⟨miningChild_good h0 hT hp hx.2 hi.1 h1, hi.2⟩
theorem miningBody_good : ∀ (xs : List Xml) {x x' : MiningHead F × List (SegDoc F)}, XmlsTexts T xs →
    (GoodHead fmt T x.1 ∧ ∀ s ∈ x.2, GoodSeg fmt T s) → miningBody xs x = .ok x' →
    GoodHead fmt T x'.1 ∧ ∀ s ∈ x'.2, GoodSeg fmt T s
  | [], x, x', _, hi, e => by
    simp only [miningBody, Except.ok.injEq] at e
    exact e ▸ hi
  | c :: cs, x, x', hx, hi, e => by
    rw [miningBody] at e
    rw [XmlsTexts] at hx
    split at e
    · simp at e
    · rename_i x₁ h1
      exact miningBody_good cs hx.2 (miningItem_good c hx.1 hi h1) e
theorem segmentationItem_good : ∀ (c : Xml) {x x' : List (SegDoc F)}, XmlTexts T c →
    (∀ s ∈ x, GoodSeg fmt T s) → segmentationItem c x = .ok x' → ∀ s ∈ x', GoodSeg fmt T s
  | .text _ _, x, x', _, hi, e => by
    simp only [segmentationItem, Except.ok.injEq] at e
    exact e ▸ hi
  | .elem n as ch, x, x', hx, hi, e => by
    rw [segmentationItem] at e
    rw [XmlTexts] at hx
    split_ifs at e
    · split at e
      · simp at e
      · rename_i ps ms h1
        simp only [Except.ok.injEq] at e
        subst e
        have := segmentBody_good ch (x := ([], [])) hx.2 ⟨by simp, by simp⟩ (consumed_inv h1)
        have h2 := ok_preds this.1
        have h3 := ok_models this.2
        refine append_good hi ⟨⟨h2.1, h3.1⟩, ⟨segmentId_good h0 hx.1, h2.2, h3.2⟩⟩
    · simp only [Except.ok.injEq] at e
      exact e ▸ hi
theorem segmentationBody_good : ∀ (xs : List Xml) {x x' : List (SegDoc F)}, XmlsTexts T xs →
    (∀ s ∈ x, GoodSeg fmt T s) → segmentationBody xs x = .ok x' → ∀ s ∈ x', GoodSeg fmt T s
  | [], x, x', _, hi, e => by
    simp only [segmentationBody, Except.ok.injEq] at e
    exact e ▸ hi
  | c :: cs, x, x', hx, hi, e => by
    rw [segmentationBody] at e
    rw [XmlsTexts] at hx
    split at e
    · simp at e
    · rename_i x₁ h1
      exact segmentationBody_good cs hx.2 (segmentationItem_good c hx.1 hi h1) e
theorem segmentItem_good : ∀ (c : Xml) {x x' : List (Pred F) × List (ModelElem F)} {b : Bool}, XmlTexts T c →
    ((∀ p ∈ x.1, GoodPred T p) ∧ ∀ m ∈ x.2, GoodModel fmt T m) → segmentItem c x = .ok (x', b) →
    (∀ p ∈ x'.1, GoodPred T p) ∧ ∀ m ∈ x'.2, GoodModel fmt T m
  | .text _ _, x, x', b, _, hi, e => by
    simp only [segmentItem, Except.ok.injEq, Prod.mk.injEq] at e
    exact e.1 ▸ hi
  | .elem n as ch, (ps, ms), x', b, hx, hi, e => by
    rw [segmentItem] at e
    rw [XmlTexts] at hx
    split at e
    · simp at e
    · rename_i p h1
      simp only [Except.ok.injEq, Prod.mk.injEq] at e
      obtain ⟨rfl, -⟩ := e
      exact ⟨append_good hi.1 (decodePred_good h0 hx.1 hx.2 h1), hi.2⟩
    · split_ifs at e
      · split at e
        · simp at e
        · rename_i h h1
          split at e
          · simp at e
          · rename_i h' segs h2
            simp only [Except.ok.injEq, Prod.mk.injEq] at e
            obtain ⟨rfl, -⟩ := e
            have := miningBody_good ch (x := (h, [])) hx.2
              ⟨miningAttr_good h0 hx.1 (headZero_good h0) h1, by simp⟩ h2
            have h3 := ok_segs this.2
            exact ⟨hi.1, append_good hi.2 ⟨⟨this.1.1, h3.1⟩, ⟨this.1.2, h3.2⟩⟩⟩
      · split at e
        · simp at e
        · rename_i m h1
          simp only [Except.ok.injEq, Prod.mk.injEq] at e
          obtain ⟨rfl, -⟩ := e
          exact ⟨hi.1, append_good hi.2 (leafModel_good h0 hT hp hx.1 hx.2 h1)⟩
        · split at e
          · simp at e
          · rename_i x₁ b₁ h1
            simp only [Except.ok.injEq, Prod.mk.injEq] at e
            obtain ⟨rfl, -⟩ := e
            exact segmentBody_good ch hx.2 hi h1
theorem segmentBody_good : ∀ (xs : List Xml) {x x' : List (Pred F) × List (ModelElem F)} {b : Bool}, XmlsTexts T xs →
    ((∀ p ∈ x.1, GoodPred T p) ∧ ∀ m ∈ x.2, GoodModel fmt T m) → segmentBody xs x = .ok (x', b) →
    (∀ p ∈ x'.1, GoodPred T p) ∧ ∀ m ∈ x'.2, GoodModel fmt T m
  | [], x, x', b, _, hi, e => by
    simp only [segmentBody, Except.ok.injEq, Prod.mk.injEq] at e
    exact e.1 ▸ hi
  | c :: cs, x, x', b, hx, hi, e => by
    rw [segmentBody] at e
    rw [XmlsTexts] at hx
    split at e
    · simp at e
    · rename_i x₁ h1
      exact segmentBody_good cs hx.2 (segmentItem_good c hx.1 hi h1) e
    · rename_i x₁ h1
      simp only [Except.ok.injEq, Prod.mk.injEq] at e
      exact e.1 ▸ segmentItem_good c hx.1 hi h1
end

include hp hT in
theorem decodeModel_good {n : String} {as : Attrs} {ch : List Xml} {m : ModelElem F} (ha : ∀ a ∈ as, T a.2)
    (hc : XmlsTexts T ch) (h : decodeModel n as ch = some (.ok m)) : GoodModel fmt T m := by
  unfold decodeModel at h
  split_ifs at h
  · rw [Option.some.injEq] at h
    unfold decodeMining at h
    split at h
    · simp at h
    · rename_i hd h1
      obtain ⟨r, h2, rfl⟩ := map_ok h
      have := miningBody_good h0 hT hp ch (x := (hd, [])) hc ⟨miningAttr_good h0 ha (headZero_good h0) h1, by simp⟩ h2
      have h3 := ok_segs this.2
      exact ⟨⟨this.1.1, h3.1⟩, ⟨this.1.2, h3.2⟩⟩
  · exact leafModel_good h0 hT hp ha hc h

def GoodDataField (T : String → Prop) (d : DataField) : Prop := OkDataType d.dataType ∧ DataFieldTexts T d

omit [Reflect] in
theorem decodeDataField_good {as : Attrs} {ch : List Xml} {d : DataField} (ha : ∀ a ∈ as, T a.2)
    (hc : XmlsTexts T ch) (h : decodeDataField F as ch = .ok d) : GoodDataField T d := by
  unfold decodeDataField at h
  split at h
  · simp at h
  · rename_i d₁ h1
    have hd : GoodDataField T d₁ := by
      refine attrLoop_inv (T := T) (I := GoodDataField T) ?_ ha (by exact ⟨by simp [OkDataType], h0, h0, by simp⟩) h1
      intro k v s s' hv hi h
      unfold dataFieldAttr at h
      split_ifs at h
      · simp only [Except.ok.injEq] at h; subst h
        exact ⟨(ok_dataType v).1, hi.2.1, by rw [(ok_dataType v).2]; exact hv, hi.2.2.2⟩
      · obtain ⟨x, -, rfl⟩ := map_ok h; exact hi
      · simp only [Except.ok.injEq] at h; subst h; exact ⟨hi.1, hv, hi.2.2⟩
      · simp only [Except.ok.injEq] at h; exact h ▸ hi
    refine reflectLoop_inv (T := T) (I := GoodDataField T) ?_ hc hd h
    intro n as ch s s' ha hc hi h
    unfold dataFieldChild at h
    split_ifs at h
    · obtain ⟨x, -, rfl⟩ := map_ok h; exact hi
    · simp only [Except.ok.injEq] at h; subst h
      refine ⟨hi.1, hi.2.1, hi.2.2.1, append_good hi.2.2.2 ?_⟩
      unfold valueAttr
      refine fold_inv (T := T) (I := T) ?_ ha h0
      intro s a hv hi
      split_ifs
      · exact hv
      · exact hi
    · simp only [Except.ok.injEq] at h; exact h ▸ hi

include hp hT in
/-- What is decoded can be written, up to the names of columns and the texts of constants. -/
theorem decodePmml_good {as : Attrs} {ch : List Xml} {p : Pmml F} (ha : ∀ a ∈ as, T a.2) (hc : XmlsTexts T ch)
    (h : decodePmml as ch = .ok p) : OkPmml fmt p ∧ PmmlTexts T p := by
  have key : T p.version ∧ (∀ d ∈ p.dataDictionary, GoodDataField T d) ∧ (∀ d ∈ p.transformations, GoodDerived T d) ∧
      ∀ m ∈ p.models, GoodModel fmt T m := by
    refine bodyLoop_inv (T := T) (I := fun p : Pmml F => T p.version ∧ (∀ d ∈ p.dataDictionary, GoodDataField T d) ∧
      (∀ d ∈ p.transformations, GoodDerived T d) ∧ ∀ m ∈ p.models, GoodModel fmt T m) ?_ ch hc
      ⟨?_, by simp, by simp, by simp⟩ (consumed_inv h)
    · intro n as ch s s' ha hc hi h
      obtain ⟨h1, h2, h3, h4⟩ := hi
      unfold pmmlHandle at h
      split_ifs at h
      · simp only [Option.some.injEq, Except.ok.injEq] at h; subst h; exact ⟨h1, h2, h3, h4⟩
      · rw [Option.some.injEq] at h
        obtain ⟨dd, h5, rfl⟩ := map_ok h
        refine ⟨h1, ?_, h3, h4⟩
        unfold decodeDict at h5
        split at h5
        · simp at h5
        · refine reflectLoop_inv (T := T) (I := fun dd : List DataField => ∀ d ∈ dd, GoodDataField T d) ?_ hc h2 h5
          intro n as ch s s' ha hc hi h
          unfold dictChild at h
          split_ifs at h
          · obtain ⟨d, h6, rfl⟩ := map_ok h
            exact append_good hi (decodeDataField_good h0 ha hc h6)
          · obtain ⟨x, -, rfl⟩ := map_ok h; exact hi
          · simp only [Except.ok.injEq] at h; exact h ▸ hi
      · rw [Option.some.injEq] at h
        obtain ⟨td, h5, rfl⟩ := map_ok h
        refine ⟨h1, h2, ?_, h4⟩
        refine reflectLoop_inv (T := T) (I := fun ds : List (DerivedField F) => ∀ d ∈ ds, GoodDerived T d) ?_ hc h3 h5
        intro n as ch s s' ha hc hi h
        unfold transChild at h
        split_ifs at h
        · obtain ⟨x, -, rfl⟩ := map_ok h; exact hi
        · exact localChild_good h0 hT ha hc hi h
      · rw [Option.map_eq_some_iff] at h
        obtain ⟨r, h5, h6⟩ := h
        obtain ⟨m, rfl, rfl⟩ := map_ok h6
        exact ⟨h1, h2, h3, append_good h4 (decodeModel_good h0 hT hp ha hc h5)⟩
    · unfold versionAttr
      refine fold_inv (T := T) (I := T) ?_ ha h0
      intro s a hv hi
      split_ifs
      · exact hv
      · exact hi
  obtain ⟨h1, h2, h3, h4⟩ := key
  have h5 := ok_models h4
  exact ⟨⟨fun d hd => (h2 d hd).1, fun d hd => (h3 d hd).1, h5.1⟩, h1, fun d hd => (h2 d hd).2,
    fun d hd => (h3 d hd).2, h5.2⟩

end

end Gopmml.XmlText
