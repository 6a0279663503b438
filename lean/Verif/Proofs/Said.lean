import Verif.Spec.Said
import Verif.Proofs.Xml

/-!
# What an XML document says, and what is decoded
-/

namespace Gopmml
namespace Said
open Spec Spec.Said

theorem lastAttr_cons (k k' v : String) (as : Attrs) :
    lastAttr k ((k', v) :: as) = if k' = k then some ((lastAttr k as).getD v) else lastAttr k as := by
  unfold lastAttr
  by_cases h : k' = k
  · simp only [h, List.filter_cons, decide_true, if_true, List.getLast?_cons, Option.map_some]
    cases (as.filter fun a => decide (a.1 = k)).getLast? <;> simp
  · simp [h]

theorem lastAttr_append (k : String) (as as' : Attrs) :
    lastAttr k (as ++ as') = (lastAttr k as').or (lastAttr k as) := by
  unfold lastAttr
  rw [List.filter_append, List.getLast?_append]
  cases (as'.filter fun a => decide (a.1 = k)).getLast? <;> simp

theorem named_text (n r v : String) (cs : List Xml) : named n (.text r v :: cs) = named n cs := rfl

theorem named_elem (k n : String) (as : Attrs) (ch cs : List Xml) :
    named k (.elem n as ch :: cs) = if n = k then (n, as, ch) :: named k cs else named k cs := by
  unfold named
  by_cases h : n = k <;> simp [Xml.elems, h]

theorem elems_append (xs ys : List Xml) : Xml.elems (xs ++ ys) = Xml.elems xs ++ Xml.elems ys := by
  induction xs with
  | nil => rfl
  | cons x xs ih => cases x <;> simp [Xml.elems, ih]

theorem named_append (n : String) (xs ys : List Xml) : named n (xs ++ ys) = named n xs ++ named n ys := by
  unfold named
  rw [elems_append, List.filter_append]

theorem inside_text (n r v : String) (cs : List Xml) : inside n (.text r v :: cs) = inside n cs := rfl

theorem inside_elem (k n : String) (as : Attrs) (ch cs : List Xml) :
    inside k (.elem n as ch :: cs) = if n = k then ch ++ inside k cs else inside k cs := by
  unfold inside
  rw [named_elem]
  by_cases h : n = k <;> simp [h]

theorem inside_append (n : String) (xs ys : List Xml) : inside n (xs ++ ys) = inside n xs ++ inside n ys := by
  unfold inside
  rw [named_append, List.flatMap_append]

theorem attrsOf_text (n r v : String) (cs : List Xml) : attrsOf n (.text r v :: cs) = attrsOf n cs := rfl

theorem attrsOf_elem (k n : String) (as : Attrs) (ch cs : List Xml) :
    attrsOf k (.elem n as ch :: cs) = if n = k then as ++ attrsOf k cs else attrsOf k cs := by
  unfold attrsOf
  rw [named_elem]
  by_cases h : n = k <;> simp [h]

/-! ## Loops -/

theorem attrLoop_said {σ : Type} {f : String → String → σ → Dec σ} (comb : σ → Attrs → σ) (h0 : ∀ s, comb s [] = s)
    (hs : ∀ s s1 k v as, f k v s = .ok s1 → comb s ((k, v) :: as) = comb s1 as) :
    ∀ as s s', attrLoop f as s = .ok s' → s' = comb s as
  | [], s, s', h => by
    rw [attrLoop, Except.ok.injEq] at h
    rw [h0, h]
  | (k, v) :: as, s, s', h => by
    rw [attrLoop] at h
    cases hf : f k v s with
    | error e => rw [hf] at h; simp at h
    | ok s1 =>
      rw [hf] at h
      rw [hs s s1 k v as hf]
      exact attrLoop_said comb h0 hs as s1 s' h

theorem reflectLoop_said {σ : Type} {f : String → Attrs → List Xml → σ → Dec σ} (comb : σ → List Xml → σ)
    (h0 : ∀ s, comb s [] = s) (ht : ∀ s r v cs, comb s (.text r v :: cs) = comb s cs)
    (hs : ∀ s s1 n as ch cs, f n as ch s = .ok s1 → comb s (.elem n as ch :: cs) = comb s1 cs) :
    ∀ cs s s', reflectLoop f cs s = .ok s' → s' = comb s cs
  | [], s, s', h => by
    rw [reflectLoop, Except.ok.injEq] at h
    rw [h0, h]
  | .text r v :: cs, s, s', h => by
    rw [reflectLoop] at h
    rw [ht]
    exact reflectLoop_said comb h0 ht hs cs s s' h
  | .elem n as ch :: cs, s, s', h => by
    rw [reflectLoop] at h
    cases hf : f n as ch s with
    | error e => rw [hf] at h; simp at h
    | ok s1 =>
      rw [hf] at h
      rw [hs s s1 n as ch cs hf]
      exact reflectLoop_said comb h0 ht hs cs s1 s' h

theorem bodyLoop_said {σ : Type} {f : String → Attrs → List Xml → σ → Option (Dec σ)} (comb : σ → List Xml → σ)
    (h0 : ∀ s, comb s [] = s) (ht : ∀ s r v cs, comb s (.text r v :: cs) = comb s cs)
    (hs : ∀ s s1 n as ch cs, f n as ch s = some (.ok s1) → comb s (.elem n as ch :: cs) = comb s1 cs) :
    ∀ cs s s', bodyLoop f cs s = .ok (s', true) → s' = comb s cs
  | [], s, s', h => by
    rw [bodyLoop] at h
    simp only [Except.ok.injEq, Prod.mk.injEq, and_true] at h
    rw [h0, h]
  | .text r v :: cs, s, s', h => by
    rw [bodyLoop, bodyItem] at h
    rw [ht]
    exact bodyLoop_said comb h0 ht hs cs s s' h
  | .elem n as ch :: cs, s, s', h => by
    rw [bodyLoop, bodyItem] at h
    cases hf : f n as ch s with
    | none =>
      rw [hf] at h
      simp only at h
      rcases hb : bodyLoop f ch s with _ | ⟨s2, b⟩ <;> rw [hb] at h <;> simp at h
    | some r =>
      cases r with
      | error e => rw [hf] at h; simp at h
      | ok s1 =>
        rw [hf] at h
        rw [hs s s1 n as ch cs hf]
        exact bodyLoop_said comb h0 ht hs cs s1 s' h

theorem consumed_said {σ : Type} {n : String} {r : Dec (σ × Bool)} {s : σ} (h : consumed n r = .ok s) :
    r = .ok (s, true) := by
  rcases r with _ | ⟨s', _ | _⟩ <;> simp_all [consumed]

theorem map_ok {α β : Type} {f : α → β} {x : Dec α} {b : β} (h : x.map f = .ok b) : ∃ a, x = .ok a ∧ b = f a := by
  cases x with
  | error e => simp [Except.map] at h
  | ok a => exact ⟨a, rfl, by simpa [Except.map] using h.symm⟩

set_option linter.unusedSectionVars false
set_option linter.unusedSimpArgs false

variable {F : Type} [Arith F] [Lib F]

theorem attrFloat_said {v : String} {x : F} (h : attrFloat v = .ok x) : number v = x := by
  unfold attrFloat at h
  unfold number
  by_cases hv : v = ""
  · rw [if_pos hv] at h ⊢
    simpa using h
  · rw [if_neg hv] at h ⊢
    cases hp : Lib.parseFloat (F := F) (trimSpace v) with
    | none => rw [hp] at h; simp [parsed] at h
    | some y => rw [hp] at h; simpa [parsed] using h

omit [Arith F] [Lib F] in
theorem attrInt_said {v : String} {x : Int} (h : attrInt v = .ok x) :
    (if v = "" then 0 else (parseInt (trimSpace v)).getD 0) = x := by
  unfold attrInt at h
  by_cases hv : v = ""
  · rw [if_pos hv] at h ⊢
    simpa using h
  · rw [if_neg hv] at h ⊢
    cases hp : parseInt (trimSpace v) with
    | none => rw [hp] at h; simp [parsed] at h
    | some y => rw [hp] at h; simpa [parsed] using h

/-! ## Predicates -/

omit [Arith F] [Lib F] in
theorem simple_said {as : Attrs} {p q : SimplePred F} (h : attrLoop simpleAttr as p = .ok q) :
    q = { field := (lastAttr "field" as).getD p.field, op := ((lastAttr "operator" as).map SimpleOp.ofString).getD p.op,
          value := (lastAttr "value" as).getD p.value, raw := p.raw } := by
  refine attrLoop_said (fun p as => ⟨(lastAttr "field" as).getD p.field,
    ((lastAttr "operator" as).map SimpleOp.ofString).getD p.op, (lastAttr "value" as).getD p.value, p.raw⟩)
    (fun s => rfl) ?_ as p q h
  intro s s1 k v as h
  unfold simpleAttr at h
  simp only [lastAttr_cons]
  split_ifs at h <;> simp only [Except.ok.injEq] at h <;> subst h <;> simp_all

omit [Arith F] [Lib F] in
theorem pick_said {k : String} {as : Attrs} {α : Type} {g : String → α} {d r : α}
    (h : attrLoop (fun k' v f => .ok (if k' = k then g v else f)) as d = .ok r) :
    r = ((lastAttr k as).map g).getD d := by
  refine attrLoop_said (fun d as => ((lastAttr k as).map g).getD d) (fun s => rfl) ?_ as d r h
  intro s s1 k' v as h
  simp only [Except.ok.injEq] at h
  subst h
  simp only [lastAttr_cons]
  split_ifs <;> simp

omit [Arith F] [Lib F] in
theorem fold_said {α : Type} (k : String) (g : String → α) (as : Attrs) (d : α) :
    as.foldl (fun x a => if a.1 = k then g a.2 else x) d = ((lastAttr k as).map g).getD d := by
  induction as generalizing d with
  | nil => rfl
  | cons a as ih =>
    rw [List.foldl_cons, ih, lastAttr_cons]
    split_ifs <;> simp

omit [Arith F] [Lib F] in
theorem word {α : Type} (g : String → α) (d : α) (hd : g "" = d) (o : Option String) :
    (o.map g).getD d = g (o.getD "") := by
  cases o <;> simp [hd]

omit [Arith F] in
theorem leafPred_said {n : String} {as : Attrs} {ch : List Xml} {p : Pred F} (hn : n ≠ "CompoundPredicate")
    (h : leafPred n as ch = some (.ok p)) : predOf (.elem n as ch) = [p] := by
  unfold leafPred at h
  rw [predOf, if_neg hn]
  by_cases h1 : n = "False"
  · subst h1
    simp at h
    simp [← h]
  rw [if_neg h1] at h
  by_cases h2 : n = "SimplePredicate"
  · rw [if_pos h2, Option.some.injEq] at h
    obtain ⟨q, hq, rfl⟩ := map_ok h
    rw [simple_said hq, if_pos h2]
    dsimp only
    rw [word SimpleOp.ofString (.other "") rfl]
    rfl
  rw [if_neg h2] at h
  rw [if_neg h2]
  by_cases h3 : n = "SimpleSetPredicate"
  · rw [if_pos h3, Option.some.injEq] at h
    rw [if_pos h3]
    cases ha : attrLoop (fun k v f => (.ok (if k = "field" then v else f) : Dec String)) as "" with
    | error e => rw [ha] at h; simp at h
    | ok f =>
      rw [ha] at h
      obtain ⟨u, hu, rfl⟩ := map_ok h
      rw [pick_said (g := id) ha]
      simp [text]
  rw [if_neg h3] at h
  rw [if_neg h3]
  by_cases h4 : n = "True"
  · rw [if_pos h4] at h ⊢
    simp at h
    rw [h]
  · rw [if_neg h4] at h
    simp at h

omit [Arith F] [Lib F] in
theorem boolOp_said (as : Attrs) : boolOpAttr as = BoolOp.ofString (text "booleanOperator" as) := by
  unfold boolOpAttr text
  rw [fold_said "booleanOperator" BoolOp.ofString, word BoolOp.ofString (.other "") rfl]

mutual
theorem compoundItem_said : (x : Xml) → ∀ ps ps' : List (Pred F), compoundItem x ps = .ok (ps', true) →
    ps' = ps ++ predOf x
  | .text _ _, ps, ps', h => by
    rw [compoundItem] at h
    simp only [Except.ok.injEq, Prod.mk.injEq, and_true] at h
    rw [predOf, List.append_nil, h]
  | .elem n as ch, ps, ps', h => by
    rw [compoundItem] at h
    by_cases h1 : n = "Extension"
    · rw [if_pos h1] at h
      simp only [Except.ok.injEq, Prod.mk.injEq, and_true] at h
      subst h1
      simp [predOf, h]
    rw [if_neg h1] at h
    by_cases h2 : n = "CompoundPredicate"
    · rw [if_pos h2] at h
      cases hc : consumed n (compoundBody ch ([] : List (Pred F))) with
      | error e => rw [hc] at h; simp at h
      | ok qs =>
        rw [hc] at h
        simp only [Except.ok.injEq, Prod.mk.injEq, and_true] at h
        have := compoundBody_said ch [] qs (consumed_said hc)
        rw [predOf, if_pos h2, ← h, this, boolOp_said]
        rfl
    · rw [if_neg h2] at h
      cases hl : leafPred (F := F) n as ch with
      | none =>
        rw [hl] at h
        simp only at h
        rcases hb : compoundBody ch ps with _ | ⟨a, b⟩ <;> rw [hb] at h <;> simp at h
      | some r =>
        rw [hl] at h
        cases r with
        | error e => simp at h
        | ok p =>
          simp only [Except.ok.injEq, Prod.mk.injEq, and_true] at h
          rw [leafPred_said h2 hl, h]
theorem compoundBody_said : (cs : List Xml) → ∀ ps ps' : List (Pred F), compoundBody cs ps = .ok (ps', true) →
    ps' = ps ++ preds cs
  | [], ps, ps', h => by
    rw [compoundBody] at h
    simp only [Except.ok.injEq, Prod.mk.injEq, and_true] at h
    rw [preds, List.append_nil, h]
  | c :: cs, ps, ps', h => by
    rw [compoundBody] at h
    rcases hc : compoundItem c ps with _ | ⟨q, _ | _⟩
    · rw [hc] at h; simp at h
    · rw [hc] at h; simp at h
    · rw [hc] at h
      simp only at h
      rw [compoundBody_said cs q ps' h, compoundItem_said c ps q hc, preds, List.append_assoc]
end

theorem decodePred_said {n : String} {as : Attrs} {ch : List Xml} {p : Pred F}
    (h : decodePred n as ch = some (.ok p)) : predOf (.elem n as ch) = [p] := by
  unfold decodePred at h
  by_cases hn : n = "CompoundPredicate"
  · rw [if_pos hn, Option.some.injEq] at h
    obtain ⟨qs, hq, rfl⟩ := map_ok h
    rw [predOf, if_pos hn, compoundBody_said ch [] qs (consumed_said hq), boolOp_said]
    rfl
  · rw [if_neg hn] at h
    exact leafPred_said hn h

omit [Lib F] [Arith F] in
theorem predOf_none {n : String} {as : Attrs} {ch : List Xml}
    (h : n ∉ ["CompoundPredicate", "SimplePredicate", "SimpleSetPredicate", "True", "False"]) :
    predOf (F := F) (.elem n as ch) = [] := by
  simp only [List.mem_cons, List.not_mem_nil, or_false, not_or] at h
  obtain ⟨h1, h2, h3, h4, h5⟩ := h
  rw [predOf, if_neg h1, if_neg h2, if_neg h3, if_neg h4, if_neg h5]

/-! ## Nodes -/

theorem distAttr_said {as : Attrs} {d d' : ScoreDistribution F} (h : attrLoop distAttr as d = .ok d') :
    d' = { value := (lastAttr "value" as).getD d.value, recordCount := (numberIf "recordCount" as).getD d.recordCount,
           confidence := (numberIf "confidence" as).or d.confidence,
           probability := (numberIf "probability" as).or d.probability } := by
  refine attrLoop_said (fun d as => ⟨(lastAttr "value" as).getD d.value,
    (numberIf "recordCount" as).getD d.recordCount, (numberIf "confidence" as).or d.confidence,
    (numberIf "probability" as).or d.probability⟩) (fun s => rfl) ?_ as d d' h
  intro s s1 k v as h
  unfold distAttr at h
  simp only [lastAttr_cons, numberIf]
  split_ifs at h with h1 h2 h3 h4
  all_goals first
    | (obtain ⟨x, hx, rfl⟩ := map_ok h
       have := attrFloat_said hx
       subst_vars
       simp)
    | (simp only [Except.ok.injEq] at h
       subst h
       simp_all)

theorem decodeDist_said {as : Attrs} {d : ScoreDistribution F} (h : decodeDist as = .ok d) : d = dist as := by
  unfold decodeDist at h
  rw [distAttr_said h]
  simp [dist, text, num]

/-- What a node becomes when more is read into it. -/
def more (as : Attrs) (ch : List Xml) : Node F → Node F
  | .mk id dc sc rc ds ns p => .mk ((lastAttr "id" as).getD id) ((lastAttr "defaultChild" as).getD dc)
    ((lastAttr "score" as).getD sc) ((nodeCount as).getD rc) (ds ++ dists ch) (ns ++ nodes ch) ((preds ch).getLast?.or p)

theorem nodeAttr_said {as : Attrs} {x y : Node F} (h : attrLoop nodeAttr as x = .ok y) : y = more as [] x := by
  refine attrLoop_said (fun x as => more as [] x) (fun s => ?_) ?_ as x y h
  · cases s
    simp [more, lastAttr, nodeCount, dists, named, Xml.elems, nodes, preds]
  intro s s1 k v as h
  cases s
  unfold nodeAttr at h
  simp only [more, lastAttr_cons, nodeCount, List.filter_cons]
  split_ifs at h with h1 h2 h3 h4 h5
  · simp only [Except.ok.injEq] at h
    subst h h1
    simp only [more]
    by_cases hv : v = "" <;> simp [hv, lastAttr_cons, nodeCount]
  · simp only [Except.ok.injEq] at h
    subst h h2
    simp only [more]
    by_cases hv : v = "" <;> simp [hv, lastAttr_cons, nodeCount]
  · simp only [Except.ok.injEq] at h
    subst h h3 h4
    simp [more, nodeCount]
  · obtain ⟨x, hx, rfl⟩ := map_ok h
    subst h3
    have hp : Lib.parseFloat v = some x := by
      cases hq : Lib.parseFloat (F := F) v with
      | none => rw [hq] at hx; simp [parsed] at hx
      | some y => rw [hq] at hx; simpa [parsed] using hx
    simp only [more, nodeCount, h4, not_false_eq_true, ne_eq, decide_true, if_true, lastAttr_cons]
    cases lastAttr "recordCount" (List.filter (fun a => decide ¬a.2 = "") as) <;> simp [hp]
  · simp only [Except.ok.injEq] at h
    subst h h5
    simp only [more]
    by_cases hv : v = "" <;> simp [hv, lastAttr_cons, nodeCount]
  · simp only [Except.ok.injEq] at h
    subst h
    simp only [more]
    by_cases hv : v = "" <;> simp [hv, lastAttr_cons, nodeCount, h1, h2, h3, h5]

theorem nodes_append (xs ys : List Xml) : nodes (F := F) (xs ++ ys) = nodes xs ++ nodes ys := by
  induction xs with
  | nil => rfl
  | cons x xs ih => simp [nodes, ih]

omit [Arith F] [Lib F] in
theorem preds_append (xs ys : List Xml) : preds (F := F) (xs ++ ys) = preds xs ++ preds ys := by
  induction xs with
  | nil => rfl
  | cons x xs ih => simp [preds, ih]

theorem dists_append (xs ys : List Xml) : dists (F := F) (xs ++ ys) = dists xs ++ dists ys := by
  simp [dists, named_append]

theorem more_more (as as' : Attrs) (ch ch' : List Xml) (x : Node F) :
    more as' ch' (more as ch x) = more (as ++ as') (ch ++ ch') x := by
  cases x
  simp only [more, lastAttr_append, nodeCount, List.filter_append, dists_append, nodes_append, preds_append,
    List.append_assoc, List.getLast?_append]
  congr 1
  · cases lastAttr "id" as' <;> simp
  · cases lastAttr "defaultChild" as' <;> simp
  · cases lastAttr "score" as' <;> simp
  · cases lastAttr "recordCount" (as'.filter fun a => decide (a.2 ≠ "")) <;> simp
  · cases (preds (F := F) ch').getLast? <;> simp

theorem more_zero (as : Attrs) (ch : List Xml) : more (F := F) as ch Node.zero =
    .mk (text "id" as) (text "defaultChild" as) (text "score" as) ((nodeCount as).getD Arith.zero) (dists ch)
      (nodes ch) (preds ch).getLast? := by
  simp [more, Node.zero, text]

theorem nodeOf_none {n : String} {as : Attrs} {ch : List Xml} (h : n ≠ "Node") : nodeOf (F := F) (.elem n as ch) = [] := by
  rw [nodeOf, if_neg h]

mutual
theorem nodeItem_said : (x : Xml) → ∀ y y' : Node F, nodeItem x y = .ok (y', true) → y' = more [] [x] y
  | .text _ _, y, y', h => by
    rw [nodeItem] at h
    simp only [Except.ok.injEq, Prod.mk.injEq, and_true] at h
    cases y
    rw [← h]
    simp [more, lastAttr, nodeCount, dists, named, Xml.elems, nodes, nodeOf, preds, predOf]
  | .elem n as ch, y, y', h => by
    rw [nodeItem] at h
    by_cases h1 : n = "Extension"
    · rw [if_pos h1] at h
      simp only [Except.ok.injEq, Prod.mk.injEq, and_true] at h
      cases y
      subst h1
      rw [← h]
      simp [more, lastAttr, nodeCount, dists, named, Xml.elems, nodes, nodeOf, preds, predOf]
    rw [if_neg h1] at h
    by_cases h2 : n = "Node"
    · rw [if_pos h2] at h
      cases ha : attrLoop nodeAttr as (Node.zero (F := F)) with
      | error e => rw [ha] at h; simp at h
      | ok z =>
        rw [ha] at h
        simp only at h
        cases hc : consumed n (nodeBody ch z) with
        | error e => rw [hc] at h; simp at h
        | ok c =>
          rw [hc] at h
          simp only [Except.ok.injEq, Prod.mk.injEq, and_true] at h
          have hz := nodeAttr_said ha
          have hb := nodeBody_said ch z c (consumed_said hc)
          rw [hz, more_more, List.append_nil, List.nil_append, more_zero] at hb
          cases y
          subst h2
          rw [← h, hb]
          simp [more, lastAttr, nodeCount, dists, named, Xml.elems, nodes, nodeOf, preds, predOf, Node.addNode]
    rw [if_neg h2] at h
    by_cases h3 : n = "ScoreDistribution"
    · rw [if_pos h3] at h
      cases hd : decodeDist (F := F) as with
      | error e => rw [hd] at h; simp at h
      | ok d =>
        rw [hd] at h
        simp only [Except.ok.injEq, Prod.mk.injEq, and_true] at h
        cases y
        subst h3
        rw [← h, decodeDist_said hd]
        simp [more, lastAttr, nodeCount, dists, named, Xml.elems, nodes, nodeOf, preds, predOf, Node.addDist]
    rw [if_neg h3] at h
    by_cases h4 : n = "Partition"
    · rw [if_pos h4] at h
      simp only [Except.ok.injEq, Prod.mk.injEq, and_true] at h
      cases y
      subst h4
      rw [← h]
      simp [more, lastAttr, nodeCount, dists, named, Xml.elems, nodes, nodeOf, preds, predOf]
    rw [if_neg h4] at h
    cases hp : decodePred (F := F) n as ch with
    | some r =>
      rw [hp] at h
      cases r with
      | error e => simp at h
      | ok p =>
        simp only [Except.ok.injEq, Prod.mk.injEq, and_true] at h
        cases y
        rw [← h]
        simp [more, lastAttr, nodeCount, dists, named, Xml.elems, h3, nodes, nodeOf_none h2, preds, decodePred_said hp,
          Node.setPred]
    | none =>
      rw [hp] at h
      simp only at h
      by_cases h5 : n = "DecisionTree" ∨ n = "Regression"
      · rw [if_pos h5] at h
        simp only [Except.ok.injEq, Prod.mk.injEq, and_true] at h
        cases y
        rw [← h]
        rcases h5 with rfl | rfl <;>
        simp [more, lastAttr, nodeCount, dists, named, Xml.elems, nodes, nodeOf, preds, predOf]
      · rw [if_neg h5] at h
        rcases hb : nodeBody ch y with _ | ⟨a, b⟩ <;> rw [hb] at h <;> simp at h
theorem nodeBody_said : (cs : List Xml) → ∀ y y' : Node F, nodeBody cs y = .ok (y', true) → y' = more [] cs y
  | [], y, y', h => by
    rw [nodeBody] at h
    simp only [Except.ok.injEq, Prod.mk.injEq, and_true] at h
    cases y
    rw [← h]
    simp [more, lastAttr, nodeCount, dists, named, Xml.elems, nodes, preds]
  | c :: cs, y, y', h => by
    rw [nodeBody] at h
    rcases hc : nodeItem c y with _ | ⟨q, _ | _⟩
    · rw [hc] at h; simp at h
    · rw [hc] at h; simp at h
    · rw [hc] at h
      simp only at h
      rw [nodeBody_said cs q y' h, nodeItem_said c y q hc, more_more]
      rfl
end

theorem decodeNode_said {as : Attrs} {ch : List Xml} {x y : Node F} (h : decodeNode as ch x = .ok y) :
    y = more as ch x := by
  unfold decodeNode at h
  cases ha : attrLoop nodeAttr as x with
  | error e => rw [ha] at h; simp at h
  | ok z =>
    rw [ha] at h
    rw [nodeBody_said ch z y (consumed_said h), nodeAttr_said ha, more_more, List.append_nil, List.nil_append]

end Said
end Gopmml
