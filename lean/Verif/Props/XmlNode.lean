import Verif.Proofs.Xml
import Verif.Model.Samples

/-!
# C56: decoding tree nodes
-/

namespace Gopmml.Props
open Gopmml

section
variable {F : Type} [Arith F] [Lib F]

/-- The child elements with a name satisfying `p`, in document order. -/
abbrev children (p : String → Bool) (ch : List Xml) : List (String × Attrs × List Xml) :=
  (Xml.elems ch).filter fun e => p e.1

omit [Arith F] [Lib F] in
theorem decodePred_isSome (n : String) (as : Attrs) (ch : List Xml) :
    (decodePred (F := F) n as ch).isSome = decide (n ∈ Spec.predKinds) := by
  unfold decodePred leafPred Spec.predKinds
  split_ifs <;> simp_all

theorem readAll_node (es : List (String × Attrs × List Xml)) : ∀ (id dc sc : String) (rc : F)
    (ds0 : List (ScoreDistribution F)) (ns0 : List (Node F)) (p0 : Option (Pred F)) (nd : Node F),
    readAll nodeHandle es (.mk id dc sc rc ds0 ns0 p0) = some nd ↔
      (∀ e ∈ es, e.1 ∈ Spec.nodeKinds) ∧
      ∃ (ds : List (ScoreDistribution F)) (ns : List (Node F)) (ps : List (Pred F)),
        List.Forall₂ (fun e d => decodeDist e.2.1 = .ok d)
          (es.filter fun e => decide (e.1 = "ScoreDistribution")) ds ∧
        List.Forall₂ (fun e n => decodeNode e.2.1 e.2.2 Node.zero = .ok n)
          (es.filter fun e => decide (e.1 = "Node")) ns ∧
        List.Forall₂ (fun e p => decodePred e.1 e.2.1 e.2.2 = some (.ok p))
          (es.filter fun e => decide (e.1 ∈ Spec.predKinds)) ps ∧
        nd = .mk id dc sc rc (ds0 ++ ds) (ns0 ++ ns) (ps.getLast?.or p0) := by
  induction es with
  | nil =>
    intro id dc sc rc ds0 ns0 p0 nd
    simp [readAll, eq_comm]
  | cons e es ih =>
    intro id dc sc rc ds0 ns0 p0 nd
    obtain ⟨n, as, ch⟩ := e
    simp only [readAll, List.forall_mem_cons]
    by_cases h1 : n = "Extension" ∨ n = "Partition" ∨ n = "DecisionTree" ∨ n = "Regression"
    · have hh : nodeHandle n as ch (.mk id dc sc rc ds0 ns0 p0) =
          some (.ok (.mk id dc sc rc ds0 ns0 p0)) := by
        rcases h1 with rfl | rfl | rfl | rfl <;> simp [nodeHandle]
      have hk : n ∈ Spec.nodeKinds := by
        rcases h1 with rfl | rfl | rfl | rfl <;> simp [Spec.nodeKinds]
      have hf : n ≠ "ScoreDistribution" ∧ n ≠ "Node" ∧ n ∉ Spec.predKinds := by
        rcases h1 with rfl | rfl | rfl | rfl <;> simp [Spec.predKinds]
      rw [hh]
      simp only [List.filter_cons, hf, decide_false, Bool.false_eq_true, if_false, hk, true_and]
      exact ih id dc sc rc ds0 ns0 p0 nd
    by_cases h2 : n = "Node"
    · subst h2
      have hk : "Node" ∈ Spec.nodeKinds := by simp [Spec.nodeKinds]
      have hf : "Node" ∉ Spec.predKinds := by simp [Spec.predKinds]
      simp only [nodeHandle, String.reduceEq, or_self, if_false, if_true, List.filter_cons,
        decide_false, decide_true, Bool.false_eq_true, hk, hf, true_and]
      cases hd : decodeNode as ch (Node.zero (F := F)) with
      | error err =>
        simp only [Except.map]
        constructor
        · intro h; cases h
        · rintro ⟨-, ds, ns, ps, -, hn, -⟩
          cases hn with
          | cons h1 h2 => rw [hd] at h1; cases h1
      | ok c =>
        simp only [Except.map, Node.addNode]
        rw [ih]
        constructor
        · rintro ⟨hk, ds, ns, ps, hds, hns, hps, rfl⟩
          exact ⟨hk, ds, c :: ns, ps, hds, .cons hd hns, hps, by simp⟩
        · rintro ⟨hk, ds, ns, ps, hds, hns, hps, rfl⟩
          cases hns with
          | cons h1 h2 =>
            rw [hd] at h1
            cases h1
            exact ⟨hk, ds, _, ps, hds, h2, hps, by simp⟩
    by_cases h3 : n = "ScoreDistribution"
    · subst h3
      have hk : "ScoreDistribution" ∈ Spec.nodeKinds := by simp [Spec.nodeKinds]
      have hf : "ScoreDistribution" ∉ Spec.predKinds := by simp [Spec.predKinds]
      simp only [nodeHandle, String.reduceEq, or_self, if_false, if_true, List.filter_cons,
        decide_false, decide_true, Bool.false_eq_true, hk, hf, true_and]
      cases hd : decodeDist (F := F) as with
      | error err =>
        simp only [Except.map]
        constructor
        · intro h; cases h
        · rintro ⟨-, ds, ns, ps, hn, -⟩
          cases hn with
          | cons h1 h2 => rw [hd] at h1; cases h1
      | ok c =>
        simp only [Except.map, Node.addDist]
        rw [ih]
        constructor
        · rintro ⟨hk, ds, ns, ps, hds, hns, hps, rfl⟩
          exact ⟨hk, c :: ds, ns, ps, .cons hd hds, hns, hps, by simp⟩
        · rintro ⟨hk, ds, ns, ps, hds, hns, hps, rfl⟩
          cases hds with
          | cons h1 h2 =>
            rw [hd] at h1
            cases h1
            exact ⟨hk, _, ns, ps, h2, hns, hps, by simp⟩
    simp only [not_or] at h1
    have hh : nodeHandle n as ch (.mk id dc sc rc ds0 ns0 p0) =
        (decodePred n as ch).map fun r => r.map (Node.setPred (.mk id dc sc rc ds0 ns0 p0)) := by
      simp [nodeHandle, h1, h2, h3]
    rw [hh]
    have hsome := decodePred_isSome (F := F) n as ch
    by_cases h4 : n ∈ Spec.predKinds
    · have hk : n ∈ Spec.nodeKinds := List.mem_append_right _ h4
      simp only [h4, decide_true] at hsome
      simp only [List.filter_cons, h2, h3, h4, decide_true, decide_false, Bool.false_eq_true,
        if_true, if_false, hk, true_and]
      obtain ⟨r, hr⟩ := Option.isSome_iff_exists.1 hsome
      rw [hr]
      cases r with
      | error err =>
        simp only [Option.map_some, Except.map]
        constructor
        · intro h; cases h
        · rintro ⟨-, ds, ns, ps, -, -, hn, -⟩
          cases hn with
          | cons h1 h2 => simp only [hr] at h1; cases h1
      | ok q =>
        simp only [Option.map_some, Except.map, Node.setPred]
        rw [ih]
        have hl : ∀ ps : List (Pred F), ps.getLast?.or (some q) = ((q :: ps).getLast?).or p0 := by
          intro ps
          cases ps using List.reverseRecOn with
          | nil => simp
          | append_singleton l a => simp [List.getLast?_cons]
        constructor
        · rintro ⟨hk, ds, ns, ps, hds, hns, hps, rfl⟩
          exact ⟨hk, ds, ns, q :: ps, hds, hns, .cons hr hps, by rw [hl]⟩
        · rintro ⟨hk, ds, ns, ps, hds, hns, hps, rfl⟩
          cases hps with
          | cons h1 h2 =>
            simp only [hr] at h1
            cases h1
            exact ⟨hk, ds, ns, _, hds, hns, h2, by rw [hl]⟩
    · have hk : n ∉ Spec.nodeKinds := by
        unfold Spec.nodeKinds
        simp only [List.mem_append, h4, or_false]
        simp [h1, h2, h3]
      simp only [h4, decide_false, Option.isSome_eq_false_iff, Option.isNone_iff_eq_none] at hsome
      rw [hsome]
      simp [hk]

/-- The values of the attributes called `k`, in document order. -/
abbrev values (k : String) (as : Attrs) : List String :=
  (as.filter fun a => a.1 = k).map (·.2)

omit [Arith F] in
theorem attrLoop_node (as : Attrs) : ∀ (id dc sc : String) (rc : F)
    (ds : List (ScoreDistribution F)) (ns : List (Node F)) (p : Option (Pred F)) (nd : Node F),
    attrLoop nodeAttr as (.mk id dc sc rc ds ns p) = .ok nd ↔
      ∃ xs : List F,
        List.Forall₂ (fun s x => Lib.parseFloat s = some x)
          ((values "recordCount" as).filter fun s => s ≠ "") xs ∧
        nd = .mk ((Spec.attr? as "id").getD id) ((Spec.attr? as "defaultChild").getD dc)
          ((Spec.attr? as "score").getD sc) (xs.getLast?.getD rc) ds ns p := by
  induction as with
  | nil =>
    intro id dc sc rc ds ns p nd
    simp [attrLoop, Spec.attr?, values, eq_comm]
  | cons a as ih =>
    intro id dc sc rc ds ns p nd
    obtain ⟨k, v⟩ := a
    have hl : ∀ (l : List String) (v w : String), ((v :: l).getLast?).getD w = (l.getLast?).getD v := by
      intro l v w
      cases l using List.reverseRecOn <;> simp [List.getLast?_cons]
    have hlF : ∀ (l : List F) (v w : F), ((v :: l).getLast?).getD w = (l.getLast?).getD v := by
      intro l v w
      cases l using List.reverseRecOn <;> simp [List.getLast?_cons]
    simp only [attrLoop, nodeAttr]
    by_cases h1 : k = "defaultChild"
    · subst h1
      simp only [if_true]
      rw [ih]
      simp [Spec.attr?, values, hl]
    rw [if_neg h1]
    by_cases h2 : k = "id"
    · subst h2
      simp only [if_true]
      rw [ih]
      simp [Spec.attr?, values, hl]
    rw [if_neg h2]
    by_cases h3 : k = "recordCount"
    · subst h3
      simp only [if_true]
      by_cases hv : v = ""
      · subst hv
        simp only [if_true]
        rw [ih]
        simp [Spec.attr?, values]
      · rw [if_neg hv]
        cases hp : Lib.parseFloat (F := F) v with
        | none =>
          simp only [parsed, Except.map]
          constructor
          · intro h; cases h
          · rintro ⟨xs, hxs, -⟩
            simp only [values, List.filter_cons, decide_true, if_true, List.map_cons, ne_eq, hv,
              not_false_eq_true] at hxs
            cases hxs with
            | cons h1 h2 => rw [hp] at h1; cases h1
        | some x =>
          simp only [parsed, Except.map]
          rw [ih]
          simp only [Spec.attr?, values, List.filter_cons, decide_true, if_true, List.map_cons, ne_eq,
            hv, not_false_eq_true, String.reduceEq, decide_false, Bool.false_eq_true, if_false]
          constructor
          · rintro ⟨xs, hxs, rfl⟩
            exact ⟨x :: xs, .cons hp hxs, by rw [hlF]⟩
          · rintro ⟨xs, hxs, rfl⟩
            cases hxs with
            | cons h1 h2 =>
              rw [hp] at h1
              cases h1
              exact ⟨_, h2, by rw [hlF]⟩
    rw [if_neg h3]
    by_cases h4 : k = "score"
    · subst h4
      simp only [if_true]
      rw [ih]
      simp [Spec.attr?, values, hl]
    rw [if_neg h4]
    simp only
    rw [ih]
    simp [Spec.attr?, values, h1, h2, h3, h4]

/-- C56: what decoding a node gives, completely: it succeeds exactly if all children are of known
kinds, the record counts parse, and the parts decode; the attributes are the (last) ones written,
score distributions and child nodes come in document order, and the last predicate counts. -/
theorem C56_node (as : Attrs) (ch : List Xml) (nd : Node F) :
    decodeNode as ch Node.zero = .ok nd ↔
      (∀ n as' ch', Xml.elem n as' ch' ∈ ch → n ∈ Spec.nodeKinds) ∧
      ∃ (counts : List F) (ds : List (ScoreDistribution F)) (ns : List (Node F)) (ps : List (Pred F)),
        List.Forall₂ (fun s x => Lib.parseFloat s = some x)
          ((values "recordCount" as).filter fun s => s ≠ "") counts ∧
        List.Forall₂ (fun e d => decodeDist e.2.1 = .ok d)
          (children (fun n => n = "ScoreDistribution") ch) ds ∧
        List.Forall₂ (fun e n => decodeNode e.2.1 e.2.2 Node.zero = .ok n)
          (children (fun n => n = "Node") ch) ns ∧
        List.Forall₂ (fun e p => decodePred e.1 e.2.1 e.2.2 = some (.ok p))
          (children (fun n => n ∈ Spec.predKinds) ch) ps ∧
        nd = .mk (Spec.attr as "id") (Spec.attr as "defaultChild") (Spec.attr as "score")
          (counts.getLast?.getD Arith.zero) ds ns ps.getLast? := by
  have hmem : (∀ e ∈ Xml.elems ch, e.1 ∈ Spec.nodeKinds) ↔
      ∀ n as' ch', Xml.elem n as' ch' ∈ ch → n ∈ Spec.nodeKinds :=
    ⟨fun h n as' ch' hm => h (n, as', ch') (Xml.mem_elems.2 hm),
     fun h e he => h e.1 e.2.1 e.2.2 (Xml.mem_elems.1 he)⟩
  rw [← hmem]
  rw [show decodeNode as ch (Node.zero (F := F)) = (match attrLoop nodeAttr as Node.zero with
    | .error e => .error e
    | .ok y => consumed "Node" (nodeBody ch y)) from rfl]
  cases ha : attrLoop nodeAttr as (Node.zero (F := F)) with
  | error e =>
    simp only
    constructor
    · intro h; cases h
    · rintro ⟨-, cs, ds, ns, ps, hc, -⟩
      have := (attrLoop_node as "" "" "" Arith.zero [] [] none _).2 ⟨cs, hc, rfl⟩
      unfold Node.zero at ha
      rw [ha] at this
      cases this
  | ok y =>
    simp only [nodeBody_eq, consumed_bodyLoop]
    obtain ⟨xs, hxs, rfl⟩ := (attrLoop_node as "" "" "" Arith.zero [] [] none y).1 ha
    rw [readAll_node]
    simp only [List.nil_append, Option.or_none]
    constructor
    · rintro ⟨hk, ds, ns, ps, hds, hns, hps, rfl⟩
      exact ⟨hk, xs, ds, ns, ps, hxs, hds, hns, hps, rfl⟩
    · rintro ⟨hk, xs', ds, ns, ps, hxs', hds, hns, hps, rfl⟩
      have : xs' = xs := by
        clear hk hds hns hps ha
        revert hxs hxs'
        generalize (List.filter (fun s => decide (s ≠ "")) (values "recordCount" as)) = l
        intro hxs hxs'
        induction hxs generalizing xs' with
        | nil => cases hxs'; rfl
        | cons h1 _ ih =>
          cases hxs' with
          | cons h1' h2' =>
            rw [h1] at h1'
            cases h1'
            rw [ih _ h2']
      subst this
      exact ⟨hk, ds, ns, ps, hds, hns, hps, rfl⟩

omit [Arith F] [Lib F] in
theorem readAll_compound (es : List (String × Attrs × List Xml)) : ∀ (ps0 qs : List (Pred F)),
    readAll compoundHandle es ps0 = some qs ↔
      (∀ e ∈ es, e.1 ∈ Spec.compoundKinds) ∧
      ∃ ps : List (Pred F),
        List.Forall₂ (fun e p => decodePred e.1 e.2.1 e.2.2 = some (.ok p))
          (es.filter fun e => decide (e.1 ∈ Spec.predKinds)) ps ∧ qs = ps0 ++ ps := by
  induction es with
  | nil => intro ps0 qs; simp [readAll, eq_comm]
  | cons e es ih =>
    intro ps0 qs
    obtain ⟨n, as, ch⟩ := e
    simp only [readAll, List.forall_mem_cons, compoundHandle]
    have hsome := decodePred_isSome (F := F) n as ch
    by_cases h1 : n = "Extension"
    · subst h1
      have hf : "Extension" ∉ Spec.predKinds := by simp [Spec.predKinds]
      simp only [if_true, List.filter_cons, hf, decide_false, Bool.false_eq_true, if_false]
      rw [ih]
      simp [Spec.compoundKinds]
    rw [if_neg h1]
    by_cases h4 : n ∈ Spec.predKinds
    · have hk : n ∈ Spec.compoundKinds := List.mem_cons_of_mem _ h4
      simp only [h4, decide_true] at hsome
      simp only [List.filter_cons, h4, decide_true, if_true, hk, true_and]
      obtain ⟨r, hr⟩ := Option.isSome_iff_exists.1 hsome
      rw [hr]
      cases r with
      | error err =>
        simp only [Option.map_some, Except.map]
        constructor
        · intro h; cases h
        · rintro ⟨-, ps, hn, -⟩
          cases hn with
          | cons h1 h2 => simp only [hr] at h1; cases h1
      | ok q =>
        simp only [Option.map_some, Except.map]
        rw [ih]
        constructor
        · rintro ⟨hk, ps, hps, rfl⟩
          exact ⟨hk, q :: ps, .cons hr hps, by simp⟩
        · rintro ⟨hk, ps, hps, rfl⟩
          cases hps with
          | cons h1 h2 =>
            simp only [hr] at h1
            cases h1
            exact ⟨hk, _, h2, by simp⟩
    · have hk : n ∉ Spec.compoundKinds := by
        unfold Spec.compoundKinds
        simp [h1, h4]
      simp only [h4, decide_false, Option.isSome_eq_false_iff, Option.isNone_iff_eq_none] at hsome
      rw [hsome]
      simp [hk]

omit [Arith F] [Lib F] in
theorem foldl_attr {α : Type} (k : String) (f : String → α) (as : Attrs) (x : α) :
    as.foldl (fun s a => if a.1 = k then f a.2 else s) x = ((Spec.attr? as k).map f).getD x := by
  induction as generalizing x with
  | nil => simp [Spec.attr?]
  | cons a as ih =>
    simp only [List.foldl_cons, ih]
    by_cases h : a.1 = k
    · simp only [Spec.attr?, List.filter_cons, h, decide_true, if_true, List.map_cons]
      generalize (as.filter fun a => decide (a.1 = k)).map (·.2) = l
      cases l using List.reverseRecOn <;> simp [List.getLast?_cons]
    · simp [Spec.attr?, h]

omit [Arith F] [Lib F] in
/-- C56 (compound predicates): members in document order, all children known. -/
theorem C56_compound (as : Attrs) (ch : List Xml) (p : Pred F) :
    decodePred "CompoundPredicate" as ch = some (.ok p) ↔
      (∀ n as' ch', Xml.elem n as' ch' ∈ ch → n ∈ Spec.compoundKinds) ∧
      ∃ ps : List (Pred F),
        List.Forall₂ (fun e p => decodePred e.1 e.2.1 e.2.2 = some (.ok p))
          (children (fun n => n ∈ Spec.predKinds) ch) ps ∧
        p = .compound (BoolOp.ofString (Spec.attr as "booleanOperator")) ps := by
  have hmem : (∀ e ∈ Xml.elems ch, e.1 ∈ Spec.compoundKinds) ↔
      ∀ n as' ch', Xml.elem n as' ch' ∈ ch → n ∈ Spec.compoundKinds :=
    ⟨fun h n as' ch' hm => h (n, as', ch') (Xml.mem_elems.2 hm),
     fun h e he => h e.1 e.2.1 e.2.2 (Xml.mem_elems.1 he)⟩
  have hop : boolOpAttr as = BoolOp.ofString (Spec.attr as "booleanOperator") := by
    unfold boolOpAttr Spec.attr
    rw [foldl_attr "booleanOperator" BoolOp.ofString]
    cases Spec.attr? as "booleanOperator" with
    | none => simp [BoolOp.ofString]
    | some v => simp
  rw [← hmem, ← hop,
    show decodePred (F := F) "CompoundPredicate" as ch =
      some ((consumed "CompoundPredicate" (compoundBody ch [])).map (.compound (boolOpAttr as)))
      from rfl, compoundBody_eq]
  constructor
  · intro h
    simp only [Option.some.injEq] at h
    cases hc : consumed "CompoundPredicate" (bodyLoop (compoundHandle (F := F)) ch []) with
    | error e => rw [hc] at h; cases h
    | ok ps =>
      rw [hc] at h
      rw [consumed_bodyLoop, readAll_compound] at hc
      obtain ⟨hk, qs, hqs, rfl⟩ := hc
      cases h
      exact ⟨hk, _, hqs, rfl⟩
  · rintro ⟨hk, ps, hps, rfl⟩
    have hc : consumed "CompoundPredicate" (bodyLoop (compoundHandle (F := F)) ch []) = .ok ps := by
      rw [consumed_bodyLoop, readAll_compound]
      exact ⟨hk, ps, hps, by simp⟩
    rw [hc]
    rfl

omit [Arith F] [Lib F] in
theorem attr?_cons (k v : String) (as : Attrs) (q : String) :
    Spec.attr? ((k, v) :: as) q = if k = q then some ((Spec.attr? as q).getD v) else Spec.attr? as q := by
  unfold Spec.attr?
  by_cases h : k = q
  · simp only [List.filter_cons, h, decide_true, if_true, List.map_cons]
    generalize (as.filter fun a => decide (a.1 = q)).map (·.2) = l
    cases l using List.reverseRecOn <;> simp [List.getLast?_cons]
  · simp [h]

omit [Arith F] [Lib F] in
theorem attrLoop_simple (as : Attrs) : ∀ p : SimplePred F,
    attrLoop simpleAttr as p = .ok ⟨(Spec.attr? as "field").getD p.field,
      ((Spec.attr? as "operator").map SimpleOp.ofString).getD p.op,
      (Spec.attr? as "value").getD p.value, p.raw⟩ := by
  induction as with
  | nil => intro p; simp [attrLoop, Spec.attr?]
  | cons a as ih =>
    intro p
    obtain ⟨k, v⟩ := a
    simp only [attrLoop, simpleAttr, attr?_cons]
    by_cases h1 : k = "field"
    · subst h1
      simp [ih]
    by_cases h2 : k = "operator"
    · subst h2
      simp [ih]
    by_cases h3 : k = "value"
    · subst h3
      simp [ih]
    simp [h1, h2, h3, ih]

omit [Arith F] [Lib F] in
/-- C56 (simple predicates): always decode, to what is written. -/
theorem C56_simple (as : Attrs) (ch : List Xml) :
    decodePred (F := F) "SimplePredicate" as ch =
      some (.ok (.simple ⟨Spec.attr as "field", SimpleOp.ofString (Spec.attr as "operator"),
        Spec.attr as "value", .nil⟩)) := by
  simp only [decodePred, leafPred, String.reduceEq, if_false, if_true, attrLoop_simple, Except.map]
  unfold Spec.attr
  cases Spec.attr? as "operator" <;> simp [SimpleOp.ofString]

omit [Arith F] [Lib F] in
/-- C56 (constant predicates) -/
theorem C56_constant (as : Attrs) (ch : List Xml) :
    decodePred (F := F) "True" as ch = some (.ok .true_) ∧
    decodePred (F := F) "False" as ch = some (.ok .false_) := by
  simp [decodePred, leafPred]

omit [Arith F] [Lib F] in
theorem attrLoop_pure {α : Type} (k : String) (f : String → α) (as : Attrs) : ∀ x : α,
    attrLoop (fun k' v s => .ok (if k' = k then f v else s)) as x =
      .ok (((Spec.attr? as k).map f).getD x) := by
  induction as with
  | nil => intro x; simp [attrLoop, Spec.attr?]
  | cons a as ih =>
    intro x
    obtain ⟨k', v⟩ := a
    simp only [attrLoop, attr?_cons, ih]
    by_cases h : k' = k
    · simp only [h, if_true, Option.map_some, Option.getD_some]
      cases Spec.attr? as k <;> simp
    · simp [h]

omit [Arith F] [Lib F] in
theorem attrLoop_array (as : Attrs) : attrLoop arrayAttr as () = .ok () ↔
    ∀ s ∈ values "n" as, s = "" ∨ (parseInt (trimSpace s)).isSome := by
  induction as with
  | nil => simp [attrLoop, values]
  | cons a as ih =>
    obtain ⟨k, v⟩ := a
    simp only [attrLoop, arrayAttr]
    by_cases h : k = "n"
    · subst h
      simp only [if_true, values, List.filter_cons, decide_true, List.map_cons, List.forall_mem_cons]
      unfold attrInt
      by_cases hv : v = ""
      · simp only [hv, if_true, Except.map, true_or, true_and]
        exact ih
      · simp only [hv, if_false, false_or]
        cases hp : parseInt (trimSpace v) with
        | none => simp [parsed, Except.map]
        | some x =>
          simp only [parsed, Except.map, Option.isSome_some, true_and]
          exact ih
    · simp only [h, if_false, values, List.filter_cons, decide_false, Bool.false_eq_true]
      exact ih

omit [Arith F] [Lib F] in
theorem reflectLoop_set (ch : List Xml) : reflectLoop setChild ch () = .ok () ↔
    ∀ as' ch', Xml.elem "Array" as' ch' ∈ ch → attrLoop arrayAttr as' () = .ok () := by
  induction ch with
  | nil => simp [reflectLoop]
  | cons c ch ih =>
    cases c with
    | text r v => simpa [reflectLoop] using ih
    | elem n as' ch' =>
      simp only [reflectLoop, setChild]
      by_cases h : n = "Array"
      · subst h
        simp only [if_true]
        cases hx : attrLoop arrayAttr as' () with
        | error e =>
          simp only [reduceCtorEq, false_iff]
          intro hall
          have := hall as' ch' (by simp)
          rw [hx] at this
          cases this
        | ok u =>
          simp only
          rw [ih]
          constructor
          · intro hall as2 ch2 hm
            rcases List.mem_cons.1 hm with he | hm
            · cases he; exact hx
            · exact hall as2 ch2 hm
          · intro hall as2 ch2 hm
            exact hall as2 ch2 (List.mem_cons_of_mem _ hm)
      · simp only [h, if_false]
        rw [ih]
        constructor
        · intro hall as2 ch2 hm
          rcases List.mem_cons.1 hm with he | hm
          · cases he; exact absurd rfl h
          · exact hall as2 ch2 hm
        · intro hall as2 ch2 hm
          exact hall as2 ch2 (List.mem_cons_of_mem _ hm)

omit [Arith F] [Lib F] in
/-- C56 (set predicates): only the field is kept; the sole reason to fail is an array size that is
not a number. -/
theorem C56_set (as : Attrs) (ch : List Xml) (p : Pred F) :
    decodePred (F := F) "SimpleSetPredicate" as ch = some (.ok p) ↔
      p = .set (Spec.attr as "field") ∧
      ∀ as' ch', Xml.elem "Array" as' ch' ∈ ch → ∀ s ∈ values "n" as',
        s = "" ∨ (parseInt (trimSpace s)).isSome := by
  have hs : attrLoop (fun k v (f : String) => (.ok (if k = "field" then v else f) : Dec String)) as "" =
      .ok (Spec.attr as "field") := by
    rw [attrLoop_pure "field" (fun v => v)]
    simp [Spec.attr]
  have hall : (∀ as' ch', Xml.elem "Array" as' ch' ∈ ch → ∀ s ∈ values "n" as',
      s = "" ∨ (parseInt (trimSpace s)).isSome) ↔ reflectLoop setChild ch () = .ok () := by
    rw [reflectLoop_set]
    exact ⟨fun h as' ch' hm => (attrLoop_array as').2 (h as' ch' hm),
      fun h as' ch' hm => (attrLoop_array as').1 (h as' ch' hm)⟩
  rw [hall]
  have hd : decodePred (F := F) "SimpleSetPredicate" as ch =
      some (match attrLoop (fun k v (f : String) => (.ok (if k = "field" then v else f) : Dec String))
          as "" with
        | .error e => .error e
        | .ok f => (reflectLoop setChild ch ()).map fun _ => .set f) := by
    rfl
  rw [hd, hs]
  simp only [Option.some.injEq]
  cases hx : reflectLoop setChild ch () with
  | error e => simp [Except.map]
  | ok u => simp [Except.map, eq_comm]

/-- The number an attribute read by reflection stands for: empty means 0. -/
def _root_.Gopmml.Spec.float (s : String) : Option F :=
  if s = "" then some Arith.zero else Lib.parseFloat (trimSpace s)

theorem attrFloat_eq (s : String) (x : F) : attrFloat s = .ok x ↔ Spec.float s = some x := by
  unfold attrFloat Spec.float
  by_cases h : s = ""
  · simp [h]
  · simp only [h, if_false]
    cases Lib.parseFloat (F := F) (trimSpace s) <;> simp [parsed]

theorem attrLoop_dist (as : Attrs) : ∀ (d0 d : ScoreDistribution F),
    attrLoop distAttr as d0 = .ok d ↔ ∃ rs cs ps : List F,
      List.Forall₂ (fun s x => Spec.float s = some x) (values "recordCount" as) rs ∧
      List.Forall₂ (fun s x => Spec.float s = some x) (values "confidence" as) cs ∧
      List.Forall₂ (fun s x => Spec.float s = some x) (values "probability" as) ps ∧
      d = ⟨(Spec.attr? as "value").getD d0.value, rs.getLast?.getD d0.recordCount,
        cs.getLast?.or d0.confidence, ps.getLast?.or d0.probability⟩ := by
  induction as with
  | nil =>
    intro d0 d
    simp only [attrLoop, Spec.attr?, values, List.filter_nil, List.map_nil,
      List.forall₂_nil_left_iff, Except.ok.injEq]
    constructor
    · rintro rfl
      exact ⟨[], [], [], rfl, rfl, rfl, rfl⟩
    · rintro ⟨rs, cs, ps, rfl, rfl, rfl, rfl⟩
      rfl
  | cons a as ih =>
    intro d0 d
    obtain ⟨k, v⟩ := a
    have hlF : ∀ (l : List F) (v w : F), ((v :: l).getLast?).getD w = (l.getLast?).getD v := by
      intro l v w
      cases l using List.reverseRecOn <;> simp [List.getLast?_cons]
    have hlO : ∀ (l : List F) (v : F) (w : Option F),
        ((v :: l).getLast?).or w = (l.getLast?).or (some v) := by
      intro l v w
      cases l using List.reverseRecOn <;> simp [List.getLast?_cons]
    simp only [attrLoop, distAttr, attr?_cons]
    by_cases h1 : k = "confidence"
    · subst h1
      simp only [if_true, values, List.filter_cons, decide_true, List.map_cons, String.reduceEq,
        decide_false, Bool.false_eq_true, if_false]
      cases hp : attrFloat (F := F) v with
      | error e =>
        simp only [Except.map]
        constructor
        · intro h; cases h
        · rintro ⟨rs, cs, ps, -, hc, -⟩
          cases hc with
          | cons h1 h2 => rw [← attrFloat_eq, hp] at h1; cases h1
      | ok x =>
        simp only [Except.map]
        rw [ih]
        constructor
        · rintro ⟨rs, cs, ps, h1, h2, h3, rfl⟩
          exact ⟨rs, x :: cs, ps, h1, .cons ((attrFloat_eq _ _).1 hp) h2, h3, by rw [hlO]⟩
        · rintro ⟨rs, cs, ps, h1, h2, h3, rfl⟩
          cases h2 with
          | cons ha hb =>
            rw [← attrFloat_eq, hp] at ha
            cases ha
            exact ⟨rs, _, ps, h1, hb, h3, by rw [hlO]⟩
    rw [if_neg h1]
    by_cases h2 : k = "probability"
    · subst h2
      simp only [if_true, values, List.filter_cons, decide_true, List.map_cons, String.reduceEq,
        decide_false, Bool.false_eq_true, if_false]
      cases hp : attrFloat (F := F) v with
      | error e =>
        simp only [Except.map]
        constructor
        · intro h; cases h
        · rintro ⟨rs, cs, ps, -, -, hc, -⟩
          cases hc with
          | cons h1 h2 => rw [← attrFloat_eq, hp] at h1; cases h1
      | ok x =>
        simp only [Except.map]
        rw [ih]
        constructor
        · rintro ⟨rs, cs, ps, h1, h2, h3, rfl⟩
          exact ⟨rs, cs, x :: ps, h1, h2, .cons ((attrFloat_eq _ _).1 hp) h3, by rw [hlO]⟩
        · rintro ⟨rs, cs, ps, h1, h2, h3, rfl⟩
          cases h3 with
          | cons ha hb =>
            rw [← attrFloat_eq, hp] at ha
            cases ha
            exact ⟨rs, cs, _, h1, h2, hb, by rw [hlO]⟩
    rw [if_neg h2]
    by_cases h3 : k = "recordCount"
    · subst h3
      simp only [if_true, values, List.filter_cons, decide_true, List.map_cons, String.reduceEq,
        decide_false, Bool.false_eq_true, if_false]
      cases hp : attrFloat (F := F) v with
      | error e =>
        simp only [Except.map]
        constructor
        · intro h; cases h
        · rintro ⟨rs, cs, ps, hc, -⟩
          cases hc with
          | cons h1 h2 => rw [← attrFloat_eq, hp] at h1; cases h1
      | ok x =>
        simp only [Except.map]
        rw [ih]
        constructor
        · rintro ⟨rs, cs, ps, h1, h2, h3, rfl⟩
          exact ⟨x :: rs, cs, ps, .cons ((attrFloat_eq _ _).1 hp) h1, h2, h3, by rw [hlF]⟩
        · rintro ⟨rs, cs, ps, h1, h2, h3, rfl⟩
          cases h1 with
          | cons ha hb =>
            rw [← attrFloat_eq, hp] at ha
            cases ha
            exact ⟨_, cs, ps, hb, h2, h3, by rw [hlF]⟩
    rw [if_neg h3]
    by_cases h4 : k = "value"
    · subst h4
      simp only [if_true, values, List.filter_cons, String.reduceEq, decide_false,
        Bool.false_eq_true, if_false]
      rw [ih]
      simp [values]
    rw [if_neg h4]
    simp only [h4, if_false, values, List.filter_cons, h1, h2, h3, decide_false, Bool.false_eq_true]
    rw [ih]

/-- C56 (score distributions): the attributes written; numbers must parse, an empty one is 0; an
omitted confidence or probability stays absent. -/
theorem C56_distribution (as : Attrs) (d : ScoreDistribution F) :
    decodeDist as = .ok d ↔ ∃ rs cs ps : List F,
      List.Forall₂ (fun s x => Spec.float s = some x) (values "recordCount" as) rs ∧
      List.Forall₂ (fun s x => Spec.float s = some x) (values "confidence" as) cs ∧
      List.Forall₂ (fun s x => Spec.float s = some x) (values "probability" as) ps ∧
      d = ⟨Spec.attr as "value", rs.getLast?.getD Arith.zero, cs.getLast?, ps.getLast?⟩ := by
  unfold decodeDist
  rw [attrLoop_dist]
  simp only [Option.or_none, Spec.attr]

end

end Gopmml.Props
