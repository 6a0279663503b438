import Verif.Spec.Heap
import Verif.Props.Verify

/-!
# Calls by reference
-/

namespace Gopmml

open Spec

variable {F : Type}

namespace Heap

theorem row_append {h : Heap F} {r : Ref} (hr : Ref.Held h r) (m : GoMap (GoVal F)) :
    row (h ++ [m]) r = row h r := by
  cases r with
  | none => rfl
  | some i => exact List.getElem?_append_left (hr i rfl)

theorem row_last (h : Heap F) (m : GoMap (GoVal F)) : row (h ++ [m]) (some h.length) = some m := by
  simp [row]

theorem store_last (h : Heap F) (m : GoMap (GoVal F)) (k : String) (v : GoVal F) :
    store (h ++ [m]) (some h.length) k v = h ++ [m.insert k v] := by
  simp only [store, put]
  induction h with
  | nil => rfl
  | cons a h ih => simp only [List.cons_append, List.length_cons, List.modify_succ_cons, ih]

theorem make_fst (h : Heap F) : h.make.1 = some h.length := rfl
theorem make_snd (h : Heap F) : h.make.2 = h ++ [∅] := rfl

theorem row_held {h : Heap F} {i : Nat} (hr : Ref.Held h (some i)) : ∃ m, h.row (some i) = some m :=
  ⟨h[i]'(hr i rfl), List.getElem?_eq_getElem (hr i rfl)⟩

/-- Writing by address is writing to the content. -/
theorem put_spec {h : Heap F} {r : Ref} (hr : Ref.Held h r) (k : String) (v : GoVal F) :
    match (h.row r).set k v with
    | .error e => h.put r k v = (.error e, h)
    | .ok row' => ∃ h', h.put r k v = (.ok (), h') ∧ h'.row r = row' ∧ h'.length = h.length ∧
        OnlyTouches h r h' := by
  cases r with
  | none => rfl
  | some i =>
    obtain ⟨m, hm⟩ := row_held hr
    rw [hm]
    refine ⟨_, rfl, ?_, by simp, by simp, ?_⟩
    · have : h[i]? = some m := hm
      simp [row, this]
    · intro j _ hj
      have : i ≠ j := fun e => hj (by rw [e])
      simp [this]

end Heap

theorem held_mono {h h' : Heap F} {r : Ref} (hl : h.length ≤ h'.length) (hr : Ref.Held h r) : Ref.Held h' r :=
  fun i hi => lt_of_lt_of_le (hr i hi) hl

theorem Spec.OnlyTouches.refl (h : Heap F) (r : Ref) : OnlyTouches h r h := ⟨le_rfl, fun _ _ _ => rfl⟩

theorem Spec.OnlyTouches.trans {h h' h'' : Heap F} {r : Ref} (h1 : OnlyTouches h r h') (h2 : OnlyTouches h' r h'') :
    OnlyTouches h r h'' :=
  ⟨h1.1.trans h2.1, fun j hj hr => (h2.2 j (lt_of_lt_of_le hj h1.1) hr).trans (h1.2 j hj hr)⟩

theorem Spec.OnlyTouches.append (h : Heap F) (r : Ref) (m : GoMap (GoVal F)) : OnlyTouches h r (h ++ [m]) :=
  ⟨by simp, fun _ hj _ => List.getElem?_append_left hj⟩

/-- A loop that writes to one row, by address and by content. -/
def LoopRefines (h : Heap F) (r : Ref) (a : Res Unit × Row F) (b : Res Unit × Heap F) : Prop :=
  b.1 = a.1 ∧ b.2.row r = a.2 ∧ b.2.length = h.length ∧ OnlyTouches h r b.2

theorem LoopRefines.step {h h' : Heap F} {r : Ref} {a : Res Unit × Row F} {b : Res Unit × Heap F}
    (hl : h'.length = h.length) (ht : OnlyTouches h r h') (hs : LoopRefines h' r a b) : LoopRefines h r a b :=
  ⟨hs.1, hs.2.1, hs.2.2.1.trans hl, ht.trans hs.2.2.2⟩

theorem imputeRef_spec (r : Ref) (es : List (String × GoVal F)) (h : Heap F) (hr : Ref.Held h r) :
    LoopRefines h r (imputeLoop es (h.row r)) (imputeRef r es h) := by
  induction es generalizing h with
  | nil => exact ⟨rfl, rfl, rfl, .refl _ _⟩
  | cons e es ih =>
    obtain ⟨fld, d⟩ := e
    rw [imputeLoop, imputeRef]
    cases hv : (h.row r).getD fld with
    | nil =>
      simp only
      have hp := Heap.put_spec hr fld d
      cases hs : (h.row r).set fld d with
      | error e =>
        rw [hs] at hp
        rw [hp]
        exact ⟨rfl, rfl, rfl, .refl _ _⟩
      | ok row' =>
        rw [hs] at hp
        obtain ⟨h', hp, hrow, hl, ht⟩ := hp
        rw [hp]
        simp only
        rw [← hrow]
        exact .step hl ht (ih h' (held_mono hl.ge hr))
    | _ => exact ih h hr

theorem copyRef_spec (src dst : Ref) (hne : src ≠ dst ∨ src = none) (es : List (String × GoVal F)) (h : Heap F)
    (hr : Ref.Held h dst) (hs : Ref.Held h src)
    (hes : ∀ p ∈ es, (h.row src).get p.1 = some p.2) :
    LoopRefines h dst (writeAll es (h.row dst)) (copyRef src dst (es.map (·.1)) h) := by
  induction es generalizing h with
  | nil => exact ⟨rfl, rfl, rfl, .refl _ _⟩
  | cons e es ih =>
    obtain ⟨k, v⟩ := e
    rw [writeAll, List.map_cons, copyRef]
    rw [hes (k, v) (by simp)]
    simp only
    have hp := Heap.put_spec hr k v
    cases hset : (h.row dst).set k v with
    | error e =>
      rw [hset] at hp
      rw [hp]
      exact ⟨rfl, rfl, rfl, .refl _ _⟩
    | ok row' =>
      rw [hset] at hp
      obtain ⟨h', hp, hrow, hl, ht⟩ := hp
      rw [hp]
      simp only
      rw [← hrow]
      refine .step hl ht (ih h' (held_mono hl.ge hr) (held_mono hl.ge hs) ?_)
      intro p hp
      have : h'.row src = h.row src := by
        cases src with
        | none => rfl
        | some i =>
          rcases hne with hne | hne
          · exact ht.2 i (hs i rfl) (fun e => hne e.symm)
          · cases hne
      rw [this]
      exact hes p (by simp [hp])

/-- `range` visits the entries. -/
theorem range_get (o : MapOrd) (m : GoMap (GoVal F)) {p : String × GoVal F} (hp : p ∈ o.range m) :
    m[p.1]? = some p.2 := by
  have := (o.perm [] m.toList).mem_iff.mp hp
  exact Std.ExtTreeMap.mem_toList_iff_getElem?_eq_some.mp this

theorem binaryOutRef_last (outputs : List OutputField) (cat : String) (pred : F) (h : Heap F)
    (m : GoMap (GoVal F)) :
    binaryOutRef outputs cat pred (some h.length) (h ++ [m]) = h ++ [binaryOut outputs cat pred m] := by
  unfold binaryOutRef binaryOut
  induction outputs generalizing m with
  | nil => rfl
  | cons o os ih =>
    simp only [List.foldl_cons]
    by_cases hc : cat = o.value
    · simp only [if_pos hc, Heap.store_last]; exact ih _
    · simp only [if_neg hc]; exact ih _

variable [Arith F] [Lib F]

theorem inputRef_spec (r : Ref) (dfs : List (DerivedField F)) (h : Heap F) (hr : Ref.Held h r) :
    LoopRefines h r (handleInput dfs (h.row r)) (inputRef r dfs h) := by
  induction dfs generalizing h with
  | nil => exact ⟨rfl, rfl, rfl, .refl _ _⟩
  | cons df dfs ih =>
    rw [handleInput, inputRef]
    cases he : handleExpression (h.row r) df.expr with
    | error e => exact ⟨rfl, rfl, rfl, .refl _ _⟩
    | ok v =>
      simp only
      have hp := Heap.put_spec hr df.name (storeValue df.opType v)
      cases hs : (h.row r).set df.name (storeValue df.opType v) with
      | error e =>
        rw [hs] at hp
        rw [hp]
        exact ⟨rfl, rfl, rfl, .refl _ _⟩
      | ok row' =>
        rw [hs] at hp
        obtain ⟨h', hp, hrow, hl, ht⟩ := hp
        rw [hp]
        simp only
        rw [← hrow]
        exact .step hl ht (ih h' (held_mono hl.ge hr))

omit [Arith F] [Lib F] in
theorem outStepRef_last (scores : List (ScoreDist F)) (h : Heap F) (m : GoMap (GoVal F)) (keys : GoMap String) :
    scores.foldl (outStepRef (some h.length)) (h ++ [m], keys) =
      (h ++ [(scores.foldl outStep (m, keys)).1], (scores.foldl outStep (m, keys)).2) := by
  induction scores generalizing m keys with
  | nil => rfl
  | cons s ss ih =>
    simp only [List.foldl_cons]
    have : outStepRef (some h.length) (h ++ [m], keys) s =
        (h ++ [(outStep (m, keys) s).1], (outStep (m, keys) s).2) := by
      unfold outStepRef outStep
      simp only
      cases keys[s.value]? <;> simp only [Heap.store_last]
    rw [this]
    exact ih _ _

theorem averageRef_last (n : Nat) (h : Heap F) (es : List (String × GoVal F)) (m : GoMap (GoVal F))
    (hes : ∀ p ∈ es, m[p.1]? = some p.2) (hd : (es.map (·.1)).Nodup) :
    averageRef n (some h.length) (es.map (·.1)) (h ++ [m]) = h ++ [averageLoop n es m] := by
  induction es generalizing m with
  | nil => rfl
  | cons e es ih =>
    obtain ⟨k, v⟩ := e
    rw [List.map_cons, averageRef, Heap.row_last]
    have hk : Row.get (some m) k = some v := hes (k, v) (by simp)
    rw [hk]
    simp only [Heap.store_last]
    rw [averageLoop, List.foldl_cons]
    refine ih _ ?_ (List.nodup_cons.mp hd).2
    intro p hp
    have hne : k ≠ p.1 := by
      intro e
      refine (List.nodup_cons.mp hd).1 ?_
      rw [e]
      exact List.mem_map_of_mem (f := (·.1)) hp
    rw [Std.ExtTreeMap.getElem?_insert]
    have : compare k p.1 ≠ .eq := fun h => hne (Std.LawfulEqOrd.eq_of_compare h)
    simp only [if_neg this]
    exact hes p (by simp [hp])

omit [Arith F] [Lib F] in
theorem refines_error {S : Type} {h h' : Heap F} {r : Ref} {m : S} {f : Fault} {row : Row F}
    (hrow : h'.row r = row) (ht : OnlyTouches h r h') :
    Refines h r (⟨.error f, row, m⟩ : Ev F (Out F) S) ⟨.error f, h', m⟩ := ⟨rfl, hrow, ht, rfl⟩

omit [Arith F] [Lib F] in
/-- An answer made at the end of `h'`. -/
theorem refines_last {S : Type} {h h' : Heap F} {r : Ref} {m : S} {row : Row F} {a : GoMap (GoVal F)}
    (hr : Ref.Held h r) (hrow : h'.row r = row) (ht : OnlyTouches h r h') :
    Refines h r (⟨.ok (some a), row, m⟩ : Ev F (Out F) S) ⟨.ok (some h'.length), h' ++ [a], m⟩ :=
  ⟨rfl, (Heap.row_append (held_mono ht.1 hr) a).trans hrow, ht.trans (.append _ _ _),
    h'.length, rfl, ht.1, by simp⟩

theorem treeRef_spec (o : MapOrd) (m : TreeModel F) (r : Ref) (h : Heap F) (hr : Ref.Held h r) :
    Refines h r (m.evaluate o (h.row r)) (m.evaluateRef o r h) := by
  unfold TreeModel.evaluate TreeModel.evaluateRef
  by_cases hv : m.validated = true
  swap
  · rw [if_pos hv, if_pos hv]; exact refines_error rfl (.refl _ _)
  by_cases hc : m.compiled = true
  swap
  · rw [if_neg (not_not.mpr hv), if_pos hc, if_neg (not_not.mpr hv), if_pos hc]
    exact refines_error rfl (.refl _ _)
  rw [if_neg (not_not.mpr hv), if_neg (not_not.mpr hc), if_neg (not_not.mpr hv), if_neg (not_not.mpr hc)]
  have hi := inputRef_spec r m.model.localTransformations h hr
  revert hi
  rcases handleInput m.model.localTransformations (h.row r) with ⟨ra, row'⟩
  rcases inputRef r m.model.localTransformations h with ⟨rb, h'⟩
  intro hi
  obtain ⟨h1, h2, h3, h4⟩ := hi
  dsimp only at h1 h2 h3 h4
  subst h1 h2
  rcases rb with f | ⟨⟨⟩⟩
  · exact refines_error rfl h4
  simp only
  rcases evalNode m.ctx o (h'.row r) m.root with f | ⟨scores, result⟩
  · exact refines_error rfl h4
  simp only [TreeModel.output]
  by_cases ht : result = .t
  swap
  · simp only [if_neg ht]
    exact ⟨rfl, rfl, h4, rfl⟩
  simp only [if_pos ht, Heap.make_fst, Heap.make_snd]
  have happ : OnlyTouches h r (h' ++ [∅]) := h4.trans (.append _ _ _)
  have hrow' := Heap.row_append (held_mono h4.1 hr) (∅ : GoMap (GoVal F))
  cases m.model.functionName with
  | classification =>
    simp only [Heap.store_last, outStepRef_last]
    exact refines_last hr rfl h4
  | regression =>
    simp only
    cases scores with
    | nil => exact refines_error hrow' happ
    | cons s ss =>
      simp only
      cases Lib.parseFloat (F := F) s.value with
      | none => exact refines_error hrow' happ
      | some x =>
        simp only [Heap.store_last]
        exact refines_last hr rfl h4
  | other x => exact refines_last hr rfl h4

variable [Trans F]

theorem binaryTablesRef_last (n : Normalization) (outputs : List OutputField) (r : Ref) (h : Heap F)
    (hr : Ref.Held h r) (ts : List (RegressionTable F)) (fp : F) (m : GoMap (GoVal F)) :
    (match binaryTables n outputs (h.row r) fp m ts with
    | .error f => ∃ m', binaryTablesRef n outputs r (some h.length) fp ts (h ++ [m]) = (.error f, h ++ [m'])
    | .ok m' => binaryTablesRef n outputs r (some h.length) fp ts (h ++ [m]) = (.ok (), h ++ [m'])) := by
  induction ts generalizing fp m with
  | nil => rfl
  | cons t ts ih =>
    rw [binaryTables, binaryTablesRef, Heap.row_append hr]
    by_cases hp : t.predictors ≠ []
    · simp only [if_pos hp]
      cases binaryLoop n (h.row r) t.intercept t.predictors with
      | error f => exact ⟨m, rfl⟩
      | ok pred =>
        simp only [binaryOutRef_last]
        exact ih _ _
    · simp only [if_neg hp, binaryOutRef_last]
      exact ih _ _

omit [Lib F] in
theorem multiclassRef_last (n : Normalization) (y : List F) (h : Heap F) (ts : List (String × F))
    (m : GoMap (GoVal F)) :
    (match multiclassOut n y m ts with
    | .error f => ∃ m', multiclassRef n y (some h.length) ts (h ++ [m]) = (.error f, h ++ [m'])
    | .ok m' => multiclassRef n y (some h.length) ts (h ++ [m]) = (.ok (), h ++ [m'])) := by
  induction ts generalizing m with
  | nil => rfl
  | cons t ts ih =>
    obtain ⟨t, yi⟩ := t
    rw [multiclassOut.eq_def, multiclassRef.eq_def]
    cases n with
    | softmax => simp only [Heap.store_last]; exact ih _
    | simplemax => simp only [Heap.store_last]; exact ih _
    | _ => exact ⟨m, rfl⟩

theorem regressionRef_spec (d : RegressionDoc F) (r : Ref) (h : Heap F) (hr : Ref.Held h r) :
    Refines h r (⟨d.evaluate (h.row r), h.row r, EModel.regression d⟩ : Ev F (Out F) (EModel F))
      ⟨(d.evaluateRef r h).1, (d.evaluateRef r h).2, .regression d⟩ := by
  have happ : ∀ m, OnlyTouches h r (h ++ [m]) := OnlyTouches.append h r
  have hrow' := fun m => Heap.row_append hr m
  unfold RegressionDoc.evaluate RegressionDoc.evaluateRef
  cases d.functionName with
  | regression =>
    simp only [RegressionDoc.evalRegression, RegressionDoc.regressionRef, Heap.make_fst, Heap.make_snd]
    rcases d.tables with _ | ⟨t, _ | ⟨t', ts⟩⟩
    · exact refines_error (hrow' _) (happ _)
    · simp only
      rcases d.outputs with _ | ⟨out, _ | ⟨o', os⟩⟩
      · exact refines_error (hrow' _) (happ _)
      · simp only [Heap.row_append hr]
        cases linearLoop (h.row r) t.intercept t.predictors with
        | error f => exact refines_error (hrow' _) (happ _)
        | ok y =>
          simp only [bind, Except.bind]
          cases normalize d.normalization y with
          | error f => exact refines_error (hrow' _) (happ _)
          | ok pred =>
            simp only [Heap.store_last]
            exact refines_last hr rfl (.refl _ _)
      · exact refines_error (hrow' _) (happ _)
    · exact refines_error (hrow' _) (happ _)
  | classification =>
    simp only [Heap.make_fst, Heap.make_snd]
    by_cases h2 : d.outputs.length = 2
    · simp only [if_pos h2, RegressionDoc.evalBinary]
      have := binaryTablesRef_last d.normalization d.outputs r h hr d.tables Arith.one ∅
      cases hb : binaryTables d.normalization d.outputs (h.row r) Arith.one ∅ d.tables with
      | error f =>
        rw [hb] at this
        obtain ⟨m', this⟩ := this
        rw [this]
        exact refines_error (hrow' _) (happ _)
      | ok m' =>
        rw [hb] at this
        rw [this]
        exact refines_last hr rfl (.refl _ _)
    · simp only [if_neg h2, RegressionDoc.evalMulticlass, Heap.row_append hr]
      cases linearAll (h.row r) d.tables with
      | error f => exact refines_error (hrow' _) (happ _)
      | ok y =>
        simp only [bind, Except.bind]
        have := multiclassRef_last d.normalization y h
          ((d.tables.map fun t => ((outFieldMap d.outputs)[t.targetCategory]?).getD "").zip y) ∅
        cases hb : multiclassOut d.normalization y ∅
            ((d.tables.map fun t => ((outFieldMap d.outputs)[t.targetCategory]?).getD "").zip y) with
        | error f =>
          rw [hb] at this
          obtain ⟨m', this⟩ := this
          rw [this]
          exact refines_error (hrow' _) (happ _)
        | ok m' =>
          rw [hb] at this
          rw [this]
          exact refines_last hr rfl (.refl _ _)
  | other x => exact refines_error rfl (.refl _ _)

omit [Lib F] [Trans F] in
theorem sumOutRef_eq (o : MapOrd) (s : MiningState F) (sm : GoMap F) (h : Heap F) :
    sumOutRef o s sm h = (some h.length, h ++ [sumFinish o s sm]) := by
  unfold sumOutRef sumFinish scoresToRow
  simp only [Heap.make_fst, Heap.make_snd]
  generalize o.range (rescale s.targets sm) = es
  congr 1
  generalize (∅ : GoMap (GoVal F)) = m
  induction es generalizing m with
  | nil => rfl
  | cons e es ih => simp only [List.foldl_cons, Heap.store_last]; exact ih _

omit [Arith F] [Lib F] [Trans F] in
theorem range_keys_nodup (o : MapOrd) (m : GoMap (GoVal F)) : ((o.range m).map (·.1)).Nodup := by
  refine ((o.perm [] m.toList).map _).nodup_iff.mpr ?_
  rw [Std.ExtTreeMap.map_fst_toList_eq_keys]
  exact Std.ExtTreeMap.nodup_keys

/-- The segments of a sum. -/
structure SumRefines (h : Heap F) (r : Ref) (e : Ev F (GoMap F) (List (EModel F)))
    (q : HEv F (GoMap F) (List (EModel F))) : Prop where
  model : q.model = e.model
  row : q.heap.row r = e.row
  touches : OnlyTouches h r q.heap
  res : q.res = e.res

/-- The segments of a chain: the answer is the last of them, or what was there already. -/
structure ChainRefines (h0 h : Heap F) (r : Ref) (e : Ev F (Out F) (List (EModel F)))
    (q : HEv F Ref (List (EModel F))) : Prop where
  model : q.model = e.model
  row : q.heap.row r = e.row
  touches : OnlyTouches h r q.heap
  answer : FreshAnswer h0 e.res q.res q.heap

mutual
theorem evaluateRef_spec : (m : EModel F) → (o : MapOrd) → (r : Ref) → (h : Heap F) → Ref.Held h r →
    Refines h r (EModel.evaluate o m (h.row r)) (EModel.evaluateRef o m r h)
  | .tree m, o, r, h, hr => by
    rw [EModel.evaluate, EModel.evaluateRef]
    have := treeRef_spec o m r h hr
    exact ⟨congrArg EModel.tree this.model, this.row, this.touches, this.answer⟩
  | .regression d, o, r, h, hr => by
    rw [EModel.evaluate, EModel.evaluateRef]
    exact regressionRef_spec d r h hr
  | .mining s ms, o, r, h, hr => by
    rw [EModel.evaluate, EModel.evaluateRef]
    by_cases hv : s.validated = true
    swap
    · rw [if_pos hv, if_pos hv]; exact refines_error rfl (.refl _ _)
    by_cases hc : s.compiled = true
    swap
    · rw [if_neg (not_not.mpr hv), if_pos hc, if_neg (not_not.mpr hv), if_pos hc]
      exact refines_error rfl (.refl _ _)
    rw [if_neg (not_not.mpr hv), if_neg (not_not.mpr hc), if_neg (not_not.mpr hv), if_neg (not_not.mpr hc)]
    have hi := imputeRef_spec r ((o.at_ 0).range s.defaultValues) h hr
    revert hi
    rcases imputeLoop ((o.at_ 0).range s.defaultValues) (h.row r) with ⟨ra, row1⟩
    rcases imputeRef r ((o.at_ 0).range s.defaultValues) h with ⟨rb, h1⟩
    intro hi
    obtain ⟨e1, e2, e3, t1⟩ := hi
    dsimp only at e1 e2 e3 t1
    subst e1 e2
    rcases rb with f | ⟨⟨⟩⟩
    · exact refines_error rfl t1
    simp only
    have hr1 := held_mono t1.1 hr
    have hi := inputRef_spec r s.head.localTransformations h1 hr1
    revert hi
    rcases handleInput s.head.localTransformations (h1.row r) with ⟨ra, row2⟩
    rcases inputRef r s.head.localTransformations h1 with ⟨rb, h2⟩
    intro hi
    obtain ⟨e1, e2, e4, t2⟩ := hi
    dsimp only at e1 e2 e4 t2
    subst e1 e2
    have t2 := t1.trans t2
    rcases rb with f | ⟨⟨⟩⟩
    · exact refines_error rfl t2
    simp only
    have hr2 := held_mono t2.1 hr
    cases s.head.method with
    | average =>
      simp only
      have hs := sumRef_spec ms (o.at_ 1) s.head.functionName 0 (initScores s) r h2 hr2
      revert hs
      rcases sumSegments (o.at_ 1) s.head.functionName 0 (initScores s) ms (h2.row r) with ⟨sa, rowa, ma⟩
      rcases sumSegmentsRef (o.at_ 1) s.head.functionName 0 (initScores s) ms r h2 with ⟨sb, h3, mb⟩
      intro hs
      obtain ⟨e1, e2, t3, e3⟩ := hs
      dsimp only at e1 e2 t3 e3
      subst e1 e2 e3
      have t3 := t2.trans t3
      cases sb with
      | error f => exact refines_error rfl t3
      | ok sm =>
        simp only [sumOutRef_eq, keysOf, Heap.row_last, Option.getD_some]
        rw [averageRef_last _ _ _ _ (fun p hp => range_get _ _ hp) (range_keys_nodup _ _)]
        exact refines_last hr rfl t3
    | sum =>
      simp only
      have hs := sumRef_spec ms (o.at_ 1) s.head.functionName 0 (initScores s) r h2 hr2
      revert hs
      rcases sumSegments (o.at_ 1) s.head.functionName 0 (initScores s) ms (h2.row r) with ⟨sa, rowa, ma⟩
      rcases sumSegmentsRef (o.at_ 1) s.head.functionName 0 (initScores s) ms r h2 with ⟨sb, h3, mb⟩
      intro hs
      obtain ⟨e1, e2, t3, e3⟩ := hs
      dsimp only at e1 e2 t3 e3
      subst e1 e2 e3
      have t3 := t2.trans t3
      cases sb with
      | error f => exact refines_error rfl t3
      | ok sm =>
        simp only [sumOutRef_eq]
        exact refines_last hr rfl t3
    | modelChain =>
      simp only [Heap.make_fst, Heap.make_snd]
      have ta : OnlyTouches h2 r (h2 ++ [∅]) := .append _ _ _
      have := chainRef_spec ms (o.at_ 1) 0 (some h2.length) (some ∅) h2 r (h2 ++ [∅]) hr2 ta.1
        ⟨h2.length, rfl, le_rfl, by simp⟩
      rw [Heap.row_append hr2] at this
      refine ⟨congrArg _ this.model, this.row, t2.trans (ta.trans this.touches), ?_⟩
      have ha := this.answer
      dsimp only
      unfold FreshAnswer at ha ⊢
      split at ha
      · exact ha
      · exact ha
      · obtain ⟨i, hi, hl, hm⟩ := ha
        exact ⟨i, hi, t2.1.trans hl, hm⟩
    | selectFirst =>
      simp only
      have := firstRef_spec ms (o.at_ 1) r h2 hr2
      refine ⟨congrArg _ this.model, this.row, t2.trans this.touches, ?_⟩
      have ha := this.answer
      dsimp only
      unfold FreshAnswer at ha ⊢
      split at ha
      · exact ha
      · exact ha
      · obtain ⟨i, hi, hl, hm⟩ := ha
        exact ⟨i, hi, t2.1.trans hl, hm⟩
    | _ => exact refines_error rfl t2
theorem firstRef_spec : (ms : List (EModel F)) → (o : MapOrd) → (r : Ref) → (h : Heap F) → Ref.Held h r →
    Refines h r (selectFirst o ms (h.row r)) (selectFirstRef o ms r h)
  | [], o, r, h, hr => by
    rw [selectFirst, selectFirstRef]; exact refines_error rfl (.refl _ _)
  | m :: ms, o, r, h, hr => by
    rw [selectFirst, selectFirstRef]
    have := evaluateRef_spec m o r h hr
    exact ⟨congrArg (· :: ms) this.model, this.row, this.touches, this.answer⟩
theorem chainRef_spec : (ms : List (EModel F)) → (o : MapOrd) → (i : Nat) → (lastRef : Ref) → (lastOut : Out F) →
    (h0 : Heap F) → (r : Ref) → (h : Heap F) → Ref.Held h0 r → h0.length ≤ h.length →
    FreshAnswer h0 (.ok lastOut) (.ok lastRef) h →
    ChainRefines h0 h r (chainSegments o i lastOut ms (h.row r)) (chainSegmentsRef o i lastRef ms r h)
  | [], o, i, lastRef, lastOut, h0, r, h, hr, hl, hf => by
    rw [chainSegments, chainSegmentsRef]; exact ⟨rfl, rfl, .refl _ _, hf⟩
  | m :: ms, o, i, lastRef, lastOut, h0, r, h, hr, hl, hf => by
    rw [chainSegments, chainSegmentsRef]
    have hlast : h.row lastRef = lastOut ∧ Ref.Held h lastRef ∧ (lastRef ≠ r ∨ lastRef = none) := by
      cases lastOut with
      | none =>
        have : lastRef = none := by simpa [FreshAnswer] using hf
        subst this
        exact ⟨rfl, fun _ hi => (by cases hi), .inr rfl⟩
      | some a =>
        obtain ⟨j, hj, hlj, ha⟩ := hf
        have : lastRef = some j := by simpa using hj
        subst this
        refine ⟨ha, fun k hk => ?_, .inl fun e => ?_⟩
        · cases hk
          exact (List.getElem?_eq_some_iff.mp ha).1
        · exact absurd (hr j e.symm) (by omega)
    obtain ⟨hlrow, hlheld, hne⟩ := hlast
    have hw := copyRef_spec lastRef r hne ((o.at_ (2 * i)).range (lastOut.getD ∅)) h (held_mono hl hr) hlheld (by
      intro p hp
      rw [hlrow]
      cases lastOut with
      | none =>
        have := range_get _ _ hp
        simp at this
      | some a => exact range_get _ _ hp)
    have hk : ((o.at_ (2 * i)).range (lastOut.getD ∅)).map (·.1) = keysOf (o.at_ (2 * i)) (h.row lastRef) := by
      rw [keysOf, hlrow]
    rw [hk] at hw
    revert hw
    rcases writeAll ((o.at_ (2 * i)).range (lastOut.getD ∅)) (h.row r) with ⟨ra, row1⟩
    rcases copyRef lastRef r (keysOf (o.at_ (2 * i)) (h.row lastRef)) h with ⟨rb, h1⟩
    intro hw
    obtain ⟨e1, e2, e3, t1⟩ := hw
    dsimp only at e1 e2 e3 t1
    subst e1 e2
    rcases rb with f | ⟨⟨⟩⟩
    · exact ⟨rfl, rfl, t1, rfl⟩
    simp only
    have hr1 := held_mono (hl.trans t1.1) hr
    have he := evaluateRef_spec m (o.at_ (2 * i + 1)) r h1 hr1
    revert he
    rcases EModel.evaluate (o.at_ (2 * i + 1)) m (h1.row r) with ⟨sa, rowa, ma⟩
    rcases EModel.evaluateRef (o.at_ (2 * i + 1)) m r h1 with ⟨sb, h2, mb⟩
    intro he
    obtain ⟨e1, e2, t2, ha⟩ := he
    dsimp only at e1 e2 t2 ha
    subst e1 e2
    cases sa with
    | error f =>
      have : sb = .error f := ha
      subst this
      exact ⟨rfl, rfl, t1.trans t2, rfl⟩
    | ok out =>
      have hl2 : h0.length ≤ h1.length := hl.trans t1.1
      have : ∃ ref, sb = .ok ref ∧ FreshAnswer h0 (.ok out) (.ok ref) h2 := by
        cases out with
        | none => exact ⟨none, ha, rfl⟩
        | some a =>
          obtain ⟨j, hj, hlj, ha⟩ := ha
          exact ⟨some j, hj, j, rfl, hl2.trans hlj, ha⟩
      obtain ⟨ref, hsb, hfr⟩ := this
      subst hsb
      simp only
      have := chainRef_spec ms o (i + 1) ref out h0 r h2 hr (hl2.trans t2.1) hfr
      exact ⟨congrArg _ this.model, this.row, t1.trans (t2.trans this.touches), this.answer⟩
theorem sumRef_spec : (ms : List (EModel F)) → (o : MapOrd) → (fn : MiningFunction) → (i : Nat) → (sm : GoMap F) →
    (r : Ref) → (h : Heap F) → Ref.Held h r →
    SumRefines h r (sumSegments o fn i sm ms (h.row r)) (sumSegmentsRef o fn i sm ms r h)
  | [], o, fn, i, sm, r, h, hr => by
    rw [sumSegments, sumSegmentsRef]; exact ⟨rfl, rfl, .refl _ _, rfl⟩
  | m :: ms, o, fn, i, sm, r, h, hr => by
    rw [sumSegments, sumSegmentsRef]
    have he := evaluateRef_spec m (o.at_ (2 * i)) r h hr
    revert he
    rcases EModel.evaluate (o.at_ (2 * i)) m (h.row r) with ⟨sa, rowa, ma⟩
    rcases EModel.evaluateRef (o.at_ (2 * i)) m r h with ⟨sb, h2, mb⟩
    intro he
    obtain ⟨e1, e2, t2, ha⟩ := he
    dsimp only at e1 e2 t2 ha
    subst e1 e2
    cases sa with
    | error f =>
      have : sb = .error f := ha
      subst this
      exact ⟨rfl, rfl, t2, rfl⟩
    | ok out =>
      have : ∃ ref, sb = .ok ref ∧ h2.row ref = out := by
        cases out with
        | none => exact ⟨none, ha, rfl⟩
        | some a =>
          obtain ⟨j, hj, hlj, ha⟩ := ha
          exact ⟨some j, hj, ha⟩
      obtain ⟨ref, hsb, hrow⟩ := this
      subst hsb
      simp only [hrow]
      have := sumRef_spec ms o fn (i + 1)
        (((o.at_ (2 * i + 1)).range sm).foldl (addScore fn out) sm) r h2 (held_mono t2.1 hr)
      exact ⟨congrArg _ this.model, this.row, t2.trans this.touches, this.res⟩
end

/-! ## Verify -/

omit [Arith F] [Lib F] [Trans F] in
theorem verifyInputRef_last (inp : GoMap String) (es : List (String × GoVal F)) (h : Heap F)
    (m : GoMap (GoVal F)) :
    verifyInputRef inp es (some h.length) (h ++ [m]) =
      h ++ [es.foldl (fun m kv => if kv.1 ∈ inp then m.insert kv.1 kv.2 else m) m] := by
  unfold verifyInputRef
  induction es generalizing m with
  | nil => rfl
  | cons e es ih =>
    simp only [List.foldl_cons]
    by_cases hc : e.1 ∈ inp
    · simp only [if_pos hc, Heap.store_last]; exact ih _
    · simp only [if_neg hc]; exact ih _

omit [Arith F] [Lib F] [Trans F] in
/-- What only touches a map that is new touches nothing old. -/
theorem Spec.OnlyTouches.of_new {h h' : Heap F} {m : GoMap (GoVal F)}
    (ht : OnlyTouches (h ++ [m]) (some h.length) h') (r : Ref) : OnlyTouches h r h' := by
  refine ⟨le_trans (by simp) ht.1, fun j hj _ => ?_⟩
  rw [ht.2 j (by simp; omega) (by simp; omega)]
  exact List.getElem?_append_left hj

theorem verifyRowsRef_spec (o : MapOrd) (inp out : GoMap String) (rows : List (GoMap (GoVal F))) (i : Nat)
    (m : EModel F) (h : Heap F) :
    (verifyRowsRef o inp out i rows m h).res = (verifyRows o inp out i rows m).1 ∧
    (verifyRowsRef o inp out i rows m h).model = (verifyRows o inp out i rows m).2 ∧
    OnlyTouches h none (verifyRowsRef o inp out i rows m h).heap := by
  induction rows generalizing i m h with
  | nil => exact ⟨rfl, rfl, .refl _ _⟩
  | cons vRow rows ih =>
    rw [verifyRows, verifyRowsRef]
    simp only [Heap.make_fst, Heap.make_snd, verifyInputRef_last]
    have he := evaluateRef_spec m (o.at_ (3 * i + 1)) (some h.length)
      (h ++ [verifyInput inp ((o.at_ (3 * i)).range vRow)]) (fun j hj => by cases hj; simp)
    rw [Heap.row_last] at he
    rw [show ((o.at_ (3 * i)).range vRow).foldl (fun m kv => if kv.1 ∈ inp then m.insert kv.1 kv.2 else m)
      (∅ : GoMap (GoVal F)) = verifyInput inp ((o.at_ (3 * i)).range vRow) from rfl]
    revert he
    rcases EModel.evaluate (o.at_ (3 * i + 1)) m (some (verifyInput inp ((o.at_ (3 * i)).range vRow)))
      with ⟨sa, rowa, ma⟩
    rcases EModel.evaluateRef (o.at_ (3 * i + 1)) m (some h.length)
      (h ++ [verifyInput inp ((o.at_ (3 * i)).range vRow)]) with ⟨sb, h2, mb⟩
    rintro ⟨e1, e2, t2, ha⟩
    dsimp only at e1 e2 t2 ha
    subst e1 e2
    have t2 := t2.of_new none
    cases sa with
    | error f =>
      have : sb = .error f := ha
      subst this
      exact ⟨rfl, rfl, t2⟩
    | ok a =>
      have : ∃ ref, sb = .ok ref ∧ h2.row ref = a := by
        cases a with
        | none => exact ⟨none, ha, rfl⟩
        | some a =>
          obtain ⟨j, hj, hlj, ha⟩ := ha
          exact ⟨some j, hj, ha⟩
      obtain ⟨ref, hsb, hrow⟩ := this
      subst hsb
      simp only [hrow]
      rcases verifyCompare out a ((o.at_ (3 * i + 2)).range vRow) with f | ⟨⟨⟩⟩
      · exact ⟨rfl, rfl, t2⟩
      · simp only
        obtain ⟨g1, g2, g3⟩ := ih (i + 1) mb h2
        exact ⟨g1, g2, t2.trans g3⟩

theorem verifyRef_spec (o : MapOrd) (m : EModel F) (h : Heap F) :
    (m.verifyRef o h).res = (m.verify o).1 ∧ (m.verifyRef o h).model = (m.verify o).2 ∧
    OnlyTouches h none (m.verifyRef o h).heap := by
  have key : ∀ mv, (verifyModelRef o m mv h).res = (verifyModel o m mv).1 ∧
      (verifyModelRef o m mv h).model = (verifyModel o m mv).2 ∧
      OnlyTouches h none (verifyModelRef o m mv h).heap := by
    intro mv
    cases mv with
    | none => exact ⟨rfl, rfl, .refl _ _⟩
    | some mv =>
      simp only [verifyModelRef, verifyModel]
      rcases verifyMaps mv.fields ∅ ∅ with f | ⟨inp, out⟩
      · exact ⟨rfl, rfl, .refl _ _⟩
      · exact verifyRowsRef_spec o inp out mv.rows 0 m h
  cases m <;> exact key _

/-! ## Programs -/

/-- Whatever a program does with its rows, its evaluator has only seen calls. -/
theorem runActs_calls (as : List (Act F)) (m : EModel F) (h : Heap F) :
    ∃ calls : List (Props.Call F), (runActs as m h).1 = calls.foldl Props.Call.run m := by
  induction as generalizing m h with
  | nil => exact ⟨[], rfl⟩
  | cons a as ih =>
    obtain ⟨calls, hc⟩ := ih (a.run m h).1 (a.run m h).2
    rw [runActs, hc]
    cases a with
    | call o r =>
      simp only [Act.run]
      by_cases hr : Ref.Held h r
      · rw [if_pos hr]
        exact ⟨.evaluate o (h.row r) :: calls, by
          rw [List.foldl_cons, Props.Call.run, (evaluateRef_spec m o r h hr).model]⟩
      · rw [if_neg hr]; exact ⟨calls, rfl⟩
    | verify o => exact ⟨.verify o :: calls, by rw [List.foldl_cons, Props.Call.run, Act.run, (verifyRef_spec o m h).2.1]⟩
    | make => exact ⟨calls, rfl⟩
    | write r k v => exact ⟨calls, rfl⟩
    | delete r k => exact ⟨calls, rfl⟩

theorem act_spares (a : Act F) (i : Nat) (ha : Act.Spares i a) (m : EModel F) (h : Heap F) (hi : i < h.length) :
    (a.run m h).2[i]? = h[i]? ∧ h.length ≤ (a.run m h).2.length := by
  cases a with
  | call o r =>
    simp only [Act.run]
    by_cases hr : Ref.Held h r
    · rw [if_pos hr]
      have := (evaluateRef_spec m o r h hr).touches
      exact ⟨this.2 i hi ha, this.1⟩
    · rw [if_neg hr]; exact ⟨rfl, le_rfl⟩
  | verify o =>
    have := (verifyRef_spec o m h).2.2
    exact ⟨this.2 i hi (by simp), this.1⟩
  | make => exact ⟨List.getElem?_append_left hi, by simp [Act.run, Heap.make]⟩
  | write r k v =>
    cases r with
    | none => exact ⟨rfl, le_rfl⟩
    | some j =>
      have : j ≠ i := fun e => ha (by rw [e])
      simp [Act.run, Heap.put, this]
  | delete r k =>
    cases r with
    | none => exact ⟨rfl, le_rfl⟩
    | some j =>
      have : j ≠ i := fun e => ha (by rw [e])
      simp [Act.run, this]

theorem runActs_spares (as : List (Act F)) (i : Nat) (has : ∀ a ∈ as, Act.Spares i a) (m : EModel F)
    (h : Heap F) (hi : i < h.length) : (runActs as m h).2[i]? = h[i]? := by
  induction as generalizing m h with
  | nil => rfl
  | cons a as ih =>
    have := act_spares a i (has a (by simp)) m h hi
    rw [runActs, ih (fun b hb => has b (by simp [hb])) _ _ (lt_of_lt_of_le hi this.2), this.1]

end Gopmml
