import Verif.Proofs.Safe
import Verif.Props.History
import Verif.Model.Samples

/-!
# Property C94: a check of the document that rules out run-time errors
-/

namespace Gopmml.Props
open Gopmml Spec

variable {F : Type} [Arith F] [Lib F] [Trans F]

/-- **C94**: a document that passes the check for the fields `K` answers every row that holds these fields:
Evaluate returns neither an error nor a panic, whatever else is in the row, whatever was evaluated before, and in
whatever order maps are visited. -/
theorem C94_never_fails {dd : List DataField} {e : ModelElem F} {td td' : TD F} {m : EModel F}
    (h : newModel dd e td = (.ok m, td')) {K : List String} (hs : safe dd K e = true)
    (hist : List (MapOrd × Row F)) (o : MapOrd) (r : GoMap (GoVal F)) (hK : ∀ k ∈ K, (r[k]?).isSome) :
    ∃ out, (EModel.evaluate o (afterCalls m hist) (some r)).res = .ok out := by
  obtain ⟨out, -, h1, -⟩ := safe_answers h K hs o r hK
  rw [(C26_history h hist o (some r)).1]
  exact ⟨out, h1⟩

/-- **C94**: on such rows no field is lost, and the row and the answer hold at least the fields that the check
relies on in later segments. -/
theorem C94_certain {dd : List DataField} {e : ModelElem F} {td td' : TD F} {m : EModel F}
    (h : newModel dd e td = (.ok m, td')) {K : List String} (hs : safe dd K e = true)
    (o : MapOrd) (r : GoMap (GoVal F)) (hK : ∀ k ∈ K, (r[k]?).isSome) :
    ∃ r' : GoMap (GoVal F), (EModel.evaluate o m (some r)).row = some r' ∧
      (∀ k : String, (r[k]?).isSome → (r'[k]?).isSome) ∧ (∀ k ∈ leaves e, (r'[k]?).isSome) ∧
      ∀ k ∈ gives e, ∃ a : GoMap (GoVal F), ∃ v, (EModel.evaluate o m (some r)).res = .ok (some a) ∧
        a[k]? = some v := by
  obtain ⟨out, r', h1, h2, h3, h4, h5⟩ := safe_answers h K hs o r hK
  refine ⟨r', h2, h3, h4, fun k hk => ?_⟩
  have := h5 k hk
  cases out with
  | none => simp at this
  | some a =>
    obtain ⟨v, hv⟩ := Option.isSome_iff_exists.mp this
    exact ⟨a, v, h1, hv⟩

/-- **C94**: a regression answers a row, nil or not, exactly if the row holds the fields of its tables and it is
of a kind the library can evaluate. -/
theorem C94_regression {dd : List DataField} {d : RegressionDoc F} {td td' : TD F} {m : EModel F}
    (h : newModel dd (.regression d) td = (.ok m, td')) (o : MapOrd) (row : Row F) :
    (∃ out, (EModel.evaluate o m row).res = .ok out) ↔
      (∀ t ∈ d.tables, ∀ np ∈ t.predictors, (row.get np.name).isSome) ∧ regressionKnown d = true := by
  obtain rfl : m = .regression d := by simp [newModel] at h; exact h.1.symm
  simp only [EModel.evaluate]
  rw [regression_answers]
  have : (∀ k ∈ tableFields d, (row.get k).isSome = true) ↔
      ∀ t ∈ d.tables, ∀ np ∈ t.predictors, (row.get np.name).isSome = true := by
    simp only [tableFields, List.mem_flatMap, List.mem_map]
    constructor
    · intro h t ht np hnp; exact h _ ⟨t, ht, np, hnp, rfl⟩
    · rintro h k ⟨t, ht, np, hnp, rfl⟩; exact h t ht np hnp
  rw [this]

/-- **C94**: for regressions the check is exact: it passes if and only if every row with these fields is
answered. -/
theorem C94_regression_exact {dd : List DataField} {d : RegressionDoc F} {td td' : TD F} {m : EModel F}
    (h : newModel dd (.regression d) td = (.ok m, td')) (K : List String) (o : MapOrd) :
    safe dd K (.regression d) = true ↔
      ∀ r : GoMap (GoVal F), (∀ k ∈ K, (r[k]?).isSome) → ∃ out, (EModel.evaluate o m (some r)).res = .ok out := by
  constructor
  · intro hs r hK
    obtain ⟨out, -, h1, -⟩ := safe_answers h K hs o r hK
    exact ⟨out, h1⟩
  · intro hall
    have hget : ∀ k : String, ((K.foldl (fun m k => m.insert k (.nil : GoVal F)) ∅ : GoMap (GoVal F))[k]?).isSome ↔
        k ∈ K := by
      intro k
      have key : ∀ (l : List String) (m : GoMap (GoVal F)),
          ((l.foldl (fun m k => m.insert k (.nil : GoVal F)) m)[k]?).isSome ↔ k ∈ l ∨ (m[k]?).isSome := by
        intro l
        induction l with
        | nil => intro m; simp
        | cons j l ih =>
          intro m
          rw [List.foldl_cons, ih, Std.ExtTreeMap.getElem?_insert]
          by_cases hj : j = k
          · simp [hj]
          · have : ¬ k = j := fun h => hj h.symm
            simp [hj, this]
      rw [key]
      simp
    have h1 := (C94_regression h o (some _)).mp (hall _ (fun k hk => (hget k).mpr hk))
    rw [safe, safeRegression, Bool.and_eq_true]
    refine ⟨?_, h1.2⟩
    simp only [tableFields, List.all_eq_true, List.mem_flatMap, List.mem_map, List.contains_eq_mem,
      decide_eq_true_eq]
    rintro k ⟨t, ht, np, hnp, rfl⟩
    exact (hget _).mp (h1.1 t ht np hnp)

omit [Trans F] in
/-- **C94**: for expressions without choices the check is exact as well, and it does not matter which row is
looked at. -/
theorem C94_expression_exact (e : Expr F) (hp : plain e = true) (K : List String) :
    (safeExpr K e = true ↔ ∃ (row : Row F) (v : GoVal F), handleExpression row e = .ok v) ∧
    (safeExpr K e = true ↔ ∀ r : GoMap (GoVal F), ∃ v, handleExpression (some r) e = .ok v) := by
  have h1 : (∃ (row : Row F) (v : GoVal F), handleExpression row e = .ok v) → ∀ K, safeExpr K e = true :=
    fun ⟨row, v, h⟩ K => safeExpr_of_ok e hp h
  have h2 : safeExpr K e = true → ∀ r : GoMap (GoVal F), ∃ v, handleExpression (some r) e = .ok v := by
    intro h r
    -- the value in a row that holds `K` shows that `K` is not needed
    obtain ⟨v, hv⟩ := safeExpr_ok (r := K.foldl (fun m k => m.insert k .nil) r) (K := K) (by
      intro k hk
      have key : ∀ (l : List String) (m : GoMap (GoVal F)), (k ∈ l ∨ (m[k]?).isSome) →
          ((l.foldl (fun m k => m.insert k (.nil : GoVal F)) m)[k]?).isSome := by
        intro l
        induction l with
        | nil => intro m h; simpa using h
        | cons j l ih =>
          intro m h
          rw [List.foldl_cons]
          apply ih
          rw [Std.ExtTreeMap.getElem?_insert]
          by_cases hj : j = k
          · simp [hj]
          · have : ¬ k = j := fun h => hj h.symm
            simpa [hj, this] using h
      exact key K r (.inl hk)) e h
    exact safeExpr_ok (K := []) (by simp [Holds]) e (h1 ⟨_, v, hv⟩ [])
  exact ⟨⟨fun h => ⟨some ∅, h2 h ∅⟩, fun h => h1 h K⟩,
    ⟨h2, fun h => h1 ⟨some ∅, h ∅⟩ K⟩⟩

section
open Samples Replay

/-- A regression on `x` whose answer is `p`, and one on `p` and the derived field `z`. -/
def stage (field out : String) : RegressionDoc F64 where
  functionName := .regression
  normalization := .logit
  tables := [⟨num "1", "", [⟨field, num "2", 1⟩]⟩]
  outputs := [⟨out, .empty, ""⟩]
  verification := none

def pipeline (first : String) : ModelElem F64 :=
  .mining { head .modelChain with
      targets := []
      localTransformations := [⟨"z", .double, .continuous,
        .apply "+" [.fieldRef "x", .const .double "1"]⟩] }
    [seg (.regression (stage first "p")), seg (.regression (stage "p" "q")),
      seg (ensemble .sum), seg (.regression (stage "y" "r"))]

-- C94: a chain that passes the check without any known field (x is replaced, z is derived, p, q and y are
-- answers of earlier segments), and one that needs the field w and fails without it.
example : safe Samples.dd [] (pipeline "z") = true ∧ gives (pipeline "z") = ["r"] ∧
    leaves (pipeline "z") = ["x", "z", "x"] ∧
    (newModel Samples.dd (pipeline "z") []).1.isOk ∧
    safe Samples.dd [] (pipeline "w") = false ∧ safe Samples.dd ["w"] (pipeline "w") = true ∧
    eval .sorted (pipeline "w") [] = some (fail (.missingTerm "w")) := by
  decide +kernel

-- C94: the sample ensembles pass the check without any known field; a score that is no number, a node without a
-- predicate, a null prediction and a strategy that mixes answers do not.
example : safe Samples.dd [] nested = true ∧
    safe Samples.dd [] (.tree (regTree "1" "ten")) = false ∧
    safe Samples.dd [] (.tree { regTree "1" "10" with noTrueChildStrategy := .returnNullPrediction }) = false ∧
    safe Samples.dd [] (.tree { regTree "1" "10" with missingValueStrategy := .aggregateNodes }) = false ∧
    safe Samples.dd [] (.tree { regTree "1" "10" with
      missingValueStrategy := .aggregateNodes, functionName := .classification }) = true ∧
    safe Samples.dd [] (.tree { regTree "1" "10" with node := .mk "" "" "0" (num "0") [] [] none }) = false := by
  decide +kernel

-- C94: a last child that always holds makes up for the null prediction.
example : safe Samples.dd [] (.tree { regTree "1" "10" with
      noTrueChildStrategy := .returnNullPrediction
      node := .mk "" "" "none" (num "0") [] [
        .mk "" "" "1" (num "0") [] [] (some (sp "x" .lessThan "5")),
        .mk "" "" "10" (num "0") [] [] (some .true_)] (some .true_) }) = true := by
  decide +kernel

-- C94: the check is not exact for expressions with choices: the branch that is not taken may be anything.
example : safeExpr (F := F64) [] (.apply "if" [.apply "isMissing" [.fieldRef "y"], .fieldRef "x", .other "Lag"]) = false ∧
    handleExpression (F := F64) (some ∅) (.apply "if" [.apply "isMissing" [.fieldRef "y"], .fieldRef "x", .other "Lag"]) =
      .ok .nil := by
  decide +kernel

-- C94: a plain expression.
example : plain (F := F64) (.apply "sum" [.fieldRef "x", .apply "*" [.const .double "2", .fieldRef "y"]]) = true ∧
    safeExpr (F := F64) [] (.apply "sum" [.fieldRef "x", .apply "*" [.const .double "2", .fieldRef "y"]]) = true ∧
    safeExpr (F := F64) ["x"] (.apply "sum" [.fieldRef "x", .apply "*" [.fieldRef "y"]]) = false := by
  decide +kernel

end

end Gopmml.Props
