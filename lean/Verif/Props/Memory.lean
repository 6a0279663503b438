import Verif.Proofs.Memory
import Verif.Model.Samples

/-!
# What answers, rows and evaluators may contain (C83)
-/

namespace Gopmml.Props

open Gopmml Spec

variable {F : Type} [Arith F] [Lib F] [Trans F]

theorem fits_afterCalls {dd : List DataField} {e : ModelElem F} (calls : List (MapOrd × Row F)) :
    ∀ {m : EModel F}, Fits dd e m → Fits dd e (afterCalls m calls) := by
  induction calls with
  | nil => intro m h; exact h
  | cons c cs ih => intro m h; exact ih (fits_evaluate m e h c.1 c.2).1

/-- **C83**: whatever was evaluated before, every answer has only keys listed by the document,
and so no more entries than the document lists different keys. -/
theorem C83_answers {dd : List DataField} {e : ModelElem F} {td td' : TD F} {m : EModel F}
    (h : newModel dd e td = (.ok m, td')) (calls : List (MapOrd × Row F)) (o : MapOrd) (row : Row F)
    {out : GoMap (GoVal F)} (hout : (EModel.evaluate o (afterCalls m calls) row).res = .ok (some out)) :
    (∀ k v, out[k]? = some v → k ∈ answerKeys dd e) ∧ out.size ≤ (answerKeys dd e).dedup.length := by
  have := (fits_evaluate _ e (fits_afterCalls calls (newModel_fits e td td' m h)) o row).2 out hout
  exact ⟨this, KeysIn.size_le this⟩

/-- Calling an evaluator again and again with one and the same row. -/
def reuse (m : EModel F) (row : Row F) (os : List MapOrd) : EModel F × Row F :=
  os.foldl (fun s o => ((EModel.evaluate o s.1 s.2).model, (EModel.evaluate o s.1 s.2).row)) (m, row)

theorem reuse_keeps {dd : List DataField} {e : ModelElem F} {k : String} (hk : k ∉ addedKeys dd e)
    (os : List MapOrd) : ∀ (m : EModel F) (row : Row F), Fits dd e m → Keeps k row (reuse m row os).2 := by
  induction os with
  | nil => intro m row _; exact ⟨rfl, Iff.rfl⟩
  | cons o os ih =>
    intro m row h
    have h1 := C41_frame m k (fun hw => hk (fits_writes hw h)) o row
    exact h1.trans (ih _ _ (fits_evaluate m e h o row).1)

/-- **C83**: a row handed to the evaluator any number of times, also failing ones, keeps its
entries outside the keys listed by the document, and never gets others. -/
theorem C83_row {dd : List DataField} {e : ModelElem F} {td td' : TD F} {m : EModel F}
    (h : newModel dd e td = (.ok m, td')) (calls : List (MapOrd × Row F)) (row : Row F) (os : List MapOrd)
    {k : String} (hk : k ∉ addedKeys dd e) :
    (reuse (afterCalls m calls) row os).2.get k = row.get k :=
  (reuse_keeps hk os _ row (fits_afterCalls calls (newModel_fits e td td' m h))).1

/-- **C83**: such a row has at most the entries it started with and one for each different key the
document lists, however often it is reused. -/
theorem C83_row_size {dd : List DataField} {e : ModelElem F} {td td' : TD F} {m : EModel F}
    (h : newModel dd e td = (.ok m, td')) (calls : List (MapOrd × Row F)) (row row' : GoMap (GoVal F))
    (os : List MapOrd) (hr : (reuse (afterCalls m calls) (some row) os).2 = some row') :
    row'.size ≤ row.size + (addedKeys dd e).dedup.length := by
  have hin : KeysIn (row.keys ++ (addedKeys dd e).dedup) row' := by
    intro k v hv
    by_cases hk : k ∈ addedKeys dd e
    · simp [hk]
    · have := C83_row h calls (some row) os hk
      rw [hr] at this
      simp only [Row.get, Option.bind_some] at this
      rw [hv] at this
      have hm : k ∈ row := by
        rw [Std.ExtTreeMap.mem_iff_isSome_getElem?, ← this]; rfl
      simp [Std.ExtTreeMap.mem_keys.mpr hm]
  have h1 := hin.size_le
  have h2 : (row.keys ++ (addedKeys dd e).dedup).dedup.length ≤ (row.keys ++ (addedKeys dd e).dedup).length :=
    (List.dedup_sublist _).length_le
  rw [List.length_append, Std.ExtTreeMap.length_keys] at h2
  omega

/-- **C83**: after any calls the evaluator remembers, over all its trees, at most one output key
for each different label the tree has: memory does not grow with use. -/
theorem C83_cache {dd : List DataField} {e : ModelElem F} {td td' : TD F} {m : EModel F}
    (h : newModel dd e td = (.ok m, td')) (calls : List (MapOrd × Row F)) :
    cached (afterCalls m calls) ≤ labelCount dd e :=
  fits_cached _ e (fits_afterCalls calls (newModel_fits e td td' m h))

end Gopmml.Props

namespace Gopmml

section Examples

open Replay Samples Spec Props

/-- A classification tree: two labels in its leaves, a third declared for the target. -/
private def classTree : TreeDoc F64 where
  functionName := .classification
  missingValuePenalty := num "1"
  missingValueStrategy := .lastPrediction
  noTrueChildStrategy := .other ""
  localTransformations := [⟨"twice", .double, .continuous, .apply "+" [.fieldRef "x", .fieldRef "x"]⟩]
  miningFields := [active "x", ⟨"c", .target, "", "", none⟩]
  verification := none
  node := .mk "" "" "a" (num "0") [] [
    .mk "" "" "b" (num "0") [] [] (some (sp "x" .lessThan "5")),
    .mk "" "" "a" (num "0") [⟨"a", num "3", none, none⟩, ⟨"d", num "1", none, none⟩] []
      (some (sp "x" .greaterOrEqual "5"))] (some .true_)

private def classDd : List DataField := [⟨"x", .double, []⟩, ⟨"c", .string, ["a", "b", "z"]⟩]

private def used : Option (EModel F64) :=
  match newModel classDd (.tree classTree) [] with
  | (.ok m, _) => some (afterCalls m [(.sorted, some (mk [("x", .int .int 7)])),
      (.sorted, some (mk [("x", .int .int 1)])), (.sorted, none)])
  | _ => none

-- After two answers and a failure the cache holds all four labels: the bound is reached.
example : (used.map cached) = some 4 ∧ labelCount classDd (.tree classTree) = 4 ∧
    answerKeys classDd (.tree classTree) = ["c", "probability(a)", "probability(b)", "probability(a)",
      "probability(a)", "probability(d)", "probability(a)", "probability(b)", "probability(z)"] ∧
    addedKeys classDd (.tree classTree) = ["twice"] := by
  decide +kernel

-- The same row three times: one entry more.
example : (used.map fun m => (reuse m (some (mk [("x", .int .int 1), ("u", .nil)])) [.sorted, .reversed, .sorted]).2)
    = some (some (mk [("x", .int .int 1), ("u", .nil), ("twice", .f64 (num "2"))])) := by
  decide +kernel

-- Nested ensembles: what the segments answer is written into the row by the chain.
example : addedKeys Samples.dd nested = ["x", "x", "y", "score"] ∧
    answerKeys Samples.dd nested = ["y", "score"] := by
  decide +kernel

end Examples

end Gopmml
