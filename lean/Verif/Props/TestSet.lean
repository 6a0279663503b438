import Verif.Proofs.TestSet
import Verif.Model.Samples

/-!
# C99: finitely many rows test a forest completely
-/

namespace Gopmml.Props
open Gopmml.Spec

section
variable [Trans F64]

/-- **C99**: every row has one among the test rows on which all documents that only compare their fields with
the constants answer as on the row. -/
theorem C99_cover (fs : List String) (ty : String → DataType) (cs : String → List String) (r : GoMap (GoVal F64)) :
    ∃ t ∈ testRows ty cs fs, ∀ dd e td td' m, newModel dd e td = (.ok m, td') → TestsOnly fs ty cs dd td e →
      ∀ o, (EModel.evaluate o m (some r)).res = (EModel.evaluate o m (some t)).res := by
  choose c hc hrel using fun f => sample_cover (ty f) (cs f) (if f ∈ fs then r[f]? else none)
  obtain ⟨t, ht, htf⟩ := testRows_mem c fs fun f _ => hc f
  have hrel' : ∀ f, Option.Rel (fun v w => (v = .nil ↔ w = .nil) ∧
      ∀ op, ∀ x ∈ cs f, satisfies (ty f) op x v = satisfies (ty f) op x w) (if f ∈ fs then r[f]? else none) t[f]? := by
    intro f
    rw [htf]
    by_cases hf : f ∈ fs
    · simpa [hf] using hrel f
    · simp only [hf, if_false]; exact .none
  refine ⟨t, ht, fun dd e td td' m h hd o => ?_⟩
  obtain ⟨r0, hr0⟩ : ∃ r0 : GoMap (GoVal F64), ∀ f, r0[f]? = if f ∈ fs then r[f]? else none := by
    clear * -
    induction fs with
    | nil => exact ⟨∅, by simp⟩
    | cons g gs ih =>
      obtain ⟨r0, h⟩ := ih
      refine ⟨putValue r0 g r[g]?, fun f => ?_⟩
      rw [putValue_get, h]
      by_cases hg : g = f
      · subst hg; simp
      · rw [if_neg hg]; simp [Ne.symm hg]
  rw [(C60_model_frame h o (r := r) (r' := r0) fun f hf => by rw [hr0, if_pos (hd.fields f hf)]).1]
  let ops : List SimpleOp := [.lessThan, .lessOrEqual, .greaterThan, .greaterOrEqual, .equal, .notEqual]
  refine C79_tests h (S := fun _ => True)
    (ts := fun f => ops.flatMap fun op => (cs f).map fun x => (ty f, op, x)) (fun f _ => ⟨?_, hd.free f⟩) o
    (fun f hf => absurd trivial hf) fun f _ => ?_
  · rintro s hs rfl hl dt hdt
    rw [List.mem_flatMap]
    refine ⟨s.op, ?_, List.mem_map.mpr ⟨s.value, hd.constants s hs, by rw [hd.types _ _ hdt]⟩⟩
    revert hl
    cases s.op <;> simp [Looks, ops]
  · have := hrel' f
    rw [← hr0] at this
    revert this
    generalize r0[f]? = a
    generalize t[f]? = b
    rintro (⟨h1, h2⟩ | _)
    swap
    · exact .none
    refine .some ?_
    refine ⟨h1, fun x hx => ?_⟩
    obtain ⟨op, -, hx⟩ := List.mem_flatMap.mp hx
    obtain ⟨k, hk, rfl⟩ := List.mem_map.mp hx
    exact h2 op k hk

/-- **C99** (equal documents): two documents that answer alike on the test rows answer alike on all rows. -/
theorem C99_equal {fs : List String} {ty : String → DataType} {cs : String → List String} {dd dd' : List DataField}
    {e e' : ModelElem F64} {td td' td1 td1' : TD F64} {m m' : EModel F64} (h : newModel dd e td = (.ok m, td1))
    (h' : newModel dd' e' td' = (.ok m', td1')) (hd : TestsOnly fs ty cs dd td e) (hd' : TestsOnly fs ty cs dd' td' e')
    (o : MapOrd) (ht : ∀ t ∈ testRows ty cs fs, (EModel.evaluate o m (some t)).res = (EModel.evaluate o m' (some t)).res)
    (r : GoMap (GoVal F64)) : (EModel.evaluate o m (some r)).res = (EModel.evaluate o m' (some r)).res := by
  obtain ⟨t, htm, hc⟩ := C99_cover fs ty cs r
  rw [hc _ _ _ _ _ h hd, hc _ _ _ _ _ h' hd', ht t htm]

/-- **C99** (all answers): what holds of the answers on the test rows holds of every answer. -/
theorem C99_all {fs : List String} {ty : String → DataType} {cs : String → List String} {dd : List DataField}
    {e : ModelElem F64} {td td' : TD F64} {m : EModel F64} (h : newModel dd e td = (.ok m, td'))
    (hd : TestsOnly fs ty cs dd td e) (o : MapOrd) (P : Res (Out F64) → Prop)
    (ht : ∀ t ∈ testRows ty cs fs, P (EModel.evaluate o m (some t)).res) (r : GoMap (GoVal F64)) :
    P (EModel.evaluate o m (some r)).res := by
  obtain ⟨t, htm, hc⟩ := C99_cover fs ty cs r
  rw [hc _ _ _ _ _ h hd]
  exact ht t htm

/-- **C99** (decided): whether two forests answer alike on all rows is decided by running both on rows
collected from their predicates and declarations. -/
theorem C99_decided {dd : List DataField} {e e' : ModelElem F64} {td td1 td1' : TD F64} {m m' : EModel F64}
    (h : newModel dd e td = (.ok m, td1)) (h' : newModel dd e' td = (.ok m', td1')) (hc : docComputed e = [])
    (hc' : docComputed e' = []) (h1 : oneType (docTypes dd td e ++ docTypes dd td e') = true) (o : MapOrd) :
    (∀ r, (EModel.evaluate o m (some r)).res = (EModel.evaluate o m' (some r)).res) ↔
    ∀ t ∈ forestRows (docSimples e ++ docSimples e') (docTypes dd td e ++ docTypes dd td e'),
      (EModel.evaluate o m (some t)).res = (EModel.evaluate o m' (some t)).res := by
  refine ⟨fun h t _ => h t, fun ht r => ?_⟩
  exact C99_equal h h' (testsOnly_of hc (fun _ => List.mem_append_left _) (fun _ => List.mem_append_left _) h1)
    (testsOnly_of hc' (fun _ => List.mem_append_right _) (fun _ => List.mem_append_right _) h1) o ht r

end

section
open Samples Replay

/-- The sample tree with its two leaves in the other order. -/
def swapped : ModelElem F64 :=
  .tree { regTree "1" "2" with
    node := .mk "" "" "0" (num "0") [] [
      .mk "" "" "2" (num "0") [] [] (some (sp "x" .greaterOrEqual "5")),
      .mk "" "" "1" (num "0") [] [] (some (sp "x" .lessThan "5"))] (some .true_) }

/-- The sample tree with the second leaf for everything that is not 4. -/
def slack : ModelElem F64 :=
  .tree { regTree "1" "2" with
    node := .mk "" "" "0" (num "0") [] [
      .mk "" "" "1" (num "0") [] [] (some (sp "x" .lessThan "5")),
      .mk "" "" "2" (num "0") [] [] (some (sp "x" .notEqual "4"))] (some .true_) }

/-- The two documents are accepted and answer alike on the rows that test them. -/
def alikeOnTests (e e' : ModelElem F64) : Bool :=
  match newModel Samples.dd e [], newModel Samples.dd e' [] with
  | (.ok m, _), (.ok m', _) =>
    (forestRows (docSimples e ++ docSimples e') (docTypes Samples.dd [] e ++ docTypes Samples.dd [] e')).all fun t =>
      (EModel.evaluate .sorted m (some t)).res = (EModel.evaluate .sorted m' (some t)).res
  | _, _ => false

-- C99: the rows show that the two orders of the leaves answer alike on every row, and that the slack tree
-- does not: it answers for NaN, the first tree does not.
example : alikeOnTests ordered swapped = true ∧ alikeOnTests ordered slack = false ∧
    docComputed ordered = [] ∧ docComputed swapped = [] ∧
    oneType (docTypes Samples.dd [] ordered ++ docTypes Samples.dd [] swapped) = true ∧
    (forestRows (docSimples ordered ++ docSimples swapped) (docTypes Samples.dd [] ordered)).length = 20 ∧
    eval .sorted ordered [("x", .f64 .nan)] ≠ eval .sorted slack [("x", .f64 .nan)] := by
  decide +kernel

example {m m' : EModel F64} {td td' : TD F64} (h : newModel Samples.dd ordered [] = (.ok m, td))
    (h' : newModel Samples.dd swapped [] = (.ok m', td')) (r : GoMap (GoVal F64)) :
    (EModel.evaluate .sorted m (some r)).res = (EModel.evaluate .sorted m' (some r)).res := by
  have : alikeOnTests ordered swapped = true := by decide +kernel
  simp only [alikeOnTests, h, h', List.all_eq_true, decide_eq_true_eq] at this
  exact (C99_decided h h' (by decide +kernel) (by decide +kernel) (by decide +kernel) .sorted).mpr this r

end

end Gopmml.Props
