import Verif.Proofs.Rename
import Verif.Props.History
import Verif.Model.Verify
import Verif.Model.Samples
import Mathlib.Logic.Equiv.Basic

/-!
# C73: the names of fields do not matter
-/

namespace Gopmml.Props
open Gopmml Spec

variable {F : Type} [Arith F] [Lib F] [Trans F] {ρ : Equiv.Perm String}

omit [Arith F] [Lib F] [Trans F] in
theorem renMap_exists {V : Type} (ρ : Equiv.Perm String) (m : GoMap V) : ∃ m', RenMap ρ m m' := by
  let o : MapOrd := .sorted
  refine ⟨((o.range m).foldl (fun acc kv => acc.insert (ρ kv.1) kv.2) ∅), ?_⟩
  have h := RenMap.foldl_insert (ρ := ρ) (fun kv : String × V => kv.1) (fun kv => kv.2) (o.range m)
    (RenMap.empty (V := V))
  have e : (o.range m).foldl (fun acc kv => acc.insert kv.1 kv.2) ∅ = m := by
    refine Std.ExtTreeMap.ext_getElem? fun {k} => ?_
    rw [fold_insert_range_getElem? o m (fun kv => kv.2)]
    cases m[k]? <;> simp
  rw [e] at h
  exact h

omit [Arith F] [Lib F] [Trans F] in
/-- **C73**: every row has exactly one counterpart under the new names. -/
theorem C73_row (ρ : Equiv.Perm String) (row : Row F) : ∃! row', RenRow ρ row row' := by
  cases row with
  | none =>
    refine ⟨none, trivial, fun r hr => ?_⟩
    cases r with
    | none => rfl
    | some m => exact hr.elim
  | some m =>
    obtain ⟨m', hm⟩ := renMap_exists ρ m
    refine ⟨some m', hm, fun r hr => ?_⟩
    cases r with
    | none => exact hr.elim
    | some m2 =>
      congr 1
      refine Std.ExtTreeMap.ext_getElem? fun {k} => ?_
      have h1 := (hr : RenMap ρ m m2) (ρ.symm k)
      have h2 := hm (ρ.symm k)
      rw [Equiv.apply_symm_apply] at h1 h2
      rw [h1, h2]

/-- **C73**: a document whose fields are renamed (one to one, reserved names kept) builds when the
document itself does, or fails with the same error about the renamed field, and leaves the
dictionary of derived fields renamed. -/
theorem C73_construction (hs : ∀ k, Reserved k → ρ k = k) (dd : List DataField) (e : ModelElem F) (td : TD F) :
    let r := newModel dd e td
    let r' := newModel (dd.map (renData ρ)) (renElem ρ e) (td.map (renDerived ρ))
    r'.2 = r.2.map (renDerived ρ) ∧ RenRes ρ (Alpha ρ) r.1 r'.1 :=
  ⟨(newModel_ren hs dd e td).2, (newModel_ren hs dd e td).1⟩

/-- **C73**: the two evaluators, after whatever calls were made to them, answer a row and the renamed
row alike: the same answer under the new names, or the same error about the renamed field, and the
same changes to the row. -/
theorem C73_rename (hs : ∀ k, Reserved k → ρ k = k) {dd : List DataField} {e : ModelElem F} {td td1 td2 : TD F}
    {M M' : EModel F} (h : newModel dd e td = (.ok M, td1))
    (h' : newModel (dd.map (renData ρ)) (renElem ρ e) (td.map (renDerived ρ)) = (.ok M', td2))
    (hist hist' : List (MapOrd × Row F)) (o : MapOrd) {row row' : Row F} (hr : RenRow ρ row row') :
    RenRes ρ (RenRow ρ) (EModel.evaluate o (afterCalls M hist) row).res
      (EModel.evaluate o (afterCalls M' hist') row').res ∧
    RenRow ρ (EModel.evaluate o (afterCalls M hist) row).row (EModel.evaluate o (afterCalls M' hist') row').row := by
  have key := (newModel_ren hs dd e td).1
  rw [h, h'] at key
  rw [(C26_history h hist o row).1, (C26_history h hist o row).2, (C26_history h' hist' o row').1,
    (C26_history h' hist' o row').2]
  exact key o row row' hr

section
open Samples Replay

/-- `x` becomes `u`, `y` becomes `x` and `u` becomes `y`. -/
def cycle3 : Equiv.Perm String := Equiv.trans (Equiv.swap "x" "u") (Equiv.swap "x" "y")

theorem cycle3_reserved (k : String) (h : Reserved k) : cycle3 k = k := by
  have key : k ≠ "x" ∧ k ≠ "u" ∧ k ≠ "y" := by
    rcases h with rfl | rfl | ⟨v, rfl⟩
    · decide
    · decide
    · refine ⟨?_, ?_, ?_⟩ <;>
      · intro h
        have := congrArg String.toList h
        simp at this
  simp [cycle3, Equiv.trans_apply, Equiv.swap_apply_of_ne_of_ne key.1 key.2.1,
    Equiv.swap_apply_of_ne_of_ne key.1 key.2.2]

/-- What a document answers to a row. -/
def answerOf (dd : List DataField) (e : ModelElem F64) (row : List (String × GoVal F64)) : Option (Res (Out F64)) :=
  match newModel dd e [] with
  | (.ok m, _) => some (EModel.evaluate .sorted m (some (mk row))).res
  | _ => none

-- The hypotheses are met by a nested ensemble with its input `x` and its target `y` renamed; the
-- answers differ from those of the document itself in nothing but the name.
example : answerOf Samples.dd (ensemble .sum) [("x", .int .int 7)] = some (.ok (some (mk [("y", .f64 (num "141"))]))) ∧
    answerOf (Samples.dd.map (renData cycle3)) (renElem cycle3 (ensemble .sum)) [("u", .int .int 7)] =
      some (.ok (some (mk [("x", .f64 (num "141"))]))) ∧
    (newModel (Samples.dd.map (renData cycle3)) (renElem cycle3 nested) []).1.isOk = true ∧
    (∃ e : ModelElem F64, (newModel Samples.dd e []).1 = fail (.unknownFieldType "u") ∧
      (newModel (Samples.dd.map (renData cycle3)) (renElem cycle3 e) []).1 = fail (.unknownFieldType "y")) := by
  refine ⟨by decide +kernel, by decide +kernel, by decide +kernel,
    .tree { regTree "1" "2" with node := .mk "" "" "0" (num "0") [] [] (some (sp "u" .lessThan "5")) }, ?_, ?_⟩
  · rfl
  · rfl

theorem answerOf_some {dd : List DataField} {e : ModelElem F64} {row : List (String × GoVal F64)} {r : Res (Out F64)}
    (h : answerOf dd e row = some r) :
    ∃ M td, newModel dd e [] = (.ok M, td) ∧ (EModel.evaluate .sorted M (some (mk row))).res = r := by
  unfold answerOf at h
  split at h
  · rename_i m td hm
    exact ⟨m, td, hm, by simpa using h⟩
  · cases h

/-- A tree for x, followed by a tree for the score of the first. -/
def scoreChain : ModelElem F64 :=
  .mining { head .modelChain with targets := [] }
    [seg (.tree (regTree "1" "10")),
     seg (.tree { regTree "1" "2" with node := .mk "" "" "0" (num "0") [] [
       .mk "" "" "100" (num "0") [] [] (some (sp "score" .lessThan "5")),
       .mk "" "" "200" (num "0") [] [] (some (sp "score" .greaterOrEqual "5"))] (some .true_) })]

def scoreDD : List DataField := [⟨"x", .double, []⟩, ⟨"y", .double, []⟩, ⟨"score", .double, []⟩]

/-- **C73**: the name `score` is one with a meaning of its own: with it and another name
exchanged, a chain whose second tree reads the score of the first answers differently. -/
theorem C73_score_reserved : ∃ (dd : List DataField) (e : ModelElem F64) (row : GoMap (GoVal F64)) (M M' : EModel F64)
    (td td' : TD F64), newModel dd e [] = (.ok M, td) ∧
    newModel (dd.map (renData (Equiv.swap "score" "y"))) (renElem (Equiv.swap "score" "y") e) [] = (.ok M', td') ∧
    RenRow (Equiv.swap "score" "y") (some row) (some row) ∧
    ¬ RenRes (Equiv.swap "score" "y") (RenRow (Equiv.swap "score" "y"))
      (EModel.evaluate .sorted M (some row)).res (EModel.evaluate .sorted M' (some row)).res := by
  obtain ⟨M, td, hM, hr⟩ := answerOf_some (show answerOf scoreDD scoreChain [("x", .int .int 7)] =
    some (.ok (some (mk [("score", .f64 (num "200"))]))) by decide +kernel)
  obtain ⟨M', td', hM', hr'⟩ := answerOf_some (show answerOf (scoreDD.map (renData (Equiv.swap "score" "y")))
    (renElem (Equiv.swap "score" "y") scoreChain) [("x", .int .int 7)] = some (.ok none) by decide +kernel)
  refine ⟨_, _, mk [("x", .int .int 7)], M, M', td, td', hM, hM', ?_, ?_⟩
  · intro k
    have e : (mk [("x", GoVal.int .int 7)] : GoMap (GoVal F64)) = (∅ : GoMap (GoVal F64)).insert "x" (.int .int 7) := by
      decide +kernel
    have hx : "x" = Equiv.swap "score" "y" "x" := by decide
    rw [e, GoMap.getElem?_insert, GoMap.getElem?_insert]
    conv_lhs => rw [hx]
    simp only [EmbeddingLike.apply_eq_iff_eq]
    simp
  · rw [hr, hr']
    exact id

/-- A tree with a verification row: column `x` holds the values of field `x`, column `score` the
expected scores. -/
def verifiedCycle : ModelElem F64 :=
  .tree { regTree "1" "10" with
    verification := some ⟨[⟨"x", "data:x", none⟩, ⟨"score", "data:score", some (num "0.1")⟩],
      [mk [("x", .str "7"), ("score", .str "10")]]⟩ }

/-- The outcome of Verify on a newly built evaluator. -/
def verifyOf (dd : List DataField) (e : ModelElem F64) : Option (Res Unit) :=
  match newModel dd e [] with
  | (.ok m, _) => some (m.verify .sorted).1
  | _ => none

theorem verifyOf_some {dd : List DataField} {e : ModelElem F64} {r : Res Unit} (h : verifyOf dd e = some r) :
    ∃ M td, newModel dd e [] = (.ok M, td) ∧ (M.verify .sorted).1 = r := by
  unfold verifyOf at h
  split at h
  · rename_i m td hm
    exact ⟨m, td, hm, by simpa using h⟩
  · cases h

/-- **C73**: Verify is an exception (evaluation.go:53-59 fills the input under the names of the
columns, not of the fields): a document that verifies no longer does when its fields are renamed
and the columns of its verification rows are not. -/
theorem C73_verify_columns : ∃ (ρ : Equiv.Perm String) (dd : List DataField) (e : ModelElem F64) (M M' : EModel F64)
    (td td' : TD F64), (∀ k, Reserved k → ρ k = k) ∧ newModel dd e [] = (.ok M, td) ∧
    newModel (dd.map (renData ρ)) (renElem ρ e) [] = (.ok M', td') ∧
    (M.verify .sorted).1 = .ok () ∧ (M'.verify .sorted).1 = fail (.verifyNotProduced "score") := by
  obtain ⟨M, td, hM, hr⟩ := verifyOf_some (show verifyOf Samples.dd verifiedCycle = some (.ok ()) by decide +kernel)
  obtain ⟨M', td', hM', hr'⟩ := verifyOf_some (show verifyOf (Samples.dd.map (renData cycle3)) (renElem cycle3 verifiedCycle) =
    some (fail (.verifyNotProduced "score")) by decide +kernel)
  exact ⟨cycle3, _, _, M, M', td, td', cycle3_reserved, hM, hM', hr, hr'⟩

end

end Gopmml.Props
