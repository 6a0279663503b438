import Verif.Proofs.Redeclare
import Verif.Props.Main
import Verif.Model.Samples

/-!
# Property C111: declarations written down differently
-/

namespace Gopmml.Props
open Gopmml Spec

variable {F : Type} [Arith F] [Lib F] [Trans F]

/-- One document may stand for the other: both are rejected, and with the same error, or both accepted; their
models give the same answers and errors, do the same to every row, in any order of maps, and so over any
history of calls; and the dictionary of derived fields is left alike for the models that follow. -/
structure Interchangeable (dd dd' : List DataField) (e e' : ModelElem F) : Prop where
  dictionary : ∀ td, (newModel dd e td).2 = (newModel dd' e' td).2
  rejected : ∀ td f, (newModel dd e td).1 = .error f ↔ (newModel dd' e' td).1 = .error f
  answers : ∀ td m m', (newModel dd e td).1 = .ok m → (newModel dd' e' td).1 = .ok m' → ∀ o row,
    (EModel.evaluate o m row).res = (EModel.evaluate o m' row).res ∧
    (EModel.evaluate o m row).row = (EModel.evaluate o m' row).row
  histories : ∀ td m m', (newModel dd e td).1 = .ok m → (newModel dd' e' td).1 = .ok m' → ∀ calls,
    callAll m calls = callAll m' calls

/-- **C111**: what a document's models do depends on its declarations only through what they say about the
things asked for: the types of the fields in tests, the target and its declared values, the replacements,
which scores there are and how they are scaled. Trees and ensembles at any depth, any arithmetic. -/
theorem C111_redeclared {dd dd' : List DataField} {e e' : ModelElem F} (h : Redeclared dd dd' e e') :
    Interchangeable dd dd' e e' := by
  have ans : ∀ td m m', (newModel dd e td).1 = .ok m → (newModel dd' e' td).1 = .ok m' → ∀ o row,
      (EModel.evaluate o m row).res = (EModel.evaluate o m' row).res ∧
      (EModel.evaluate o m row).row = (EModel.evaluate o m' row).row := by
    intro td m m' hm hm' o row
    have := (redeclared_newModel e td h).1
    rw [hm, hm'] at this
    cases this with
    | ok hs => exact hs o trivial row
  refine ⟨fun td => (redeclared_newModel e td h).2, fun td f => ?_, ans, fun td m m' hm hm' calls => ?_⟩
  · have := (redeclared_newModel e td h).1
    revert this
    generalize (newModel dd e td).1 = x
    generalize (newModel dd' e' td).1 = y
    intro this
    cases this with
    | error g => exact Iff.rfl
    | ok _ => simp
  · have hm1 : newModel dd e td = (.ok m, (newModel dd e td).2) := by rw [← hm]
    have hm2 : newModel dd' e' td = (.ok m', (newModel dd' e' td).2) := by rw [← hm']
    obtain ⟨a1, a2, a3⟩ := callAll_eq hm1 calls []
    obtain ⟨b1, b2, b3⟩ := callAll_eq hm2 calls []
    have hs := ans td m m' hm hm'
    simp only [afterCalls, List.foldl_nil] at a1 a2 a3 b1 b2 b3
    cases hc : callAll m' calls with
    | ok outs =>
      rw [a1]
      have := (b1 outs).mp hc
      exact this.imp fun c out hco => by rw [(hs c.1 c.2).1]; exact hco
    | error x =>
      obtain ⟨f, rfl⟩ := b3 x hc
      rw [a2]
      obtain ⟨before, c, after, k1, k2, k3⟩ := (b2 f).mp hc
      refine ⟨before, c, after, k1, fun b hb => ?_, by rw [(hs c.1 c.2).1]; exact k3⟩
      obtain ⟨out, ho⟩ := k2 b hb
      exact ⟨out, by rw [(hs b.1 b.2).1]; exact ho⟩

/-- **C111** (order): data fields of different names, and in every model mining fields of different names
with at most one target, outputs, and targets of different fields, may be written in any order. -/
theorem C111_order {dd dd' : List DataField} (hp : dd.Perm dd') (hn : (dd.map (·.name)).Nodup)
    {e e' : ModelElem F} (h : Shuffled e e') : Interchangeable dd dd' e e' :=
  C111_redeclared (shuffled_redeclared e h fun f _ => filter_shuffled hp hn f)

/-- **C111** (unused): only the data fields that occur in a test or as a target count; the others may be
left out, added, or changed. -/
theorem C111_unused {dd dd' : List DataField} {e : ModelElem F}
    (h : ∀ f ∈ asked e, dd.filter (fun g => g.name = f) = dd'.filter (fun g => g.name = f)) :
    Interchangeable dd dd' e e :=
  C111_redeclared (asked_redeclared e h)

/-- **C111** (pruned): so the dictionary can be cut down to those. -/
theorem C111_pruned (dd : List DataField) (e : ModelElem F) :
    Interchangeable dd (dd.filter (fun g => g.name ∈ asked e)) e e := by
  refine C111_unused fun f hf => ?_
  rw [List.filter_filter]
  congr 1
  funext g
  by_cases hg : g.name = f
  · simp [hg, hf]
  · simp [hg]

/-! Examples. -/
namespace RedeclareExample
open Samples Replay

/-- Two golf trees with their mining schema as given. -/
def golf (fs : List MiningField) : ModelElem F64 := .tree { doc .lastPrediction "1" golfNormal with miningFields := fs }

def schema : List MiningField := (doc .lastPrediction "1" golfNormal).miningFields

def sums (fs : List MiningField) (outs : List OutputField) (ts : List (Target F64)) (gs : List MiningField) :
    ModelElem F64 :=
  .mining { head .sum with functionName := .classification, miningFields := fs, outputs := outs, targets := ts }
    [seg (golf gs), seg (golf gs)]

def fill : List MiningField := [⟨"temperature", .other "", "", "", some "60"⟩, ⟨"humidity", .other "", "", "", some "70"⟩]

def outs : List OutputField := [⟨"probability(will play)", .probability, "will play"⟩, ⟨"probability(no play)", .empty, ""⟩]

def goals : List (Target F64) := [⟨"probability(no play)", some (num "1"), none⟩, ⟨"probability(may play)", some (num "2"), some (num "3")⟩]

def answer (dd : List DataField) (e : ModelElem F64) (row : List (String × GoVal F64)) : Option (Res (Out F64)) :=
  match newModel dd e [] with
  | (.ok m, _) => some (EModel.evaluate .sorted m (some (mk row))).res
  | _ => none

/-- Everything the other way round: the hypotheses of `C111_order`, and the answer of both. -/
example : Replay.dd.Perm Replay.dd.reverse ∧ (Replay.dd.map (·.name)).Nodup ∧
    Shuffled (sums fill outs goals schema) (sums fill.reverse outs.reverse goals.reverse schema.reverse) ∧
    answer Replay.dd (sums fill outs goals schema) [("outlook", .str "sunny")] =
      some (.ok (some (mk [("probability(will play)", .f64 (num "2")), ("probability(no play)", .f64 (num "1")),
        ("probability(may play)", .f64 (num "2"))]))) ∧
    answer Replay.dd.reverse (sums fill.reverse outs.reverse goals.reverse schema.reverse) [("outlook", .str "sunny")] =
      answer Replay.dd (sums fill outs goals schema) [("outlook", .str "sunny")] := by
  have hg : Shuffled (golf schema) (golf schema.reverse) :=
    .tree (d := { doc .lastPrediction "1" golfNormal with miningFields := schema })
      ⟨by decide, by decide⟩ (List.reverse_perm _).symm
  exact ⟨(List.reverse_perm _).symm, by decide, .mining (by decide) (List.reverse_perm _).symm
    (List.reverse_perm _).symm (by decide) (List.reverse_perm _).symm
    (.cons (.cons hg .nil) (.cons (.cons hg .nil) .nil)), by decide +kernel, by decide +kernel⟩

def tides : List DataField := ⟨"tide", .string, ["low"]⟩ :: Replay.dd ++ [⟨"tide", .double, []⟩]

/-- Fields the golf tree does not ask for, added, one of them twice: the hypothesis of `C111_unused`; and
without the declaration of a field it asks for, the tree is rejected. -/
example : (∀ f ∈ asked (golf schema), Replay.dd.filter (fun g => g.name = f) =
      tides.filter (fun g => g.name = f)) ∧
    (answer tides (golf schema) [("outlook", .str "overcast")]).isSome ∧
    answer (Replay.dd.filter (fun g => g.name ≠ "windy")) (golf schema) [("outlook", .str "overcast")] = none := by
  decide +kernel

/-- Order matters among fields of the same name (the last type counts), among several targets (the last
counts), and among the targets of one field (factors and constants do not commute). -/
example :
    answer [⟨"x", .double, []⟩, ⟨"x", .string, []⟩] (.tree (regTree "1" "10")) [("x", .str "10")] ≠
      answer [⟨"x", .string, []⟩, ⟨"x", .double, []⟩] (.tree (regTree "1" "10")) [("x", .str "10")] ∧
    answer Replay.dd (golf (schema ++ [⟨"outlook", .target, "", "", none⟩])) [("outlook", .str "sunny")] ≠
      answer Replay.dd (golf (⟨"outlook", .target, "", "", none⟩ :: schema)) [("outlook", .str "sunny")] ∧
    (let e ts : ModelElem F64 := .mining { head .sum with targets := ts } [seg (.tree (regTree "1" "10"))]
     answer Samples.dd (e [⟨"y", some (num "1"), none⟩, ⟨"y", none, some (num "2")⟩]) [("x", .int .int 1)] =
       some (.ok (some (mk [("y", .f64 (num "4"))]))) ∧
     answer Samples.dd (e [⟨"y", none, some (num "2")⟩, ⟨"y", some (num "1"), none⟩]) [("x", .int .int 1)] =
       some (.ok (some (mk [("y", .f64 (num "3"))])))) := by
  decide +kernel

end RedeclareExample

end Gopmml.Props
