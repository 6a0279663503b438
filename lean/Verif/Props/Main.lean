import Verif.Model.Main
import Verif.Props.XmlDocument
import Verif.Props.Layout
import Verif.Props.History
import Verif.Model.Samples

/-!
# Property C69: from a document to answers
-/

namespace Gopmml.Props
open Gopmml Spec

variable {F : Type} [Arith F] [Lib F] [Trans F]

/-- The calls of a loop on a model that has been used. -/
theorem callAll_eq {dd : List DataField} {e : ModelElem F} {td td' : TD F} {m : EModel F}
    (h : newModel dd e td = (.ok m, td')) (calls : List (MapOrd × Row F)) (hist : List (MapOrd × Row F)) :
    (∀ outs, callAll (afterCalls m hist) calls = .ok outs ↔
      List.Forall₂ (fun c out => (EModel.evaluate c.1 m c.2).res = .ok out) calls outs) ∧
    (∀ f, callAll (afterCalls m hist) calls = .error (.evaluate f) ↔
      ∃ before c after, calls = before ++ c :: after ∧
        (∀ b ∈ before, ∃ out, (EModel.evaluate b.1 m b.2).res = .ok out) ∧
        (EModel.evaluate c.1 m c.2).res = .error f) ∧
    ∀ x, callAll (afterCalls m hist) calls = .error x → ∃ f, x = .evaluate f := by
  induction calls generalizing hist with
  | nil =>
    refine ⟨fun outs => ?_, fun f => ?_, fun x hx => ?_⟩
    · simp [callAll, eq_comm]
    · simp [callAll]
    · simp [callAll] at hx
  | cons c calls ih =>
    obtain ⟨i1, i2, i3⟩ := ih (hist ++ [c])
    have ha : afterCalls m (hist ++ [c]) = (EModel.evaluate c.1 (afterCalls m hist) c.2).model := by
      simp [afterCalls]
    rw [ha] at i1 i2 i3
    have hc := (C26_history h hist c.1 c.2).1
    rw [callAll, hc]
    cases hr : (EModel.evaluate c.1 m c.2).res with
    | error f =>
      refine ⟨fun outs => ?_, fun g => ?_, fun x hx => ?_⟩
      · constructor
        · intro h; simp at h
        · intro h
          cases h with
          | cons h _ => rw [hr] at h; cases h
      · constructor
        · intro h
          simp only [Except.error.injEq, Crash.evaluate.injEq] at h
          exact ⟨[], c, calls, rfl, by simp, by rw [hr, h]⟩
        · rintro ⟨before, d, after, he, hb, hf⟩
          cases before with
          | nil =>
            simp only [List.nil_append, List.cons.injEq] at he
            obtain ⟨rfl, -⟩ := he
            rw [hr] at hf
            cases hf
            rfl
          | cons b before =>
            simp only [List.cons_append, List.cons.injEq] at he
            obtain ⟨rfl, -⟩ := he
            obtain ⟨out, ho⟩ := hb c (by simp)
            rw [hr] at ho
            cases ho
      · simp only [Except.error.injEq] at hx
        exact ⟨f, hx.symm⟩
    | ok out =>
      refine ⟨fun outs => ?_, fun g => ?_, fun x hx => ?_⟩
      · cases hk : callAll (EModel.evaluate c.1 (afterCalls m hist) c.2).model calls with
        | error x =>
          simp only [reduceCtorEq, false_iff]
          intro h
          cases h with
          | cons _ h =>
            rw [← i1, hk] at h
            cases h
        | ok outs' =>
          simp only [Except.ok.injEq]
          constructor
          · rintro rfl
            exact .cons hr ((i1 _).mp hk)
          · intro h
            cases h with
            | cons h1 h2 =>
              rw [← i1, hk, Except.ok.injEq] at h2
              rw [hr, Except.ok.injEq] at h1
              rw [h1, h2]
      · cases hk : callAll (EModel.evaluate c.1 (afterCalls m hist) c.2).model calls with
        | ok outs' =>
          simp only [reduceCtorEq, false_iff]
          rintro ⟨before, d, after, he, hb, hf⟩
          cases before with
          | nil =>
            simp only [List.nil_append, List.cons.injEq] at he
            obtain ⟨rfl, -⟩ := he
            rw [hr] at hf
            cases hf
          | cons b before =>
            simp only [List.cons_append, List.cons.injEq] at he
            obtain ⟨rfl, rfl⟩ := he
            have := (i2 g).mpr ⟨before, d, after, rfl, fun b h => hb b (by simp [h]), hf⟩
            rw [hk] at this
            cases this
        | error x =>
          simp only [Except.error.injEq]
          constructor
          · rintro rfl
            obtain ⟨before, d, after, he, hb, hf⟩ := (i2 g).mp hk
            refine ⟨c :: before, d, after, by simp [he], ?_, hf⟩
            intro b hb'
            rcases List.mem_cons.mp hb' with rfl | hb'
            · exact ⟨out, hr⟩
            · exact hb b hb'
          · rintro ⟨before, d, after, he, hb, hf⟩
            cases before with
            | nil =>
              simp only [List.nil_append, List.cons.injEq] at he
              obtain ⟨rfl, -⟩ := he
              rw [hr] at hf
              cases hf
            | cons b before =>
              simp only [List.cons_append, List.cons.injEq] at he
              obtain ⟨rfl, rfl⟩ := he
              have := (i2 g).mpr ⟨before, d, after, rfl, fun b h => hb b (by simp [h]), hf⟩
              rw [hk, Except.error.injEq] at this
              exact this
      · cases hk : callAll (EModel.evaluate c.1 (afterCalls m hist) c.2).model calls with
        | ok outs' => rw [hk] at hx; cases hx
        | error y =>
          rw [hk] at hx
          simp only [Except.error.injEq] at hx
          exact hx ▸ i3 y hk

section
variable [Reflect] {fmt : F → String}

/-- **C69** (the whole program): write a document down, have the program read the file and call the
model as often as you like. If the model of the document is accepted, the answers are one by one those
of a model built from the document itself and called once; the program crashes exactly if one of these
calls fails, with the error of the first that does, however many calls were made before. -/
theorem C69_answers (hr : OthersDecode) {p : Pmml F} (hp : OkPmml fmt p) {e : ModelElem F} {es : List (ModelElem F)}
    (he : p.models = e :: es) {m : EModel F} {td' : TD F}
    (hm : newModel p.dataDictionary e p.transformations = (.ok m, td')) (calls : List (MapOrd × Row F)) :
    (∀ outs, runFile (pmmlXml fmt p).1 (pmmlXml fmt p).2 calls = .ok outs ↔
      List.Forall₂ (fun c out => (EModel.evaluate c.1 m c.2).res = .ok out) calls outs) ∧
    ∀ x, runFile (pmmlXml fmt p).1 (pmmlXml fmt p).2 calls = .error x ↔
      ∃ f before c after, x = .evaluate f ∧ calls = before ++ c :: after ∧
        (∀ b ∈ before, ∃ out, (EModel.evaluate b.1 m b.2).res = .ok out) ∧
        (EModel.evaluate c.1 m c.2).res = .error f := by
  have hl : loadFile (pmmlXml fmt p).1 (pmmlXml fmt p).2 = .ok m := by
    unfold loadFile
    rw [C58_roundtrip hr p hp]
    simp only [he, hm]
  obtain ⟨h1, h2, h3⟩ := callAll_eq hm calls []
  unfold runFile
  rw [hl]
  refine ⟨h1, fun x => ⟨fun hx => ?_, ?_⟩⟩
  · obtain ⟨f, rfl⟩ := h3 x hx
    obtain ⟨before, c, after, hc⟩ := (h2 f).mp hx
    exact ⟨f, before, c, after, rfl, hc⟩
  · rintro ⟨f, before, c, after, rfl, hc⟩
    exact (h2 f).mpr ⟨before, c, after, hc⟩

/-- **C69** (rejected documents): a document without models or with an unacceptable first model makes
the program crash before any call. -/
theorem C69_rejected (hr : OthersDecode) {p : Pmml F} (hp : OkPmml fmt p) (calls : List (MapOrd × Row F)) :
    (p.models = [] → runFile (pmmlXml fmt p).1 (pmmlXml fmt p).2 calls = .error .noModel) ∧
    ∀ e es f, p.models = e :: es → (newModel p.dataDictionary e p.transformations).1 = .error f →
      runFile (pmmlXml fmt p).1 (pmmlXml fmt p).2 calls = .error (.build f) := by
  unfold runFile loadFile
  rw [C58_roundtrip hr p hp]
  refine ⟨fun h => by simp only [h], fun e es f h hf => by simp only [h, hf]⟩

/-- **C69** (layout): files that differ only in layout give the same answers and the same crashes,
except that an undecodable file may be rejected for another reason. -/
theorem C69_layout {as as' : Attrs} {ch ch' : List Xml} (ha : SameAttrs as as') (hl : Relay false ch ch')
    (calls : List (MapOrd × Row F)) :
    runFile as ch calls = runFile as' ch' calls ∨
    (∃ e, runFile as ch calls = .error (.decode e)) ∧ ∃ e, runFile as' ch' calls = .error (.decode e) := by
  have h := C62_layout (F := F) ha hl
  unfold runFile loadFile
  cases h1 : decodePmml (F := F) as ch with
  | ok p =>
    rw [(h p).mp h1]
    exact .inl rfl
  | error e =>
    cases h2 : decodePmml (F := F) as' ch' with
    | ok p => rw [(h p).mpr h2] at h1; cases h1
    | error e' => exact .inr ⟨⟨e, rfl⟩, e', rfl⟩

end

/-! Examples. -/
namespace MainExample
open Samples Replay

local instance : Reflect := ⟨fun _ _ _ => true⟩

def file : List Xml :=
  [.elem "DataDictionary" []
    [.elem "DataField" [("name", "x"), ("dataType", "double")] []],
   .elem "TreeModel" [("functionName", "regression")]
    [.elem "Node" [("score", "0")]
      [.elem "True" [] [],
       .elem "Node" [("score", "7")]
        [.elem "SimplePredicate" [("field", "x"), ("operator", "lessThan"), ("value", "3")] []],
       .elem "Node" [("score", "oops")]
        [.elem "SimplePredicate" [("field", "x"), ("operator", "equal"), ("value", "5")] []]]]]

def call (x : String) : MapOrd × Row F64 := (.sorted, some (mk [("x", .f64 (num x))]))

/-- Three good calls; then one whose score is no number. -/
example : runFile [] file [call "1", call "4", call "2"] =
      .ok [some (mk [("score", .f64 (num "7"))]), some (mk [("score", .f64 (num "0"))]),
        some (mk [("score", .f64 (num "7"))])] ∧
    runFile [] file [call "1", call "5", call "2"] = .error (.evaluate (.err (.parse "oops"))) ∧
    runFile (F := F64) [] [] [] = .error .noModel := by
  decide +kernel

/-- Writes the numbers of the sample. -/
def write (x : F64) : String :=
  if x = num "0" then "0" else if x = num "1" then "1" else "?"

theorem printable : Printable write (num "0") ∧ Printable write (num "1") := by
  unfold Printable
  decide +kernel

def sample : Pmml F64 := ⟨"4.3", Samples.dd, [], [.tree (regTree "1" "10")]⟩

/-- The hypotheses of `C69_answers`. -/
example : OthersDecode ∧ OkPmml write sample ∧ sample.models = .tree (regTree "1" "10") :: [] ∧
    (newModel sample.dataDictionary (.tree (regTree "1" "10")) sample.transformations).1.isOk := by
  refine ⟨fun _ _ _ => rfl, ?_, rfl, by decide +kernel⟩
  simp [sample, OkPmml, OkModels, OkModel, OkTree, Samples.dd, OkMiningField, OkDataType, OkMiningFunction, OkUsage,
    OkMissing, OkNoTrue, OkSimpleOp, OkNode, OkNodes, OkPred, printable, regTree, active, sp]

end MainExample
end Gopmml.Props
