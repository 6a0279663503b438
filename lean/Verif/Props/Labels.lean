import Verif.Proofs.LabelsModel
import Verif.Props.Rename
import Verif.Props.MapOrder
import Mathlib.Data.Set.Operations

/-!
# C91, C92: the names of nodes and of classes do not matter
-/

namespace Gopmml.Props
open Gopmml Spec

variable {F : Type} [Arith F] [Lib F] [Trans F] {ν σ κ : Equiv.Perm String} {T : String → Bool}

/-! ## Nodes -/

omit [Trans F] in
/-- **C91**: with its nodes renamed (one to one, the references to default children along with them) a document
builds when it did before, or fails with the same error, and leaves the dictionary of derived fields alike. -/
theorem C91_construction [Trans F] (ν : Equiv.Perm String) (dd : List DataField) (e : ModelElem F) (td : TD F) :
    (newModel dd (labelElem ν id id e) td).2 = (newModel dd e td).2 ∧
    ∀ f, (newModel dd (labelElem ν id id e) td).1 = .error f ↔ (newModel dd e td).1 = .error f := by
  obtain ⟨h1, h2⟩ := newModel_inter ν dd e td
  refine ⟨h1, fun f => ?_⟩
  revert h2
  cases (newModel dd e td).1 <;> cases (newModel dd (labelElem ν id id e) td).1 <;> simp +contextual

/-- **C91**: the two evaluators, after whatever calls were made to them, cannot be told apart: on every row the
same answers and errors are possible, with the same changes to the row. -/
theorem C91_answers {dd : List DataField} {e : ModelElem F} {td td1 td2 : TD F} {M M' : EModel F}
    (h : newModel dd e td = (.ok M, td1)) (h' : newModel dd (labelElem ν id id e) td = (.ok M', td2))
    (hist hist' : List (MapOrd × Row F)) (row : Row F) (r : Res (Out F)) (row' : Row F) :
    Answers (afterCalls M hist) row r row' ↔ Answers (afterCalls M' hist') row r row' := by
  have key := (newModel_inter ν dd e td).2
  rw [h, h'] at key
  have e1 : Answers (afterCalls M hist) row r row' ↔ Answers M row r row' := by
    unfold Answers; simp only [(C26_history h hist _ row).1, (C26_history h hist _ row).2]
  have e2 : Answers (afterCalls M' hist') row r row' ↔ Answers M' row r row' := by
    unfold Answers; simp only [(C26_history h' hist' _ row).1, (C26_history h' hist' _ row).2]
  rw [e1, e2]
  exact key row r row'

/-- **C91**: without the strategies that mix the answers of several children, the very same answer. -/
theorem C91_same {dd : List DataField} {e : ModelElem F} {td td1 td2 : TD F} {M M' : EModel F}
    (hn : NoMixingDoc e) (h : newModel dd e td = (.ok M, td1))
    (h' : newModel dd (labelElem ν id id e) td = (.ok M', td2)) (o o' : MapOrd) (row : Row F) :
    (EModel.evaluate o' M' row).res = (EModel.evaluate o M row).res ∧
    (EModel.evaluate o' M' row).row = (EModel.evaluate o M row).row := by
  obtain ⟨o1, h1, h2⟩ := (C91_answers h h' [] [] row _ _).mpr ⟨o', rfl, rfl⟩
  simp only [afterCalls, List.foldl_nil] at h1 h2
  rw [← h1, ← h2, C25_order_document hn h o o1 row]
  exact ⟨rfl, rfl⟩

section
open Samples Replay

/-- Two children; without x the first is taken. -/
def firstDefault : TreeDoc F64 :=
  { regTree "1" "2" with
    missingValueStrategy := .defaultChild
    node := .mk "r" "a" "0" (num "0") [] [
      .mk "a" "" "1" (num "0") [] [] (some (sp "x" .lessThan "5")),
      .mk "b" "" "2" (num "0") [] [] (some (sp "x" .greaterOrEqual "5"))] (some .true_) }

/-- **C91**: one to one it has to be. With two nodes of the same name the default child is another. -/
theorem C91_one_to_one : ∃ (ν : String → String) (M M' : EModel F64) (td td' : TD F64),
    newModel Samples.dd (.tree firstDefault) [] = (.ok M, td) ∧
    newModel Samples.dd (labelElem ν id id (.tree firstDefault)) [] = (.ok M', td') ∧ ¬ Inter M M' := by
  obtain ⟨M, td, hM, hr⟩ := answerOf_some (show answerOf Samples.dd (.tree firstDefault) [] =
    some (.ok (some (mk [("score", .f64 (num "1"))]))) by decide +kernel)
  obtain ⟨M', td', hM', hr'⟩ := answerOf_some (show answerOf Samples.dd
    (labelElem (fun _ => "n") id id (.tree firstDefault)) [] = some (.ok (some (mk [("score", .f64 (num "2"))]))) by
    decide +kernel)
  refine ⟨_, M, M', td, td', hM, hM', fun hi => ?_⟩
  obtain ⟨o, h1, -⟩ := (hi (some (mk [])) _ _).mpr ⟨.sorted, hr', rfl⟩
  rw [C25_order_document (NoMixingDoc.tree (by simp [firstDefault]) (by simp [firstDefault])) hM o .sorted, hr] at h1
  have : mk [("score", .f64 (num "1"))] = mk [("score", .f64 (num "2"))] := by simpa using h1
  exact absurd this (by decide +kernel)

/-- `2` becomes `5` and back. -/
def swapNodes : Equiv.Perm String := Equiv.swap "2" "5"

-- The hypotheses are met by the document of the repository's test with two of its nodes renamed; the mixture of
-- its children and the penalised answer of the default child are as before.
example : answerOf Replay.dd (labelElem swapNodes id id (.tree (doc .weightedConfidence "1" golfCounts)))
      [("outlook", .str "sunny")] =
      answerOf Replay.dd (.tree (doc .weightedConfidence "1" golfCounts)) [("outlook", .str "sunny")] ∧
    answerOf Replay.dd (labelElem swapNodes id id (.tree (doc .defaultChild "0.8" golfCounts)))
      [("temperature", .f64 (num "40"))] =
      answerOf Replay.dd (.tree (doc .defaultChild "0.8" golfCounts)) [("temperature", .f64 (num "40"))] ∧
    (answerOf Replay.dd (.tree (doc .defaultChild "0.8" golfCounts)) [("temperature", .f64 (num "40"))]).isSome = true ∧
    ((labelNode swapNodes id golfCounts).nodes.map Node.id) = ["5", "2"] := by
  decide +kernel

end

/-! ## Classes -/

theorem prob_injective : Function.Injective fun v : String => "probability(" ++ v ++ ")" := by
  intro a b h
  have := congrArg String.toList h
  simp only [String.toList_append] at this
  exact String.ext (List.append_cancel_left (List.append_cancel_right this))

open Classical in
/-- **C92**: classes can be renamed at will, one to one, as long as the empty name stays: there are names for
the probabilities to match, none of the other names being touched. -/
theorem C92_names (σ : Equiv.Perm String) (h0 : σ "" = "") (T : String → Bool) (hs : T "score" = false)
    (hT : ∀ v, T ("probability(" ++ v ++ ")") = false) : ∃ κ : Equiv.Perm String, Names σ κ T ∧
    ∀ k, (∀ v, k ≠ "probability(" ++ v ++ ")") → κ k = k := by
  let f := Equiv.ofInjective _ prob_injective
  let κ : Equiv.Perm String := σ.extendDomain f
  have fix : ∀ k, (∀ v, k ≠ "probability(" ++ v ++ ")") → κ k = k := by
    intro k hk
    refine Equiv.Perm.extendDomain_apply_not_subtype _ _ ?_
    rintro ⟨v, hv⟩
    exact hk v hv.symm
  have prob : ∀ v, κ ("probability(" ++ v ++ ")") = "probability(" ++ σ v ++ ")" := fun v =>
    Equiv.Perm.extendDomain_apply_image σ f v
  refine ⟨κ, ⟨h0, fix _ fun v h => ?_, fix _ fun v h => ?_, fun t ht => fix t fun v h => ?_, prob, hs⟩, fix⟩
  · have := congrArg String.toList h
    simp at this
  · have := congrArg String.toList h
    simp at this
  · rw [h, hT v] at ht; cases ht

/-- **C92**: with its classes renamed a document builds when it did before, or fails with the same error, and
leaves the dictionary of derived fields alike. -/
theorem C92_construction (hn : Names σ κ T) (dd : List DataField) (e : ModelElem F) (td : TD F) (ha : Apart T e) :
    (newModel (dd.map (labelData σ T)) (labelElem ν σ κ e) td).2 = (newModel dd e td).2 ∧
    ∀ f, (newModel (dd.map (labelData σ T)) (labelElem ν σ κ e) td).1 = .error f ↔ (newModel dd e td).1 = .error f := by
  obtain ⟨h1, h2⟩ := newModel_labelled (ν := ν) hn dd e td ha
  refine ⟨h1, fun f => ?_⟩
  revert h2
  cases (newModel dd e td).1 <;> cases (newModel (dd.map (labelData σ T)) (labelElem ν σ κ e) td).1 <;> simp +contextual

/-- **C92**: the two evaluators, after whatever calls were made to them, answer every row alike: what the one
can answer the other can with the classes renamed, or with the same error, with the same changes to the row. -/
theorem C92_answers (hn : Names σ κ T) {dd : List DataField} {e : ModelElem F} {td td1 td2 : TD F} {M M' : EModel F}
    (ha : Apart T e) (h : newModel dd e td = (.ok M, td1))
    (h' : newModel (dd.map (labelData σ T)) (labelElem ν σ κ e) td = (.ok M', td2)) (hist hist' : List (MapOrd × Row F)) :
    Labelled σ κ T (afterCalls M hist) (afterCalls M' hist') := by
  have key := (newModel_labelled (ν := ν) hn dd e td ha).2
  rw [h, h'] at key
  intro row
  simp only [(C26_history h hist _ row).1, (C26_history h hist _ row).2, (C26_history h' hist' _ row).1,
    (C26_history h' hist' _ row).2]
  exact key row

/-- **C92**: in particular each class keeps its probability, and the class answered is the renamed one. -/
theorem C92_probabilities (hn : Names σ κ T) {dd : List DataField} {e : ModelElem F} {td td1 td2 : TD F} {M M' : EModel F}
    (ha : Apart T e) (h : newModel dd e td = (.ok M, td1))
    (h' : newModel (dd.map (labelData σ T)) (labelElem ν σ κ e) td = (.ok M', td2)) {o : MapOrd} {row : Row F}
    {out : GoMap (GoVal F)} (ho : (EModel.evaluate o M row).res = .ok (some out)) :
    ∃ o' out', (EModel.evaluate o' M' row).res = .ok (some out') ∧
      (∀ v x, out["probability(" ++ v ++ ")"]? = some (.f64 x) → out'["probability(" ++ σ v ++ ")"]? = some (.f64 x)) ∧
      ∀ t v, T t = true → out[t]? = some (.str v) → out'[t]? = some (.str (σ v)) := by
  obtain ⟨o', h1, -⟩ := (C92_answers hn ha h h' [] [] row).1 o
  simp only [afterCalls, List.foldl_nil] at h1
  rw [ho] at h1
  cases hr : (EModel.evaluate o' M' row).res with
  | error f => rw [hr] at h1; exact h1.elim
  | ok out' =>
    rw [hr] at h1
    cases out' with
    | none => exact h1.elim
    | some out' =>
      refine ⟨o', out', hr, fun v x hx => ?_, fun t v ht hv => ?_⟩
      · have := h1.1 ("probability(" ++ v ++ ")")
        rw [hn.prob, hx] at this
        exact this
      · have := h1.1 t
        rw [hn.target t ht, hv] at this
        exact this

/-- **C92**: without the strategies that mix the answers of several children the answers correspond, whatever
the orders of visiting maps. -/
theorem C92_same (hn : Names σ κ T) {dd : List DataField} {e : ModelElem F} {td td1 td2 : TD F} {M M' : EModel F}
    (ha : Apart T e) (hm : NoMixingDoc e) (h : newModel dd e td = (.ok M, td1))
    (h' : newModel (dd.map (labelData σ T)) (labelElem ν σ κ e) td = (.ok M', td2)) (o o' : MapOrd) (row : Row F) :
    LabelRes σ κ T (EModel.evaluate o M row).res (EModel.evaluate o' M' row).res ∧
    (EModel.evaluate o' M' row).row = (EModel.evaluate o M row).row := by
  obtain ⟨o1, h1, h2⟩ := (C92_answers hn ha h h' [] [] row).2 o'
  simp only [afterCalls, List.foldl_nil] at h1 h2
  rw [C25_order_document hm h o1 o row] at h1 h2
  exact ⟨h1, h2⟩

section
open Samples Replay

/-- `will play` becomes `no play` and back. -/
def swapPlay : Equiv.Perm String := Equiv.swap "will play" "no play"

def swapProb : Equiv.Perm String := Equiv.swap "probability(will play)" "probability(no play)"

def isTarget (k : String) : Bool := k = "whatIdo"

/-- The names of two classes exchanged. -/
theorem names_swap (a b : String) (ha : a ≠ "") (hb : b ≠ "") (T : String → Bool) (hs : T "score" = false)
    (hT : ∀ v, T ("probability(" ++ v ++ ")") = false) :
    Names (Equiv.swap a b) (Equiv.swap ("probability(" ++ a ++ ")") ("probability(" ++ b ++ ")")) T := by
  have fix : ∀ k, (∀ v, k ≠ "probability(" ++ v ++ ")") →
      Equiv.swap ("probability(" ++ a ++ ")") ("probability(" ++ b ++ ")") k = k :=
    fun k hk => Equiv.swap_apply_of_ne_of_ne (hk a) (hk b)
  refine ⟨Equiv.swap_apply_of_ne_of_ne ha.symm hb.symm, fix _ fun v h => ?_, fix _ fun v h => ?_,
    fun t ht => fix t fun v h => ?_, fun v => ?_, hs⟩
  · have := congrArg String.toList h
    simp at this
  · have := congrArg String.toList h
    simp at this
  · rw [h, hT v] at ht; cases ht
  · by_cases h1 : v = a
    · subst h1; rw [Equiv.swap_apply_left, Equiv.swap_apply_left]
    · by_cases h2 : v = b
      · subst h2; rw [Equiv.swap_apply_right, Equiv.swap_apply_right]
      · rw [Equiv.swap_apply_of_ne_of_ne h1 h2, Equiv.swap_apply_of_ne_of_ne (fun h => h1 (prob_injective h))
          (fun h => h2 (prob_injective h))]

theorem swapPlay_names : Names swapPlay swapProb isTarget :=
  names_swap "will play" "no play" (by decide) (by decide) isTarget (by decide) fun v => by
    unfold isTarget
    rw [decide_eq_false_iff_not]
    intro h
    have := congrArg String.toList h
    simp at this

/-- The tree of the repository's test alone, and as the choice of an ensemble. -/
def play (s : MissingValueStrategy) : ModelElem F64 :=
  .mining { head .selectFirst with functionName := .classification, targets := [], miningFields := [] }
    [seg (.tree (doc s "1" golfCounts))]

-- The hypotheses are met, and the answers are what they should be: where `will play` was answered, now `no play` is,
-- with the probability that `will play` had.
example : Apart isTarget (play .weightedConfidence) ∧
    (∃ out, answerOf Replay.dd (play .weightedConfidence) [("outlook", .str "sunny")] = some (.ok (some out)) ∧
      out["whatIdo"]? = some (.str "will play") ∧ out["probability(will play)"]? = some (.f64 (num "0.8"))) ∧
    ∃ out, answerOf (Replay.dd.map (labelData swapPlay isTarget)) (labelElem swapNodes swapPlay swapProb
        (play .weightedConfidence)) [("outlook", .str "sunny")] = some (.ok (some out)) ∧
      out["whatIdo"]? = some (.str "no play") ∧ out["probability(no play)"]? = some (.f64 (num "0.8")) := by
  refine ⟨?_, ?_⟩
  · simp [Apart, ApartSegs, ApartElems, play, seg, head, doc, targetOf, isTarget, active, target]
  · have key : ∀ (x : Option (Res (Out F64))) (a b : String) (v : GoVal F64) (w : GoVal F64),
        (match x with
          | some (.ok (some out)) => decide (out[a]? = some v ∧ out[b]? = some w)
          | _ => false) = true → ∃ out, x = some (.ok (some out)) ∧ out[a]? = some v ∧ out[b]? = some w := by
      intro x a b v w h
      match x with
      | some (.ok (some out)) => exact ⟨out, rfl, by simpa using h⟩
    exact ⟨key _ _ _ _ _ (by decide +kernel), key _ _ _ _ _ (by decide +kernel)⟩

/-- Classes 1 and 2 exchanged. -/
def swap12 : Equiv.Perm String := Equiv.swap "1" "2"

def swapProb12 : Equiv.Perm String := Equiv.swap "probability(1)" "probability(2)"

def isY (k : String) : Bool := k = "y"

theorem swap12_names : Names swap12 swapProb12 isY :=
  names_swap "1" "2" (by decide) (by decide) isY (by decide) fun v => by
    unfold isY
    rw [decide_eq_false_iff_not]
    intro h
    have := congrArg String.toList h
    simp at this

/-- **C92**: the order of visiting maps cannot be kept: where two classes tie, the one visited first is answered,
and in the alphabetical order that is class 1 before and after the classes 1 and 2 are exchanged. -/
theorem C92_other_order : ∃ (M M' : EModel F64) (td td' : TD F64),
    newModel Samples.dd (.tree (tieTree .classification .aggregateNodes)) [] = (.ok M, td) ∧
    newModel (Samples.dd.map (labelData swap12 isY))
      (labelElem id swap12 swapProb12 (.tree (tieTree .classification .aggregateNodes))) [] = (.ok M', td') ∧
    Labelled swap12 swapProb12 isY M M' ∧
    ¬ LabelRes swap12 swapProb12 isY (EModel.evaluate .sorted M (some (mk []))).res
      (EModel.evaluate .sorted M' (some (mk []))).res := by
  have key : ∀ x : Option (Res (Out F64)), (match x with
      | some (.ok (some out)) => decide (out["y"]? = some (.str "1"))
      | _ => false) = true → ∃ out, x = some (.ok (some out)) ∧ out["y"]? = some (.str "1") := by
    intro x h
    match x with
    | some (.ok (some out)) => exact ⟨out, rfl, by simpa using h⟩
  obtain ⟨out, h1, h2⟩ := key (answerOf Samples.dd (.tree (tieTree .classification .aggregateNodes)) [])
    (by decide +kernel)
  obtain ⟨out', h3, h4⟩ := key (answerOf (Samples.dd.map (labelData swap12 isY))
    (labelElem id swap12 swapProb12 (.tree (tieTree .classification .aggregateNodes))) []) (by decide +kernel)
  obtain ⟨M, td, hM, hr⟩ := answerOf_some h1
  obtain ⟨M', td', hM', hr'⟩ := answerOf_some h3
  refine ⟨M, M', td, td', hM, hM', ?_, ?_⟩
  · exact C92_answers (ν := Equiv.refl _) swap12_names (e := .tree (tieTree .classification .aggregateNodes))
      (by simp [Apart, tieTree, targetOf, isY, active]) hM hM' [] []
  · rw [hr, hr']
    rintro ⟨h5, -⟩
    have := h5 "y"
    rw [swap12_names.target "y" (by decide), h2, h4] at this
    simp [labelVal, swap12] at this

/-- A classification without a target and without distributions: the class answered is the empty one. -/
def noTarget : TreeDoc F64 :=
  { regTree "1" "2" with
    functionName := .classification
    missingValueStrategy := .other ""
    node := .mk "" "" "b" (num "1") [] [] (some .true_) }

/-- **C92**: the empty name has to stay. It is what is answered when no class has a probability above 0, whatever
the classes are called. -/
theorem C92_empty : ∃ (M M' : EModel F64) (td td' : TD F64),
    newModel Samples.dd (.tree noTarget) [] = (.ok M, td) ∧
    newModel (Samples.dd.map (labelData (Equiv.swap "" "b") (· = "")))
      (labelElem id (Equiv.swap "" "b") (Equiv.swap "probability()" "probability(b)") (.tree noTarget)) [] = (.ok M', td') ∧
    ¬ Labelled (Equiv.swap "" "b") (Equiv.swap "probability()" "probability(b)") (· = "") M M' := by
  obtain ⟨M, td, hM, hr⟩ := answerOf_some (show answerOf Samples.dd (.tree noTarget) [] =
    some (.ok (some (mk [("", .str ""), ("probability(b)", .f64 (num "0"))]))) by decide +kernel)
  obtain ⟨M', td', hM', hr'⟩ := answerOf_some (show answerOf (Samples.dd.map (labelData (Equiv.swap "" "b") (· = "")))
    (labelElem id (Equiv.swap "" "b") (Equiv.swap "probability()" "probability(b)") (.tree noTarget)) [] =
    some (.ok (some (mk [("", .str ""), ("probability()", .f64 (num "0"))]))) by decide +kernel)
  refine ⟨M, M', td, td', hM, hM', fun h => ?_⟩
  obtain ⟨o', h1, -⟩ := (h (some (mk []))).1 .sorted
  rw [hr] at h1
  have hn : NoMixingDoc (labelElem id (Equiv.swap "" "b") (Equiv.swap "probability()" "probability(b)")
      (.tree noTarget)) := by
    rw [labelElem]
    exact .tree (by simp [labelTree, noTarget]) (by simp [labelTree, noTarget])
  rw [C25_order_document hn hM' o' .sorted, hr'] at h1
  have h2 := h1.1 ""
  rw [show Equiv.swap "probability()" "probability(b)" "" = "" by decide,
    show (mk [("", .str ""), ("probability()", .f64 (num "0"))])[""]? = some (.str "") by decide +kernel,
    show (mk [("", .str ""), ("probability(b)", .f64 (num "0"))])[""]? = some (.str "") by decide +kernel] at h2
  simp [labelVal] at h2

/-- A class, and a tree that reads it. -/
def classChain : ModelElem F64 :=
  .mining { head .modelChain with targets := [], miningFields := [] }
    [seg (.tree { regTree "1" "2" with
       functionName := .classification
       miningFields := [⟨"y", .target, "", "", none⟩]
       node := .mk "" "" "1" (num "1") [dist "1" "1" "1"] [] (some .true_) }),
     seg (.tree { regTree "1" "2" with
       node := .mk "" "" "0" (num "0") [] [
         .mk "" "" "100" (num "0") [] [] (some (sp "y" .equal "1")),
         .mk "" "" "200" (num "0") [] [] (some (sp "y" .notEqual "1"))] (some .true_) })]

def chainDD : List DataField := [⟨"y", .string, ["1", "2"]⟩]

/-- **C92**: chains are left out with reason: a later segment can read the class an earlier one answered, under
its old name. -/
theorem C92_chain : ∃ (M M' : EModel F64) (td td' : TD F64), newModel chainDD classChain [] = (.ok M, td) ∧
    newModel (chainDD.map (labelData swap12 isY)) (labelElem id swap12 swapProb12 classChain) [] = (.ok M', td') ∧
    ¬ Labelled swap12 swapProb12 isY M M' := by
  obtain ⟨M, td, hM, hr⟩ := answerOf_some (show answerOf chainDD classChain [] =
    some (.ok (some (mk [("score", .f64 (num "100"))]))) by decide +kernel)
  obtain ⟨M', td', hM', hr'⟩ := answerOf_some (show answerOf (chainDD.map (labelData swap12 isY))
    (labelElem id swap12 swapProb12 classChain) [] = some (.ok (some (mk [("score", .f64 (num "200"))]))) by decide +kernel)
  refine ⟨M, M', td, td', hM, hM', fun h => ?_⟩
  obtain ⟨o', h1, -⟩ := (h (some (mk []))).1 .sorted
  rw [hr] at h1
  have hn : NoMixingDoc (labelElem id swap12 swapProb12 classChain) := by
    unfold classChain
    rw [labelElem]
    refine .mining ?_
    intro id ps es e hs he
    simp only [seg, labelSegs, labelElems, labelElem, List.mem_cons, List.not_mem_nil, or_false] at hs
    rcases hs with hs | hs <;> (injection hs with _ _ hs; subst hs; simp at he; subst he)
    all_goals exact .tree (by simp [labelTree, regTree]) (by simp [labelTree, regTree])
  rw [C25_order_document hn hM' o' .sorted, hr'] at h1
  have h2 := h1.1 "score"
  rw [swap12_names.score,
    show (mk [("score", .f64 (num "200"))])["score"]? = some (.f64 (num "200")) by decide +kernel,
    show (mk [("score", .f64 (num "100"))])["score"]? = some (.f64 (num "100")) by decide +kernel] at h2
  exact absurd h2 (by decide +kernel)

end

end Gopmml.Props
