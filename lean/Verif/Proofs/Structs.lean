import Verif.Model.Structs
import Mathlib.Tactic.SplitIfs
import Mathlib.Tactic.Tauto

/-!
# Decoders succeed as the struct tags say
-/

namespace Gopmml.Structs

open Gopmml

variable {F : Type} [Arith F] [Lib F]

set_option linter.unusedSectionVars false
set_option linter.unusedSimpArgs false

/-! ## The loops -/

theorem isOk_ok {α : Type} (x : α) : (Except.ok x : Dec α).isOk = true := rfl

theorem isOk_map {α β : Type} (f : α → β) (r : Dec α) : (r.map f).isOk = r.isOk := by
  cases r <;> rfl

theorem isOk_parsed {α : Type} (s : String) (x : Option α) : (parsed s x).isOk = x.isSome := by
  cases x <;> rfl

theorem attrLoop_isOk {σ : Type} {f : String → String → σ → Dec σ} {P : String × String → Bool}
    (h : ∀ k v s, (f k v s).isOk = P (k, v)) : ∀ (as : Attrs) s, (attrLoop f as s).isOk = as.all P
  | [], s => rfl
  | (k, v) :: as, s => by
    have hk := h k v s
    rw [attrLoop, List.all_cons, ← hk]
    cases f k v s with
    | error e => rfl
    | ok s' => rw [attrLoop_isOk h as s']; rfl

/-- Whether a child of this name can be decoded. -/
def elemReads (F : Type) [Arith F] [Lib F] (s : GoStruct) (n : String) (as : Attrs) (ch : List Xml) : Bool :=
  childReads F s (.elem n as ch)

theorem childReads_elem (s : GoStruct) (n : String) (as : Attrs) (ch : List Xml) :
    childReads F s (.elem n as ch) = match find n s.fields with
      | none => !s.strict
      | some t => if t = "float64" then Kind.float64.reads F (Xml.chardata ch) else reads F t as ch := by
  rw [childReads]
  cases find n s.fields with
  | none => rfl
  | some t =>
    dsimp only
    unfold reads
    rfl

theorem childReads_text (s : GoStruct) (a b : String) : childReads F s (.text a b) = true := by
  rw [childReads]

theorem childrenRead_nil (s : GoStruct) : childrenRead F s [] = true := by
  rw [childrenRead]

theorem childrenRead_cons (s : GoStruct) (c : Xml) (cs : List Xml) :
    childrenRead F s (c :: cs) = (childReads F s c && childrenRead F s cs) := by
  rw [childrenRead]

theorem reflectLoop_isOk {σ : Type} {h : String → Attrs → List Xml → σ → Dec σ} {s : GoStruct}
    (hh : ∀ n as ch x, (h n as ch x).isOk = childReads F s (.elem n as ch)) :
    ∀ (cs : List Xml) x, (reflectLoop h cs x).isOk = childrenRead F s cs
  | [], x => by rw [childrenRead_nil]; rfl
  | .text _ _ :: cs, x => by
    rw [childrenRead_cons, childReads_text, Bool.true_and, reflectLoop, reflectLoop_isOk hh cs x]
  | .elem n as ch :: cs, x => by
    rw [childrenRead_cons, ← hh n as ch x, reflectLoop]
    cases h n as ch x with
    | error e => rfl
    | ok x' => rw [reflectLoop_isOk hh cs x']; rfl

/-- The loop ended, at its own end tag. -/
def done {σ : Type} : Dec (σ × Bool) → Bool
  | .ok (_, true) => true
  | _ => false

theorem consumed_isOk {σ : Type} (n : String) (r : Dec (σ × Bool)) : (consumed n r).isOk = done r := by
  rcases r with e | ⟨x, _ | _⟩ <;> rfl

theorem bodyLoop_done {σ : Type} {h : String → Attrs → List Xml → σ → Option (Dec σ)} {s : GoStruct}
    (hh : ∀ n as ch x, (h n as ch x).elim false Except.isOk = childReads F s (.elem n as ch)) :
    ∀ (cs : List Xml) x, done (bodyLoop h cs x) = childrenRead F s cs
  | [], x => by rw [childrenRead_nil, bodyLoop]; rfl
  | .text _ _ :: cs, x => by
    rw [childrenRead_cons, childReads_text, Bool.true_and, bodyLoop, bodyItem]
    exact bodyLoop_done hh cs x
  | .elem n as ch :: cs, x => by
    rw [childrenRead_cons, ← hh n as ch x, bodyLoop, bodyItem]
    rcases h n as ch x with _ | e | x'
    · dsimp only
      cases bodyLoop h ch x with
      | error e => rfl
      | ok r => rfl
    · rfl
    · dsimp only
      rw [bodyLoop_done hh cs x']
      rfl

/-- Types that can always be decoded. -/
def harmless : List String :=
  ["Extension", "Header", "MiningBuildTask", "Annotation", "Application", "Timestamp", "ParameterField", "Value",
   "Aggregate", "Constant", "Discretize", "FieldRef", "Lag", "NormContinuous", "NormDiscrete", "TextIndex", "Partition",
   "False", "SimplePredicate", "True", "DecisionTree", "Regression", "FieldColumnPair", "TableLocator", "Row",
   "TargetValue"]

def Kind.isString : Kind → Bool
  | .string => true
  | _ => false

/-- All attributes are strings, all children harmless, unknown names allowed. -/
def harmlessStruct (s : GoStruct) : Bool :=
  !s.strict && s.attrs.all (fun a => a.2.isString) && s.fields.all (fun f => harmless.contains f.2)

theorem harmless_table : harmless.all (fun t => (find t goStructs).any harmlessStruct) = true := by decide +kernel

theorem find_mem {α : Type} {k : String} {x : α} : ∀ {l : List (String × α)}, find k l = some x → ∃ n, (n, x) ∈ l
  | [], h => by simp [find] at h
  | (n, y) :: l, h => by
    rw [find] at h
    split at h
    · cases h; exact ⟨n, List.mem_cons_self⟩
    · obtain ⟨m, hm⟩ := find_mem h
      exact ⟨m, List.mem_cons_of_mem _ hm⟩

theorem attrs_harmless {s : GoStruct} (h : harmlessStruct s = true) (as : Attrs) : as.all (attrReads F s) = true := by
  rw [List.all_eq_true]
  intro a _
  rw [attrReads]
  cases hf : find a.1 s.attrs with
  | none => rfl
  | some k =>
    obtain ⟨n, hn⟩ := find_mem hf
    unfold harmlessStruct at h
    simp only [Bool.and_eq_true, List.all_eq_true] at h
    have := h.1.2 _ hn
    cases k <;> first | rfl | cases this

theorem harmless_of {t : String} (h : t ∈ harmless) : ∃ s, find t goStructs = some s ∧ harmlessStruct s = true := by
  have := List.all_eq_true.1 harmless_table t h
  rw [Option.any_eq_true] at this
  obtain ⟨s, hs, h⟩ := this
  exact ⟨s, hs, h⟩

theorem float_not_harmless : ∀ t ∈ harmless, t ≠ "float64" := by decide +kernel

mutual
theorem child_harmless {s : GoStruct} (h : harmlessStruct s = true) : (x : Xml) → childReads F s x = true
  | .text _ _ => childReads_text s _ _
  | .elem n as ch => by
    rw [childReads_elem]
    have h' := h
    unfold harmlessStruct at h'
    simp only [Bool.and_eq_true, List.all_eq_true] at h'
    cases hf : find n s.fields with
    | none => exact h'.1.1
    | some t =>
      obtain ⟨m, hm⟩ := find_mem hf
      have ht : t ∈ harmless := by simpa using h'.2 _ hm
      obtain ⟨s', hs', hh⟩ := harmless_of ht
      dsimp only
      rw [if_neg (float_not_harmless t ht), reads, hs']
      dsimp only
      rw [attrs_harmless hh, children_harmless hh ch]
      rfl
theorem children_harmless {s : GoStruct} (h : harmlessStruct s = true) : (xs : List Xml) → childrenRead F s xs = true
  | [] => childrenRead_nil s
  | x :: xs => by rw [childrenRead_cons, child_harmless h x, children_harmless h xs]; rfl
end

theorem reads_harmless {t : String} (h : t ∈ harmless) (as : Attrs) (ch : List Xml) : reads F t as ch = true := by
  obtain ⟨s, hs, hh⟩ := harmless_of h
  rw [reads, hs]
  dsimp only
  rw [attrs_harmless hh, children_harmless hh]
  rfl

/-- `reads_harmless`, name by name. -/
theorem harm (as : Attrs) (ch : List Xml) :
    reads F "Extension" as ch = true ∧
    reads F "Header" as ch = true ∧
    reads F "MiningBuildTask" as ch = true ∧
    reads F "Annotation" as ch = true ∧
    reads F "Application" as ch = true ∧
    reads F "Timestamp" as ch = true ∧
    reads F "ParameterField" as ch = true ∧
    reads F "Value" as ch = true ∧
    reads F "Aggregate" as ch = true ∧
    reads F "Constant" as ch = true ∧
    reads F "Discretize" as ch = true ∧
    reads F "FieldRef" as ch = true ∧
    reads F "Lag" as ch = true ∧
    reads F "NormContinuous" as ch = true ∧
    reads F "NormDiscrete" as ch = true ∧
    reads F "TextIndex" as ch = true ∧
    reads F "Partition" as ch = true ∧
    reads F "False" as ch = true ∧
    reads F "SimplePredicate" as ch = true ∧
    reads F "True" as ch = true ∧
    reads F "DecisionTree" as ch = true ∧
    reads F "Regression" as ch = true ∧
    reads F "FieldColumnPair" as ch = true ∧
    reads F "TableLocator" as ch = true ∧
    reads F "Row" as ch = true ∧
    reads F "TargetValue" as ch = true := by
  refine ⟨?_, ?_, ?_, ?_, ?_, ?_, ?_, ?_, ?_, ?_, ?_, ?_, ?_, ?_, ?_, ?_, ?_, ?_, ?_, ?_, ?_, ?_, ?_, ?_, ?_, ?_⟩ <;> exact reads_harmless (by decide +kernel) as ch

/-! ## Names of children that are names of types -/

def names (s : GoStruct) : List String := s.fields.map (·.1)

/-- Every child is decoded into the type of its own name. -/
def regular (s : GoStruct) : Bool :=
  s.fields.all fun f => f.1 == f.2 && f.2 != "float64"

theorem find_regular {n : String} : ∀ {l : List (String × String)},
    (l.all fun f => f.1 == f.2 && f.2 != "float64") = true →
    find n l = if n ∈ l.map (·.1) then some n else none
  | [], _ => by simp [find]
  | (a, b) :: l, h => by
    rw [List.all_cons, Bool.and_eq_true] at h
    have hab : a = b := by simpa using (Bool.and_eq_true_iff.1 h.1).1
    rw [find, find_regular h.2]
    by_cases hn : n = a
    · subst hab; subst hn; simp
    · simp only [List.map_cons, List.mem_cons, hn, if_false, false_or]

theorem find_regular_ne {n : String} : ∀ {l : List (String × String)},
    (l.all fun f => f.1 == f.2 && f.2 != "float64") = true → n ∈ l.map (·.1) → n ≠ "float64"
  | [], _, hn => by simp at hn
  | (a, b) :: l, h, hn => by
    rw [List.all_cons, Bool.and_eq_true] at h
    have hab : a = b ∧ b ≠ "float64" := by simpa using h.1
    rw [List.map_cons, List.mem_cons] at hn
    rcases hn with hn | hn
    · subst hn; rw [hab.1]; exact hab.2
    · exact find_regular_ne h.2 hn

theorem childReads_regular {s : GoStruct} (h : regular s = true) (n : String) (as : Attrs) (ch : List Xml) :
    childReads F s (.elem n as ch) = if n ∈ names s then reads F n as ch else !s.strict := by
  rw [childReads_elem, find_regular h]
  by_cases hn : n ∈ names s
  · have hf := find_regular_ne h hn
    rw [names] at hn
    simp only [names, hn, hf, if_true, if_false]
  · have hn' := hn
    rw [names] at hn'
    simp only [names, hn', if_false]

theorem reads_eq {t : String} {s : GoStruct} (h : find t goStructs = some s) (as : Attrs) (ch : List Xml) :
    reads F t as ch = (as.all (attrReads F s) && childrenRead F s ch) := by
  rw [reads, h]

/-! ## Case analysis on names -/

syntax "on_names" ident "[" str,* "]" "do" tactic : tactic

macro_rules
  | `(tactic| on_names $_ [] do $t) => pure t
  | `(tactic| on_names $n [$s] do $t) =>
    `(tactic| (by_cases h : $n = $s; (focus (subst h; $t:tactic; done)); $t:tactic))
  | `(tactic| on_names $n [$s, $ss,*] do $t) =>
    `(tactic| (by_cases h : $n = $s; (focus (subst h; $t:tactic; done)); on_names $n [$ss,*] do $t))

/-! ## Predicates -/

theorem simpleAttr_isOk (k v : String) (p : SimplePred F) : (simpleAttr k v p).isOk = true := by
  unfold simpleAttr
  split_ifs <;> rfl

theorem arrayAttr_isOk (k v : String) (u : Unit) : (arrayAttr k v u).isOk = attrReads F sArrayType (k, v) := by
  on_names k ["n", "type"] do simp [arrayAttr, attrReads, sArrayType, find, Kind.reads, isOk_map, isOk_ok, *]

theorem reads_array (as : Attrs) (ch : List Xml) :
    reads F "ArrayType" as ch = as.all (attrReads F sArrayType) := by
  have h : childrenRead F sArrayType ch = true := by
    induction ch with
    | nil => exact childrenRead_nil _
    | cons c cs ih =>
      rw [childrenRead_cons, ih]
      cases c with
      | text => rw [childReads_text]; rfl
      | elem n as ch => rw [childReads_elem]; rfl
  rw [reads_eq (s := sArrayType) (by simp [find, goStructs]), h, Bool.and_true]

theorem attrLoop_ok {σ : Type} {f : String → String → σ → σ} (as : Attrs) (x : σ) :
    (attrLoop (fun k v s => .ok (f k v s)) as x).isOk = true := by
  rw [attrLoop_isOk (P := fun _ => true) (fun _ _ _ => rfl), List.all_eq_true]
  intros; rfl

theorem set_attrs (as : Attrs) : as.all (attrReads F sSimpleSetPredicate) = true := by
  rw [List.all_eq_true]
  rintro ⟨k, v⟩ _
  on_names k ["booleanOperator", "field"] do simp [attrReads, sSimpleSetPredicate, find, Kind.reads, *]

theorem setChild_isOk (n : String) (as : Attrs) (ch : List Xml) (u : Unit) :
    (setChild n as ch u).isOk = childReads F sSimpleSetPredicate (.elem n as ch) := by
  rw [childReads_elem]
  on_names n ["Array", "Extension"] do
    simp [setChild, sSimpleSetPredicate, find, isOk_ok, reads_array, attrLoop_isOk (arrayAttr_isOk (F := F)),
      harm, *]

theorem leafPred_reads (n : String) (as : Attrs) (ch : List Xml) :
    (leafPred (F := F) n as ch).map Except.isOk =
      if n ∈ ["False", "SimplePredicate", "SimpleSetPredicate", "True"] then some (reads F n as ch) else none := by
  by_cases h : n = "SimpleSetPredicate"
  · subst h
    rw [if_pos (by simp), reads_eq (s := sSimpleSetPredicate) (by simp [find, goStructs]), set_attrs, Bool.true_and,
      ← reflectLoop_isOk (setChild_isOk (F := F)) ch ()]
    unfold leafPred
    rw [if_neg (by simp), if_neg (by simp), if_pos rfl, Option.map_some]
    have := attrLoop_ok (f := fun k v f => if k = "field" then v else f) as ""
    generalize attrLoop _ as "" = r at this
    cases r with
    | error e => cases this
    | ok f => dsimp only; rw [isOk_map]
  · have hs : (attrLoop (simpleAttr (F := F)) as ⟨"", .other "", "", .nil⟩).isOk = true := by
      rw [attrLoop_isOk (P := fun _ => true) (fun k v s => simpleAttr_isOk k v s), List.all_eq_true]
      intros; rfl
    on_names n ["False", "SimplePredicate", "True"] do
      simp [leafPred, isOk_map, isOk_ok, harm, *]

theorem compound_regular : regular sCompoundPredicate = true := by decide +kernel

theorem compound_attrs (as : Attrs) : as.all (attrReads F sCompoundPredicate) = true := by
  rw [List.all_eq_true]
  rintro ⟨k, v⟩ _
  on_names k ["booleanOperator"] do simp [attrReads, sCompoundPredicate, find, Kind.reads, *]

mutual
theorem compoundItem_done : (x : Xml) → (ps : List (Pred F)) →
    done (compoundItem x ps) = childReads F sCompoundPredicate x
  | .text _ _, ps => by rw [compoundItem, childReads_text]; rfl
  | .elem n as ch, ps => by
    rw [childReads_regular compound_regular, compoundItem]
    by_cases h1 : n = "Extension"
    · subst h1
      rw [if_pos rfl, if_pos (by simp [names, sCompoundPredicate]), reads_harmless (by simp [harmless])]; rfl
    rw [if_neg h1]
    by_cases h2 : n = "CompoundPredicate"
    · rw [if_pos h2]
      have := (consumed_isOk "CompoundPredicate" _).trans (compoundBody_done ch ([] : List (Pred F)))
      rw [h2, if_pos (by simp [names, sCompoundPredicate]),
        reads_eq (s := sCompoundPredicate) (by simp [find, goStructs]), compound_attrs, Bool.true_and,
        ← this]
      cases consumed "CompoundPredicate" (compoundBody ch ([] : List (Pred F))) <;> rfl
    rw [if_neg h2]
    have hl := leafPred_reads (F := F) n as ch
    cases hp : leafPred (F := F) n as ch with
    | none =>
      rw [hp, Option.map_none] at hl
      have hn : n ∉ ["False", "SimplePredicate", "SimpleSetPredicate", "True"] := by
        intro hn; rw [if_pos hn] at hl; cases hl
      rw [if_neg (by simp [names, sCompoundPredicate] at hn ⊢; exact ⟨h1, h2, hn⟩)]
      dsimp only
      cases compoundBody ch ps <;> rfl
    | some r =>
      rw [hp, Option.map_some] at hl
      have hn : n ∈ ["False", "SimplePredicate", "SimpleSetPredicate", "True"] := by
        refine Decidable.byContradiction fun hn => ?_; rw [if_neg hn] at hl; cases hl
      rw [if_pos hn] at hl
      rw [if_pos (by simp [names, sCompoundPredicate] at hn ⊢; exact .inr (.inr hn)), ← Option.some_inj.1 hl]
      cases r <;> rfl
theorem compoundBody_done : (xs : List Xml) → (ps : List (Pred F)) →
    done (compoundBody xs ps) = childrenRead F sCompoundPredicate xs
  | [], ps => by rw [compoundBody, childrenRead_nil]; rfl
  | x :: xs, ps => by
    rw [compoundBody, childrenRead_cons, ← compoundItem_done x ps]
    rcases compoundItem x ps with e | ⟨ps', _ | _⟩
    · rfl
    · rfl
    · dsimp only
      rw [compoundBody_done xs ps']
      rfl
end

def preds : List String := ["CompoundPredicate", "False", "SimplePredicate", "SimpleSetPredicate", "True"]

theorem decodePred_reads (n : String) (as : Attrs) (ch : List Xml) :
    (decodePred (F := F) n as ch).map Except.isOk = if n ∈ preds then some (reads F n as ch) else none := by
  unfold decodePred
  by_cases h : n = "CompoundPredicate"
  · subst h
    rw [if_pos rfl, Option.map_some, isOk_map, consumed_isOk, compoundBody_done, if_pos (by simp [preds]),
      reads_eq (s := sCompoundPredicate) (by simp [find, goStructs]), compound_attrs, Bool.true_and]
  · rw [if_neg h, leafPred_reads]
    simp [preds, h]

/-! ## Tree nodes -/

theorem distAttr_isOk (k v : String) (d : ScoreDistribution F) :
    (distAttr k v d).isOk = attrReads F sScoreDistribution (k, v) := by
  on_names k ["confidence", "probability", "recordCount", "value"] do
    simp [distAttr, attrReads, sScoreDistribution, find, Kind.reads, isOk_map, isOk_ok, *]

theorem ext_regular {s : GoStruct} (h : s.fields = [("Extension", "Extension")]) (hs : s.strict = false) (ch : List Xml) :
    childrenRead F s ch = true := by
  induction ch with
  | nil => exact childrenRead_nil _
  | cons c cs ih =>
    rw [childrenRead_cons, ih]
    cases c with
    | text => rw [childReads_text]; rfl
    | elem n as ch =>
      rw [childReads_elem, h]
      on_names n ["Extension"] do simp [find, harm, hs, *]

theorem decodeDist_isOk (as : Attrs) (ch : List Xml) :
    (decodeDist (F := F) as).isOk = reads F "ScoreDistribution" as ch := by
  rw [reads_eq (s := sScoreDistribution) (by simp [find, goStructs]), ext_regular rfl rfl, Bool.and_true, decodeDist,
    attrLoop_isOk distAttr_isOk]

theorem nodeAttr_isOk (k v : String) (x : Node F) : (nodeAttr k v x).isOk = attrReads F sNode (k, v) := by
  obtain ⟨id, dc, sc, rc, ds, ns, p⟩ := x
  by_cases hv : v = ""
  · on_names k ["defaultChild", "id", "recordCount", "score"] do
      simp [nodeAttr, attrReads, sNode, find, Kind.reads, isOk_map, isOk_ok, *]
  · on_names k ["defaultChild", "id", "recordCount", "score"] do
      simp [nodeAttr, attrReads, sNode, find, Kind.reads, isOk_map, isOk_ok, isOk_parsed, *]

theorem node_regular : regular sNode = true := by decide +kernel

mutual
theorem nodeItem_done : (x : Xml) → (nd : Node F) → done (nodeItem x nd) = childReads F sNode x
  | .text _ _, nd => by rw [nodeItem, childReads_text]; rfl
  | .elem n as ch, nd => by
    rw [childReads_regular node_regular, nodeItem]
    by_cases h1 : n = "Extension"
    · subst h1
      rw [if_pos rfl, if_pos (by simp [names, sNode]), reads_harmless (by simp [harmless])]; rfl
    rw [if_neg h1]
    by_cases h2 : n = "Node"
    · rw [if_pos h2, h2, if_pos (by simp [names, sNode]), reads_eq (s := sNode) (by simp [find, goStructs]),
        ← attrLoop_isOk nodeAttr_isOk as Node.zero]
      cases attrLoop nodeAttr as (Node.zero : Node F) with
      | error e => rfl
      | ok y =>
        have := (consumed_isOk "Node" _).trans (nodeBody_done ch y)
        rw [← this]
        dsimp only
        cases consumed "Node" (nodeBody ch y) <;> rfl
    rw [if_neg h2]
    by_cases h3 : n = "ScoreDistribution"
    · subst h3
      rw [if_pos rfl, if_pos (by simp [names, sNode]), ← decodeDist_isOk]
      cases decodeDist (F := F) as <;> rfl
    rw [if_neg h3]
    by_cases h4 : n = "Partition"
    · subst h4
      rw [if_pos rfl, if_pos (by simp [names, sNode]), reads_harmless (by simp [harmless])]; rfl
    rw [if_neg h4]
    have hl := decodePred_reads (F := F) n as ch
    cases hp : decodePred (F := F) n as ch with
    | none =>
      rw [hp, Option.map_none] at hl
      have hn : n ∉ preds := by
        intro hn; rw [if_pos hn] at hl; cases hl
      dsimp only
      by_cases h5 : n = "DecisionTree"
      · subst h5
        rw [if_pos (.inl rfl), if_pos (by simp [names, sNode]), reads_harmless (by simp [harmless])]; rfl
      by_cases h6 : n = "Regression"
      · subst h6
        rw [if_pos (.inr rfl), if_pos (by simp [names, sNode]), reads_harmless (by simp [harmless])]; rfl
      rw [if_neg (by simp [h5, h6]), if_neg (by simp [names, sNode, preds] at hn ⊢; simp [*])]
      cases nodeBody ch nd <;> rfl
    | some r =>
      rw [hp, Option.map_some] at hl
      have hn : n ∈ preds := by
        refine Decidable.byContradiction fun hn => ?_; rw [if_neg hn] at hl; cases hl
      rw [if_pos hn] at hl
      have hm : n ∈ names sNode := by
        simp [names, sNode, preds] at hn ⊢; rcases hn with h | h | h | h | h <;> simp [h]
      rw [if_pos hm, ← Option.some_inj.1 hl]
      cases r <;> rfl
theorem nodeBody_done : (xs : List Xml) → (nd : Node F) → done (nodeBody xs nd) = childrenRead F sNode xs
  | [], nd => by rw [nodeBody, childrenRead_nil]; rfl
  | x :: xs, nd => by
    rw [nodeBody, childrenRead_cons, ← nodeItem_done x nd]
    rcases nodeItem x nd with e | ⟨nd', _ | _⟩
    · rfl
    · rfl
    · dsimp only
      rw [nodeBody_done xs nd']
      rfl
end

theorem decodeNode_isOk (as : Attrs) (ch : List Xml) (x : Node F) :
    (decodeNode as ch x).isOk = reads F "Node" as ch := by
  rw [reads_eq (s := sNode) (by simp [find, goStructs]), ← attrLoop_isOk nodeAttr_isOk as x, decodeNode]
  cases attrLoop nodeAttr as x with
  | error e => rfl
  | ok y =>
    dsimp only
    rw [consumed_isOk, nodeBody_done]
    rfl

/-! ## Tables and expressions -/

theorem rowBody_isOk (ch : List Xml) (r : GoMap (GoVal F)) : done (bodyLoop rowHandle ch r) = true := by
  rw [bodyLoop_done (F := F) (s := sRow)]
  · exact children_harmless (by decide +kernel) ch
  · intro n as ch x
    rw [childReads_elem]
    rfl

theorem decodeTable_isOk (as : Attrs) (ch : List Xml) (rows : List (GoMap (GoVal F))) :
    (decodeTable ch rows).isOk = reads F "InlineTable" as ch := by
  rw [reads_eq (s := sInlineTable) (by simp [find, goStructs]), decodeTable, consumed_isOk,
    bodyLoop_done (F := F) (s := sInlineTable)]
  · have : as.all (attrReads F sInlineTable) = true := by
      rw [List.all_eq_true]; intro a _; rfl
    rw [this, Bool.true_and]
  · intro n as ch x
    rw [childReads_elem]
    by_cases h : n = "row"
    · subst h
      have hr := (consumed_isOk "row" _).trans (rowBody_isOk ch (∅ : GoMap (GoVal F)))
      simp only [tableHandle, sInlineTable, find, if_true, if_false, Option.elim_some]
      rw [if_neg (by simp), reads_harmless (by simp [harmless]), ← hr]
      cases consumed "row" (bodyLoop rowHandle ch (∅ : GoMap (GoVal F))) <;> rfl
    · simp [tableHandle, sInlineTable, find, h]

theorem pairAttr_isOk (k v : String) (p : FieldColumnPair) : (pairAttr k v p).isOk = true := by
  unfold pairAttr
  split_ifs <;> rfl

theorem all_true {α : Type} (as : List α) : (as.all fun _ => true) = true := by
  rw [List.all_eq_true]; intros; rfl

theorem pair_isOk (as : Attrs) (x : FieldColumnPair) : (attrLoop pairAttr as x).isOk = true := by
  rw [attrLoop_isOk (P := fun _ => true) (fun k v s => pairAttr_isOk k v s), all_true]

theorem mapAttr_isOk (k v : String) (m : MapValues F) : (mapAttr k v m).isOk = attrReads F sMapValues (k, v) := by
  on_names k ["defaultValue", "dataType", "mapMissingTo", "outputColumn"] do
    simp [mapAttr, attrReads, sMapValues, find, Kind.reads, isOk_map, isOk_ok, *]

theorem mapChild_isOk (n : String) (as : Attrs) (ch : List Xml) (m : MapValues F) :
    (mapChild n as ch m).isOk = childReads F sMapValues (.elem n as ch) := by
  rw [childReads_elem]
  on_names n ["FieldColumnPair", "InlineTable", "Extension"] do
    simp [mapChild, sMapValues, find, isOk_ok, isOk_map, pair_isOk, decodeTable_isOk as, harm, *]

theorem decodeMap_isOk (as : Attrs) (ch : List Xml) : (decodeMap (F := F) as ch).isOk = reads F "MapValues" as ch := by
  rw [reads_eq (s := sMapValues) (by simp [find, goStructs]),
    ← attrLoop_isOk mapAttr_isOk as ⟨none, .other "", [], []⟩, decodeMap]
  cases attrLoop mapAttr as (⟨none, .other "", [], []⟩ : MapValues F) with
  | error e => rfl
  | ok y =>
    dsimp only
    rw [reflectLoop_isOk mapChild_isOk]
    rfl

def leaves : List String :=
  ["Constant", "FieldRef", "MapValues", "Aggregate", "Discretize", "Lag", "NormContinuous", "NormDiscrete", "TextIndex"]

theorem leafExpr_reads (n : String) (as : Attrs) (ch : List Xml) :
    (leafExpr (F := F) n as ch).map Except.isOk = if n ∈ leaves then some (reads F n as ch) else none := by
  on_names n ["Constant", "FieldRef", "MapValues", "Aggregate", "Discretize", "Lag", "NormContinuous", "NormDiscrete",
      "TextIndex"] do
    simp [leafExpr, leaves, otherExpr, isOk_map, isOk_ok, attrLoop_ok, decodeMap_isOk, harm, *]

theorem apply_regular : regular sApply = true := by decide +kernel

theorem apply_attrs (as : Attrs) : as.all (attrReads F sApply) = true := by
  rw [List.all_eq_true]
  rintro ⟨k, v⟩ _
  on_names k ["defaultValue", "function", "returnInvalid", "mapMissingTo"] do
    simp [attrReads, sApply, find, Kind.reads, *]

mutual
theorem applyItem_done : (x : Xml) → (ps : List (Expr F)) → done (applyItem x ps) = childReads F sApply x
  | .text _ _, ps => by rw [applyItem, childReads_text]; rfl
  | .elem n as ch, ps => by
    rw [childReads_regular apply_regular, applyItem]
    by_cases h1 : n = "Extension"
    · subst h1
      rw [if_pos rfl, if_pos (by simp [names, sApply]), reads_harmless (by simp [harmless])]; rfl
    rw [if_neg h1]
    by_cases h2 : n = "Apply"
    · rw [if_pos h2]
      have := (consumed_isOk "Apply" _).trans (applyBody_done ch ([] : List (Expr F)))
      rw [h2, if_pos (by simp [names, sApply]), reads_eq (s := sApply) (by simp [find, goStructs]), apply_attrs,
        Bool.true_and, ← this]
      cases consumed "Apply" (applyBody ch ([] : List (Expr F))) <;> rfl
    rw [if_neg h2]
    have hl := leafExpr_reads (F := F) n as ch
    cases hp : leafExpr (F := F) n as ch with
    | none =>
      rw [hp, Option.map_none] at hl
      have hn : n ∉ leaves := by
        intro hn; rw [if_pos hn] at hl; cases hl
      rw [if_neg (by simp [names, sApply, leaves] at hn ⊢; simp [*])]
      dsimp only
      cases applyBody ch ps <;> rfl
    | some r =>
      rw [hp, Option.map_some] at hl
      have hn : n ∈ leaves := by
        refine Decidable.byContradiction fun hn => ?_; rw [if_neg hn] at hl; cases hl
      rw [if_pos hn] at hl
      rw [if_pos (by
        simp [names, sApply, leaves] at hn ⊢; rcases hn with h | h | h | h | h | h | h | h | h <;> simp [h]),
        ← Option.some_inj.1 hl]
      cases r <;> rfl
theorem applyBody_done : (xs : List Xml) → (ps : List (Expr F)) → done (applyBody xs ps) = childrenRead F sApply xs
  | [], ps => by rw [applyBody, childrenRead_nil]; rfl
  | x :: xs, ps => by
    rw [applyBody, childrenRead_cons, ← applyItem_done x ps]
    rcases applyItem x ps with e | ⟨ps', _ | _⟩
    · rfl
    · rfl
    · dsimp only
      rw [applyBody_done xs ps']
      rfl
end

theorem decodeExpr_reads (n : String) (as : Attrs) (ch : List Xml) :
    (decodeExpr (F := F) n as ch).map Except.isOk = if n ∈ "Apply" :: leaves then some (reads F n as ch) else none := by
  unfold decodeExpr
  by_cases h : n = "Apply"
  · subst h
    rw [if_pos rfl, Option.map_some, isOk_map, consumed_isOk, applyBody_done, if_pos (by simp),
      reads_eq (s := sApply) (by simp [find, goStructs]), apply_attrs, Bool.true_and]
  · rw [if_neg h, leafExpr_reads]
    simp [h]

theorem elim_of_map {α β : Type} {x : Option (Dec α)} {f : α → β} {c : Prop} [Decidable c] {b : Bool}
    (h : x.map Except.isOk = if c then some b else none) :
    (x.map fun r => r.map f).elim false Except.isOk = (decide c && b) := by
  cases x with
  | none =>
    by_cases hc : c
    · rw [if_pos hc] at h; cases h
    · simp [hc]
  | some r =>
    by_cases hc : c
    · rw [if_pos hc] at h
      simp [hc, isOk_map, Option.some_inj.1 h]
    · rw [if_neg hc] at h; cases h

theorem derivedAttr_isOk (k v : String) (d : DerivedField F) :
    (derivedAttr k v d).isOk = attrReads F sDerivedField (k, v) := by
  on_names k ["dataType", "name", "optype", "displayName"] do
    simp [derivedAttr, attrReads, sDerivedField, find, Kind.reads, isOk_map, isOk_ok, *]

theorem derivedHandle_isOk (n : String) (as : Attrs) (ch : List Xml) (d : DerivedField F) :
    (derivedHandle n as ch d).elim false Except.isOk = childReads F sDerivedField (.elem n as ch) := by
  rw [childReads_regular (by decide +kernel), derivedHandle]
  by_cases h : n = "Extension" ∨ n = "Value"
  · rw [if_pos h]
    rcases h with h | h <;> subst h <;> simp [names, sDerivedField, harm, isOk_ok]
  · rw [if_neg h, elim_of_map (decodeExpr_reads n as ch)]
    have : (n ∈ names sDerivedField) ↔ n ∈ "Apply" :: leaves := by
      simp only [not_or] at h
      simp only [names, sDerivedField, leaves, List.map_cons, List.map_nil, List.mem_cons, h, false_or]
      tauto
    simp only [this]
    by_cases hc : n ∈ "Apply" :: leaves <;> simp [hc, sDerivedField]

theorem decodeDerived_isOk (as : Attrs) (ch : List Xml) :
    (decodeDerived (F := F) as ch).isOk = reads F "DerivedField" as ch := by
  rw [reads_eq (s := sDerivedField) (by simp [find, goStructs]),
    ← attrLoop_isOk derivedAttr_isOk as ⟨"", .other "", .other "", .other ""⟩, decodeDerived]
  cases attrLoop derivedAttr as (⟨"", .other "", .other "", .other ""⟩ : DerivedField F) with
  | error e => rfl
  | ok y =>
    dsimp only
    rw [consumed_isOk, bodyLoop_done derivedHandle_isOk]
    rfl

theorem functionHandle_isOk (n : String) (as : Attrs) (ch : List Xml) (u : Unit) :
    (functionHandle (F := F) n as ch u).elim false Except.isOk = childReads F sDefineFunction (.elem n as ch) := by
  rw [childReads_regular (by decide +kernel), functionHandle]
  by_cases h : n = "Extension" ∨ n = "ParameterField"
  · rw [if_pos h]
    rcases h with h | h <;> subst h <;> simp [names, sDefineFunction, harm, isOk_ok]
  · rw [if_neg h, elim_of_map (decodeExpr_reads n as ch)]
    have : (n ∈ names sDefineFunction) ↔ n ∈ "Apply" :: leaves := by
      simp only [not_or] at h
      simp only [names, sDefineFunction, leaves, List.map_cons, List.map_nil, List.mem_cons, h, false_or]
      tauto
    simp only [this]
    by_cases hc : n ∈ "Apply" :: leaves <;> simp [hc, sDefineFunction]

end Gopmml.Structs
