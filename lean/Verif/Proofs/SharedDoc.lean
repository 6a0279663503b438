import Verif.Model.SharedDoc
import Verif.Proofs.Build
import Verif.Proofs.Shared
import Verif.Props.Shared

/-!
# Constants of a document as shared memory
-/

namespace Gopmml
open Spec

variable {F α β : Type}

/-! ## Where the simple predicates are -/

section
mutual
/-- The simple predicates inside the predicate at `l`, with their places. -/
def sitesPred (l : Loc) : Pred F → List (Loc × SimplePred F)
  | .simple p => [(l, p)]
  | .compound _ ps => sitesPreds l 0 ps
  | .true_ => []
  | .false_ => []
  | .set _ => []
def sitesPreds (l : Loc) (i : Nat) : List (Pred F) → List (Loc × SimplePred F)
  | [] => []
  | p :: ps => sitesPred { l with pred := i :: l.pred } p ++ sitesPreds l (i + 1) ps
end

def sitesTest (l : Loc) : Option (Pred F) → List (Loc × SimplePred F)
  | none => []
  | some p => sitesPred l p

mutual
/-- Those of the node at `np` of the tree at `c`. -/
def sitesNode (c : Cell) (np : List Nat) : Node F → List (Loc × SimplePred F)
  | .mk _ _ _ _ _ nodes pred => sitesTest ⟨c, np, []⟩ pred ++ sitesNodes c np 0 nodes
def sitesNodes (c : Cell) (np : List Nat) (i : Nat) : List (Node F) → List (Loc × SimplePred F)
  | [] => []
  | n :: ns => sitesNode c (i :: np) n ++ sitesNodes c np (i + 1) ns
end

mutual
/-- Those of a node of an evaluator. -/
def sitesCNode (c : Cell) (np : List Nat) : CNode F → List (Loc × SimplePred F)
  | .mk _ _ _ _ pred cs => sitesTest ⟨c, np, []⟩ pred ++ sitesCNodes c np 0 cs
def sitesCNodes (c : Cell) (np : List Nat) (i : Nat) : List (CNode F) → List (Loc × SimplePred F)
  | [] => []
  | n :: ns => sitesCNode c (i :: np) n ++ sitesCNodes c np (i + 1) ns
end

mutual
/-- Those of a model element. -/
def sitesElem (c : Cell) : ModelElem F → List (Loc × SimplePred F)
  | .tree d => sitesNode c [] d.node
  | .regression _ => []
  | .mining _ segs => sitesSegs c 0 segs
  | .other _ => []
def sitesSegs (c : Cell) (i : Nat) : List (SegDoc F) → List (Loc × SimplePred F)
  | [] => []
  | .mk _ _ [e] :: segs => sitesElem (i :: c) e ++ sitesSegs c (i + 1) segs
  | .mk _ _ _ :: _ => []
end

mutual
/-- Those of an evaluator. -/
def sitesModel (c : Cell) : EModel F → List (Loc × SimplePred F)
  | .tree m => sitesCNode c [] m.root
  | .regression _ => []
  | .mining _ ms => sitesModels c 0 ms
def sitesModels (c : Cell) (i : Nat) : List (EModel F) → List (Loc × SimplePred F)
  | [] => []
  | m :: ms => sitesModel (i :: c) m ++ sitesModels c (i + 1) ms
end
end

/-! ## Programs that only read constants -/

/-- The program only reads constants, at places of `S`; whatever it finds there, as long as it satisfies
`C`, it returns `a`. -/
inductive Settles (S : Set Loc) (C : Loc → GoVal F → Prop) : DocProg F α → α → Prop
  | done {a} : Settles S C (.done a) a
  | look {l k a} : l ∈ S → (∀ v, C l v → Settles S C (k v) a) → Settles S C (.look l k) a

variable {S : Set Loc} {C : Loc → GoVal F → Prop}

theorem Settles.bind {p : DocProg F α} {a : α} {f : α → DocProg F β} {b : β} (h : Settles S C p a)
    (h' : Settles S C (f a) b) : Settles S C (p.bind f) b := by
  induction h with
  | done => exact h'
  | look hl _ ih => exact .look hl fun v hv => ih v hv h'

theorem Settles.andThen {p : DocProg F (Res α)} {a : Res α} {f : α → DocProg F (Res β)} {g : α → Res β}
    (h : Settles S C p a) (h' : ∀ x, Settles S C (f x) (g x)) : Settles S C (p.andThen f) (a >>= g) := by
  refine h.bind ?_
  cases a with
  | error e => exact .done
  | ok x => exact h' x

/-- The places are in `S`, and only the constant of the predicate satisfies `C`. -/
def Known (S : Set Loc) (C : Loc → GoVal F → Prop) (sites : List (Loc × SimplePred F)) : Prop :=
  ∀ x ∈ sites, x.1 ∈ S ∧ ∀ v, C x.1 v → v = x.2.raw

theorem known_append {a b : List (Loc × SimplePred F)} (h : Known S C (a ++ b)) : Known S C a ∧ Known S C b :=
  ⟨fun x hx => h x (List.mem_append_left _ hx), fun x hx => h x (List.mem_append_right _ hx)⟩

variable [Arith F] [Lib F]

theorem simpleLook_settles (types : FieldTypes) {l : Loc} {p : SimplePred F} (row : Row F)
    (h : Known S C [(l, p)]) : Settles S C (simpleLook types l p row) (evalSimple types p row) := by
  obtain ⟨hl, hv⟩ := h (l, p) (by simp)
  unfold simpleLook evalSimple
  cases types[p.field]? with
  | none => exact .done
  | some dt =>
    refine .look hl fun v hc => ?_
    obtain rfl := hv v hc
    cases hr : p.raw with
    | nil => exact .done
    | _ =>
      simp only
      cases row.get p.field with
      | none => exact .done
      | some x =>
        simp only
        cases p.op <;> first
          | exact .done
          | (refine .look hl fun w hw => ?_
             rw [hv w hw, hr]
             exact .done)

mutual
theorem operandLook_settles (types : FieldTypes) (row : Row F) : (p : Pred F) → (l : Loc) →
    Known S C (sitesPred l p) → Settles S C (operandLook types row l p) (evalOperand types row p)
  | .simple p, l, h => by
    rw [sitesPred] at h
    rw [operandLook, evalOperand]
    exact simpleLook_settles types row h
  | .compound op ps, l, h => by
    rw [sitesPred] at h
    rw [operandLook, evalOperand]
    exact loopLook_settles types row ps l op _ 0 0 0 h
  | .set _, l, h => by rw [operandLook, evalOperand]; exact .done
  | .true_, l, h => by rw [operandLook, evalOperand]; exact .done
  | .false_, l, h => by rw [operandLook, evalOperand]; exact .done
theorem loopLook_settles (types : FieldTypes) (row : Row F) : (ps : List (Pred F)) → (l : Loc) → (op : BoolOp) →
    (len i t u : Nat) → Known S C (sitesPreds l i ps) →
    Settles S C (loopLook types row l op len i t u ps) (compoundLoop types row op len t u ps)
  | [], l, op, len, i, t, u, h => by rw [loopLook, compoundLoop]; exact .done
  | p :: ps, l, op, len, i, t, u, h => by
    rw [sitesPreds] at h
    obtain ⟨h1, h2⟩ := known_append h
    rw [loopLook, compoundLoop]
    refine (operandLook_settles types row p _ h1).andThen fun v => ?_
    split_ifs
    all_goals first
      | exact .done
      | exact loopLook_settles types row ps l op len (i + 1) _ _ h2
end

theorem testLook_settles (types : FieldTypes) (row : Row F) {l : Loc} {pred : Option (Pred F)}
    (h : Known S C (sitesTest l pred)) : Settles S C (testLook types l pred row) (runTest types pred row) := by
  cases pred with
  | none => exact .done
  | some p =>
    rw [sitesTest] at h
    cases p with
    | true_ => exact .done
    | false_ => exact .done
    | set _ => exact .done
    | simple p => exact operandLook_settles types row _ l h
    | compound op ps => exact operandLook_settles types row _ l h

mutual
theorem noneLook_settles (x : TreeCtx F) (row : Row F) (c : Cell) : (n : CNode F) → (np : List Nat) →
    Known S C (sitesCNode c np n) → Settles S C (noneLook x row c np n) (evalNone x row n)
  | .mk id dc sd sc pred cs, np, h => by
    rw [sitesCNode] at h
    obtain ⟨h1, h2⟩ := known_append h
    rw [noneLook, evalNone]
    refine (testLook_settles x.types row h1).andThen fun r => ?_
    split_ifs
    · exact .done
    · refine (noneLooks_settles x row c cs np 0 h2).andThen fun q => ?_
      cases q <;> exact .done
theorem noneLooks_settles (x : TreeCtx F) (row : Row F) (c : Cell) : (ns : List (CNode F)) → (np : List Nat) →
    (i : Nat) → Known S C (sitesCNodes c np i ns) →
    Settles S C (noneLooks x row c np i ns) (evalNoneChildren x row ns)
  | [], np, i, h => by rw [noneLooks, evalNoneChildren]; exact .done
  | n :: ns, np, i, h => by
    rw [sitesCNodes] at h
    obtain ⟨h1, h2⟩ := known_append h
    rw [noneLooks, evalNoneChildren]
    refine (noneLook_settles x row c n _ h1).andThen fun r => ?_
    split_ifs
    · exact .done
    · exact noneLooks_settles x row c ns np (i + 1) h2
end

mutual
theorem nullLook_settles (x : TreeCtx F) (row : Row F) (c : Cell) : (n : CNode F) → (np : List Nat) →
    Known S C (sitesCNode c np n) → Settles S C (nullLook x row c np n) (evalNull x row n)
  | .mk id dc sd sc pred cs, np, h => by
    rw [sitesCNode] at h
    obtain ⟨h1, h2⟩ := known_append h
    rw [nullLook, evalNull]
    refine (testLook_settles x.types row h1).andThen fun r => ?_
    split_ifs
    · exact .done
    · exact .done
    · refine (nullLooks_settles x row c cs np 0 h2).andThen fun q => ?_
      cases q <;> exact .done
theorem nullLooks_settles (x : TreeCtx F) (row : Row F) (c : Cell) : (ns : List (CNode F)) → (np : List Nat) →
    (i : Nat) → Known S C (sitesCNodes c np i ns) →
    Settles S C (nullLooks x row c np i ns) (evalNullChildren x row ns)
  | [], np, i, h => by rw [nullLooks, evalNullChildren]; exact .done
  | n :: ns, np, i, h => by
    rw [sitesCNodes] at h
    obtain ⟨h1, h2⟩ := known_append h
    rw [nullLooks, evalNullChildren]
    refine (nullLook_settles x row c n _ h1).andThen fun r => ?_
    split_ifs
    · exact .done
    · exact .done
    · exact nullLooks_settles x row c ns np (i + 1) h2
end

mutual
theorem lastLook_settles (x : TreeCtx F) (row : Row F) (c : Cell) : (n : CNode F) → (np : List Nat) →
    Known S C (sitesCNode c np n) → Settles S C (lastLook x row c np n) (evalLast x row n)
  | .mk id dc sd sc pred cs, np, h => by
    rw [sitesCNode] at h
    obtain ⟨h1, h2⟩ := known_append h
    rw [lastLook, evalLast]
    refine (testLook_settles x.types row h1).andThen fun r => ?_
    split_ifs
    · exact .done
    · refine (lastLooks_settles x row c cs np 0 h2).andThen fun q => ?_
      split_ifs <;> exact .done
theorem lastLooks_settles (x : TreeCtx F) (row : Row F) (c : Cell) : (ns : List (CNode F)) → (np : List Nat) →
    (i : Nat) → Known S C (sitesCNodes c np i ns) →
    Settles S C (lastLooks x row c np i ns) (evalLastChildren x row ns)
  | [], np, i, h => by rw [lastLooks, evalLastChildren]; exact .done
  | n :: ns, np, i, h => by
    rw [sitesCNodes] at h
    obtain ⟨h1, h2⟩ := known_append h
    rw [lastLooks, evalLastChildren]
    exact (lastLook_settles x row c n _ h1).andThen fun r =>
      (lastLooks_settles x row c ns np (i + 1) h2).andThen fun rs => .done
end

mutual
theorem defaultLook_settles (x : TreeCtx F) (row : Row F) (c : Cell) : (n : CNode F) → (np : List Nat) →
    Known S C (sitesCNode c np n) → Settles S C (defaultLook x row c np n) (evalDefault x row n)
  | .mk id dc sd sc pred cs, np, h => by
    rw [sitesCNode] at h
    obtain ⟨h1, h2⟩ := known_append h
    rw [defaultLook, evalDefault]
    refine (testLook_settles x.types row h1).andThen fun r => ?_
    split_ifs
    · exact .done
    · refine (defaultLooks_settles x row c cs np 0 h2).andThen fun q => ?_
      split_ifs
      · exact .done
      · cases (childScores cs q)[dc]? <;> exact .done
      · exact .done
theorem defaultLooks_settles (x : TreeCtx F) (row : Row F) (c : Cell) : (ns : List (CNode F)) → (np : List Nat) →
    (i : Nat) → Known S C (sitesCNodes c np i ns) →
    Settles S C (defaultLooks x row c np i ns) (evalDefaultChildren x row ns)
  | [], np, i, h => by rw [defaultLooks, evalDefaultChildren]; exact .done
  | n :: ns, np, i, h => by
    rw [sitesCNodes] at h
    obtain ⟨h1, h2⟩ := known_append h
    rw [defaultLooks, evalDefaultChildren]
    exact (defaultLook_settles x row c n _ h1).andThen fun r =>
      (defaultLooks_settles x row c ns np (i + 1) h2).andThen fun rs => .done
end

mutual
theorem weightedLook_settles (x : TreeCtx F) (row : Row F) (c : Cell) : (n : CNode F) → (np : List Nat) →
    (o : MapOrd) → Known S C (sitesCNode c np n) →
    Settles S C (weightedLook x row c np o n) (evalWeighted x row o n)
  | .mk id dc sd sc pred cs, np, o, h => by
    rw [sitesCNode] at h
    obtain ⟨h1, h2⟩ := known_append h
    rw [weightedLook, evalWeighted]
    refine (testLook_settles x.types row h1).andThen fun r => ?_
    split_ifs
    · exact .done
    · refine (weightedLooks_settles x row c cs np o 0 h2).andThen fun q => ?_
      split_ifs <;> exact .done
theorem weightedLooks_settles (x : TreeCtx F) (row : Row F) (c : Cell) : (ns : List (CNode F)) → (np : List Nat) →
    (o : MapOrd) → (i : Nat) → Known S C (sitesCNodes c np i ns) →
    Settles S C (weightedLooks x row c np o i ns) (evalWeightedChildren x row o (i + 2) ns)
  | [], np, o, i, h => by rw [weightedLooks, evalWeightedChildren]; exact .done
  | n :: ns, np, o, i, h => by
    rw [sitesCNodes] at h
    obtain ⟨h1, h2⟩ := known_append h
    rw [weightedLooks, evalWeightedChildren]
    exact (weightedLook_settles x row c n _ _ h1).andThen fun r =>
      (weightedLooks_settles x row c ns np o (i + 1) h2).andThen fun rs => .done
end

mutual
theorem aggregateLook_settles (x : TreeCtx F) (row : Row F) (c : Cell) : (n : CNode F) → (np : List Nat) →
    (o : MapOrd) → Known S C (sitesCNode c np n) →
    Settles S C (aggregateLook x row c np o n) (evalAggregate x row o n)
  | .mk id dc sd sc pred cs, np, o, h => by
    rw [sitesCNode] at h
    obtain ⟨h1, h2⟩ := known_append h
    rw [aggregateLook, evalAggregate]
    refine (testLook_settles x.types row h1).andThen fun r => ?_
    split_ifs
    · exact .done
    · refine (aggregateLooks_settles x row c cs np o 0 h2).andThen fun q => ?_
      split_ifs <;> exact .done
theorem aggregateLooks_settles (x : TreeCtx F) (row : Row F) (c : Cell) : (ns : List (CNode F)) → (np : List Nat) →
    (o : MapOrd) → (i : Nat) → Known S C (sitesCNodes c np i ns) →
    Settles S C (aggregateLooks x row c np o i ns) (evalAggregateChildren x row o (i + 1) ns)
  | [], np, o, i, h => by rw [aggregateLooks, evalAggregateChildren]; exact .done
  | n :: ns, np, o, i, h => by
    rw [sitesCNodes] at h
    obtain ⟨h1, h2⟩ := known_append h
    rw [aggregateLooks, evalAggregateChildren]
    exact (aggregateLook_settles x row c n _ _ h1).andThen fun r =>
      (aggregateLooks_settles x row c ns np o (i + 1) h2).andThen fun rs => .done
end

theorem nodeLook_settles (x : TreeCtx F) (o : MapOrd) (row : Row F) (c : Cell) (n : CNode F)
    (h : Known S C (sitesCNode c [] n)) : Settles S C (nodeLook x o row c n) (evalNode x o row n) := by
  unfold nodeLook evalNode
  cases x.strategy with
  | nullPrediction => exact nullLook_settles x row c n [] h
  | aggregateNodes => exact aggregateLook_settles x row c n [] o h
  | weightedConfidence => exact weightedLook_settles x row c n [] o h
  | defaultChild => exact defaultLook_settles x row c n [] h
  | lastPrediction => exact lastLook_settles x row c n [] h
  | none => exact noneLook_settles x row c n [] h
  | other s => exact noneLook_settles x row c n [] h

theorem treeLook_settles (m : TreeModel F) (c : Cell) (o : MapOrd) (row : Row F)
    (h : Known S C (sitesCNode c [] m.root)) :
    Settles S C (m.lookProg c o row) ((m.evaluate o row).res, (m.evaluate o row).row) := by
  unfold TreeModel.lookProg TreeModel.evaluate
  by_cases hv : m.validated = true
  swap
  · rw [if_pos hv, if_pos hv]; exact .done
  by_cases hc : m.compiled = true
  swap
  · rw [if_neg (not_not.mpr hv), if_pos hc, if_neg (not_not.mpr hv), if_pos hc]; exact .done
  · rw [if_neg (not_not.mpr hv), if_neg (not_not.mpr hc), if_neg (not_not.mpr hv), if_neg (not_not.mpr hc)]
    rcases handleInput m.model.localTransformations row with ⟨_ | ⟨⟨⟩⟩, row'⟩
    · exact .done
    · simp only
      refine (nodeLook_settles m.ctx o row' c m.root h).bind ?_
      cases evalNode m.ctx o row' m.root <;> exact .done

variable [Trans F]

theorem sumLook_settles (ms : List (EModel F))
    (ih : ∀ m ∈ ms, ∀ c o row, Known S C (sitesModel c m) →
      Settles S C (EModel.lookProg c o m row) ((EModel.evaluate o m row).res, (EModel.evaluate o m row).row)) :
    ∀ c o fn i sm row, Known S C (sitesModels c i ms) →
      Settles S C (sumLook c o fn i sm ms row)
        ((sumSegments o fn i sm ms row).res, (sumSegments o fn i sm ms row).row) := by
  induction ms with
  | nil => intro c o fn i sm row h; rw [sumLook, sumSegments]; exact .done
  | cons m ms ihs =>
    intro c o fn i sm row h
    rw [sitesModels] at h
    obtain ⟨h1, h2⟩ := known_append h
    rw [sumLook, sumSegments]
    refine (ih m (by simp) (i :: c) (o.at_ (2 * i)) row h1).bind ?_
    simp only
    cases (EModel.evaluate (o.at_ (2 * i)) m row).res with
    | error e => exact .done
    | ok segout => exact ihs (fun m hm => ih m (by simp [hm])) c o fn (i + 1) _ _ h2

theorem chainLook_settles (ms : List (EModel F))
    (ih : ∀ m ∈ ms, ∀ c o row, Known S C (sitesModel c m) →
      Settles S C (EModel.lookProg c o m row) ((EModel.evaluate o m row).res, (EModel.evaluate o m row).row)) :
    ∀ c o i out row, Known S C (sitesModels c i ms) →
      Settles S C (chainLook c o i out ms row)
        ((chainSegments o i out ms row).res, (chainSegments o i out ms row).row) := by
  induction ms with
  | nil => intro c o i out row h; rw [chainLook, chainSegments]; exact .done
  | cons m ms ihs =>
    intro c o i out row h
    rw [sitesModels] at h
    obtain ⟨h1, h2⟩ := known_append h
    rw [chainLook, chainSegments]
    rcases writeAll ((o.at_ (2 * i)).range (out.getD ∅)) row with ⟨e | ⟨⟨⟩⟩, row1⟩
    · exact .done
    simp only
    refine (ih m (by simp) (i :: c) (o.at_ (2 * i + 1)) row1 h1).bind ?_
    simp only
    cases (EModel.evaluate (o.at_ (2 * i + 1)) m row1).res with
    | error e => exact .done
    | ok segout => exact ihs (fun m hm => ih m (by simp [hm])) c o (i + 1) _ _ h2

/-- As long as the places of its predicates hold its constants, a call of `Evaluate` returns what it returns
with the constants inside the evaluator. -/
theorem lookProg_settles (m : EModel F) : ∀ c o row, Known S C (sitesModel c m) →
    Settles S C (EModel.lookProg c o m row) ((EModel.evaluate o m row).res, (EModel.evaluate o m row).row) := by
  induction m using EModel.ind with
  | ht m =>
    intro c o row h
    rw [sitesModel] at h
    rw [EModel.lookProg, EModel.evaluate]
    exact treeLook_settles m c o row h
  | hr d => intro c o row _; rw [EModel.lookProg, EModel.evaluate]; exact .done
  | hm s ms ih =>
    intro c o row h
    rw [sitesModel] at h
    rw [EModel.lookProg, EModel.evaluate]
    by_cases hv : s.validated = true
    swap
    · rw [if_pos hv, if_pos hv]; exact .done
    by_cases hc : s.compiled = true
    swap
    · rw [if_neg (not_not.mpr hv), if_pos hc, if_neg (not_not.mpr hv), if_pos hc]; exact .done
    rw [if_neg (not_not.mpr hv), if_neg (not_not.mpr hc), if_neg (not_not.mpr hv), if_neg (not_not.mpr hc)]
    rcases imputeLoop ((o.at_ 0).range s.defaultValues) row with ⟨e | ⟨⟨⟩⟩, row1⟩
    · exact .done
    simp only
    rcases handleInput s.head.localTransformations row1 with ⟨e | ⟨⟨⟩⟩, row2⟩
    · exact .done
    simp only
    cases s.head.method with
    | average => exact (sumLook_settles ms ih c _ _ 0 _ row2 h).bind .done
    | sum => exact (sumLook_settles ms ih c _ _ 0 _ row2 h).bind .done
    | modelChain => exact chainLook_settles ms ih c _ 0 _ row2 h
    | selectFirst =>
      simp only
      cases ms with
      | nil => rw [firstLook, selectFirst]; exact .done
      | cons m ms =>
        rw [sitesModels] at h
        rw [firstLook, selectFirst]
        exact ih m (by simp) _ _ row2 (known_append h).1
    | _ => exact .done

end Gopmml
