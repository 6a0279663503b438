import Verif.Proofs.Mix
import Verif.Proofs.Induct
import Verif.Model.Verify

/-!
# Loops over maps whose order does not matter
-/

namespace Gopmml

variable {F : Type}

/-- Two visiting orders of the same map. -/
theorem range_perm_range {V : Type} (o o' : MapOrd) (m : GoMap V) : (o.range m).Perm (o'.range m) :=
  (o.perm [] _).trans (o'.perm [] _).symm

theorem range_key_inj {V : Type} (o : MapOrd) (m : GoMap V) {a b : String × V} (ha : a ∈ o.range m)
    (hb : b ∈ o.range m) (h : a.1 = b.1) : a = b := by
  rw [MapOrd.mem_range] at ha hb
  rw [h, hb] at ha
  exact Prod.ext h (Option.some.inj ha).symm

/-- Insertions under different keys commute. -/
theorem insert_comm {V : Type} (m : GoMap V) {k l : String} (h : k ≠ l) (v w : V) :
    (m.insert k v).insert l w = (m.insert l w).insert k v := by
  apply Std.ExtTreeMap.ext_getElem?
  intro x
  simp only [GoMap.getElem?_insert]
  split_ifs with h1 h2 <;> first | rfl | exact absurd (h2.trans h1.symm) h

/-- A loop that inserts under each visited key a value that does not depend on the map being
built. -/
theorem fold_insert_range {V W : Type} (o o' : MapOrd) (m : GoMap V) (g : String × V → W) (init : GoMap W) :
    (o.range m).foldl (fun acc kv => acc.insert kv.1 (g kv)) init =
      (o'.range m).foldl (fun acc kv => acc.insert kv.1 (g kv)) init := by
  refine (range_perm_range o o' m).foldl_eq' ?_ init
  intro x hx y hy z
  by_cases h : x.1 = y.1
  · rw [range_key_inj o m hx hy h]
  · exact insert_comm z h _ _

/-- The same with a condition. -/
theorem fold_insert_if_range {V W : Type} (o o' : MapOrd) (m : GoMap V) (g : String × V → Option W)
    (init : GoMap W) :
    (o.range m).foldl (fun acc kv => match g kv with | some w => acc.insert kv.1 w | none => acc) init =
      (o'.range m).foldl (fun acc kv => match g kv with | some w => acc.insert kv.1 w | none => acc) init := by
  refine (range_perm_range o o' m).foldl_eq' ?_ init
  intro x hx y hy z
  by_cases h : x.1 = y.1
  · rw [range_key_inj o m hx hy h]
  · cases g x with
    | none => cases g y <;> rfl
    | some v =>
      cases g y with
      | none => rfl
      | some w => exact insert_comm z h _ _

theorem range_nil_iff {V : Type} (o o' : MapOrd) (m : GoMap V) : o.range m = [] ↔ o'.range m = [] := by
  constructor <;> intro h
  · have := range_perm_range o o' m; rw [h] at this; exact List.nil_perm.mp this
  · have := range_perm_range o' o m; rw [h] at this; exact List.nil_perm.mp this

theorem writeAll_some (es : List (String × GoVal F)) (m : GoMap (GoVal F)) :
    writeAll es (some m) = (.ok (), some (es.foldl (fun acc kv => acc.insert kv.1 kv.2) m)) := by
  induction es generalizing m with
  | nil => rfl
  | cons e es ih => simp only [writeAll, Row.set, List.foldl_cons]; exact ih _

theorem writeAll_none (es : List (String × GoVal F)) :
    writeAll es none = if es = [] then (.ok (), none) else (panic .nilMapWrite, none) := by
  cases es with
  | nil => rfl
  | cons e es => simp [writeAll, Row.set]

theorem writeAll_order (o o' : MapOrd) (out : GoMap (GoVal F)) (row : Row F) :
    writeAll (o.range out) row = writeAll (o'.range out) row := by
  cases row with
  | none => rw [writeAll_none, writeAll_none]; simp only [range_nil_iff o o']
  | some m => rw [writeAll_some, writeAll_some, fold_insert_range o o' out (fun kv => kv.2)]

/-- One imputation step on a non-nil row. -/
def imputeStep (m : GoMap (GoVal F)) (kv : String × GoVal F) : GoMap (GoVal F) :=
  match (m[kv.1]?).getD .nil with
  | .nil => m.insert kv.1 kv.2
  | _ => m

theorem imputeLoop_some (es : List (String × GoVal F)) (m : GoMap (GoVal F)) :
    imputeLoop es (some m) = (.ok (), some (es.foldl imputeStep m)) := by
  induction es generalizing m with
  | nil => rfl
  | cons e es ih =>
    have hg : Row.getD (some m) e.1 = (m[e.1]?).getD .nil := rfl
    simp only [imputeLoop, hg, List.foldl_cons, Row.set, imputeStep]
    cases (m[e.1]?).getD .nil <;> exact ih _

theorem imputeLoop_none (es : List (String × GoVal F)) :
    imputeLoop es none = if es = [] then (.ok (), none) else (panic .nilMapWrite, none) := by
  cases es with
  | nil => rfl
  | cons e es => simp [imputeLoop, Row.set, Row.getD, Row.get]

/-- The zero `Value`. -/
def GoVal.isNil : GoVal F → Bool
  | .nil => true
  | _ => false

theorem GoVal.isNil_iff {v : GoVal F} : v.isNil = true ↔ v = .nil := by cases v <;> simp [isNil]

theorem imputeStep_getElem? (m : GoMap (GoVal F)) (kv : String × GoVal F) (x : String) :
    (imputeStep m kv)[x]? =
      if kv.1 = x ∧ ((m[x]?).getD .nil).isNil = true then some kv.2 else m[x]? := by
  unfold imputeStep
  by_cases h : kv.1 = x
  · subst h
    cases hm : (m[kv.1]?).getD .nil <;> simp [GoVal.isNil]
  · simp only [h, false_and, if_false]
    cases hm : (m[kv.1]?).getD .nil <;> simp [GoMap.getElem?_insert, h]

theorem imputeLoop_order (o o' : MapOrd) (ds : GoMap (GoVal F)) (row : Row F) :
    imputeLoop (o.range ds) row = imputeLoop (o'.range ds) row := by
  cases row with
  | none => rw [imputeLoop_none, imputeLoop_none]; simp only [range_nil_iff o o']
  | some m =>
    rw [imputeLoop_some, imputeLoop_some]
    congr 2
    refine (range_perm_range o o' ds).foldl_eq' ?_ m
    intro x hx y hy z
    by_cases h : x.1 = y.1
    · rw [range_key_inj o ds hx hy h]
    · apply Std.ExtTreeMap.ext_getElem?
      intro k
      have hsx : x.1 = k → y.1 ≠ k := fun h1 h2 => h (h1.trans h2.symm)
      simp only [imputeStep_getElem?]
      by_cases h1 : x.1 = k
      · simp [h1, hsx h1]
      · by_cases h2 : y.1 = k <;> simp [h1, h2]

variable [Arith F] [Lib F]

theorem addScore_order (o o' : MapOrd) (fn : MiningFunction) (out : Out F) (sm : GoMap F) :
    (o.range sm).foldl (addScore fn out) sm = (o'.range sm).foldl (addScore fn out) sm := by
  have h : addScore fn out = fun acc kv =>
      match (out.bind (fun m => m[if fn = .classification then kv.1 else "score"]?)).map
        (fun v : GoVal F => Arith.add kv.2 v.float64) with
      | some w => acc.insert kv.1 w
      | none => acc := by
    funext acc kv
    unfold addScore
    simp only
    cases out.bind (fun m => m[if fn = .classification then kv.1 else "score"]?) <;> rfl
  rw [h]
  exact fold_insert_if_range o o' sm _ sm

omit [Lib F] in
theorem sumFinish_order (o o' : MapOrd) (s : MiningState F) (sm : GoMap F) :
    sumFinish o s sm = sumFinish o' s sm := by
  unfold sumFinish scoresToRow
  exact fold_insert_range o o' _ (fun kv => GoVal.f64 kv.2) ∅

theorem averageLoop_order (o o' : MapOrd) (n : Nat) (out : GoMap (GoVal F)) :
    averageLoop n (o.range out) out = averageLoop n (o'.range out) out := by
  unfold averageLoop
  exact fold_insert_range o o' _ (fun kv : String × GoVal F => GoVal.f64 (Arith.div kv.2.float64 (Arith.ofInt n))) out

end Gopmml
