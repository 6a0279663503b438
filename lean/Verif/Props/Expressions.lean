import Verif.Proofs.Induct
import Verif.Proofs.Maps
import Verif.Spec.Expr
import Verif.Model.Replay

/-!
# Expressions and derived fields (C29–C35)
-/

namespace Gopmml.Props
open Gopmml Gopmml.Spec

variable {F : Type} [Arith F] [Lib F]

theorem getD_float64 (row : Row F) (f : String) : (row.getD f).float64 = fieldNum row f := by
  unfold Row.getD fieldNum
  cases row.get f with
  | some v => rfl
  | none => simp [GoVal.float64, GoVal.int64]

theorem handle_sum (row : Row F) (es : List (Expr F)) :
    handleExpression row (.apply "sum" es) = (sumLoop row Arith.zero es).bind (fun s => .ok (.f64 s)) := by
  unfold handleExpression
  exact if_pos rfl

theorem handle_isMissing (row : Row F) (e : Expr F) :
    handleExpression row (.apply "isMissing" [e]) =
      (handleExpression row e).bind (fun v => .ok (.bool (match v with | .nil => true | _ => false))) := by
  rw [handleExpression, if_neg (by decide), if_neg (by decide), if_pos rfl]; rfl

theorem handle_isNotMissing (row : Row F) (e : Expr F) :
    handleExpression row (.apply "isNotMissing" [e]) =
      (handleExpression row e).bind (fun v => .ok (.bool (!(match v with | .nil => true | _ => false)))) := by
  rw [handleExpression, if_neg (by decide), if_neg (by decide), if_neg (by decide), if_pos rfl]; rfl

theorem handle_if (row : Row F) (c a b : Expr F) :
    handleExpression row (.apply "if" [c, a, b]) =
      (handleExpression row c).bind (fun v =>
        if v.toBool then handleExpression row a else handleExpression row b) := by
  rw [handleExpression, if_neg (by decide), if_neg (by decide), if_neg (by decide), if_neg (by decide),
    if_pos rfl]; rfl

mutual
theorem num_sound {row : Row F} : {e : Expr F} → {x : F} → Num row e x →
    ∃ v, handleExpression row e = .ok v ∧ v.float64 = x ∧
      ((∃ f, e = .fieldRef f) ∨ v = .f64 x)
  | _, _, .field f => ⟨_, by rw [handleExpression], getD_float64 row f, .inl ⟨f, rfl⟩⟩
  | _, _, .const (s := s) (x := x) h =>
    ⟨.f64 x, by simp [handleExpression, handleConstant, h], rfl, .inr rfl⟩
  | _, _, .add (x := x) (y := y) ha hb => by
    obtain ⟨va, ea, fa, -⟩ := num_sound ha
    obtain ⟨vb, eb, fb, -⟩ := num_sound hb
    exact ⟨.f64 (Arith.add x y), by
      simp [handleExpression, ea, eb, fa, fb, bind, Except.bind, pure, Except.pure], rfl, .inr rfl⟩
  | _, _, .sub (x := x) (y := y) ha hb => by
    obtain ⟨va, ea, fa, -⟩ := num_sound ha
    obtain ⟨vb, eb, fb, -⟩ := num_sound hb
    exact ⟨.f64 (Arith.sub x y), by
      simp [handleExpression, ea, eb, fa, fb, bind, Except.bind, pure, Except.pure], rfl, .inr rfl⟩
  | _, _, .mul (x := x) (y := y) ha hb => by
    obtain ⟨va, ea, fa, -⟩ := num_sound ha
    obtain ⟨vb, eb, fb, -⟩ := num_sound hb
    exact ⟨.f64 (Arith.mul x y), by
      simp [handleExpression, ea, eb, fa, fb, bind, Except.bind, pure, Except.pure], rfl, .inr rfl⟩
  | _, _, .div (x := x) (y := y) ha hb => by
    obtain ⟨va, ea, fa, -⟩ := num_sound ha
    obtain ⟨vb, eb, fb, -⟩ := num_sound hb
    exact ⟨.f64 (Arith.div x y), by
      simp [handleExpression, ea, eb, fa, fb, bind, Except.bind, pure, Except.pure], rfl, .inr rfl⟩
  | _, _, .sum (xs := xs) h =>
    ⟨.f64 (xs.foldl Arith.add Arith.zero), by
      rw [handle_sum, nums_sound h Arith.zero]; rfl, rfl, .inr rfl⟩
theorem nums_sound {row : Row F} : {es : List (Expr F)} → {xs : List F} → Nums row es xs → (s : F) →
    sumLoop row s es = .ok (xs.foldl Arith.add s)
  | _, _, .nil, s => by simp [sumLoop]
  | _, _, .cons h hs, s => by
    obtain ⟨v, e, f, -⟩ := num_sound h
    simp [sumLoop, e, f, bind, Except.bind, nums_sound hs]
end

omit [Lib F] in
mutual
theorem num_exists [Lib F] (row : Row F) : {e : Expr F} → IsArith e → ∃ x, Num row e x
  | _, .field f => ⟨_, .field f⟩
  | _, .const h => ⟨_, .const h⟩
  | _, .bin ho ha hb => by
    obtain ⟨x, hx⟩ := num_exists row ha
    obtain ⟨y, hy⟩ := num_exists row hb
    rcases ho with rfl | rfl | rfl | rfl
    exacts [⟨_, .add hx hy⟩, ⟨_, .sub hx hy⟩, ⟨_, .mul hx hy⟩, ⟨_, .div hx hy⟩]
  | _, .sum hs => by
    obtain ⟨xs, h⟩ := nums_exist row hs
    exact ⟨_, .sum h⟩
theorem nums_exist [Lib F] (row : Row F) : {es : List (Expr F)} → IsAriths es → ∃ xs, Nums row es xs
  | _, .nil => ⟨[], .nil⟩
  | _, .cons h hs => by
    obtain ⟨x, hx⟩ := num_exists row h
    obtain ⟨xs, hxs⟩ := nums_exist row hs
    exact ⟨_, .cons hx hxs⟩
end

/-- **C30**: an arithmetic expression has a denotation, and HandleExpression returns it:
as a float64 for constants and applications, as the raw field for a bare reference. (The row is
an argument of a function that returns only a value: it cannot be modified.) -/
theorem C30_arithmetic (row : Row F) {e : Expr F} (he : IsArith e) :
    ∃ x, Num row e x ∧
      (match e with
       | .fieldRef f => handleExpression row e = .ok (row.getD f) ∧ (row.getD f).float64 = x
       | _ => handleExpression row e = .ok (.f64 x)) := by
  obtain ⟨x, hx⟩ := num_exists row he
  obtain ⟨v, h1, h2, h3⟩ := num_sound hx
  refine ⟨x, hx, ?_⟩
  cases e with
  | fieldRef f => exact ⟨by rw [handleExpression], by rw [handleExpression] at h1; cases h1; exact h2⟩
  | _ =>
    rcases h3 with ⟨f, hf⟩ | rfl
    · cases hf
    · exact h1

/-- **C30**: the denotation is unique. -/
theorem C30_arithmetic_unique {row : Row F} {e : Expr F} {x y : F} (hx : Num row e x) (hy : Num row e y) :
    x = y := by
  obtain ⟨v, h1, h2, -⟩ := num_sound hx
  obtain ⟨w, h3, h4, -⟩ := num_sound hy
  rw [h1] at h3; cases h3
  rw [← h2, ← h4]

/-- **C31**: a true condition yields exactly the then branch. -/
theorem C31_if_true {row : Row F} {c : Expr F} (h : handleExpression row c = .ok (.bool true))
    (a b : Expr F) : handleExpression row (.apply "if" [c, a, b]) = handleExpression row a := by
  simp [handle_if, h, Except.bind, GoVal.toBool]

/-- **C31**: any other value of the condition (also one that is not a boolean) yields exactly the
else branch. -/
theorem C31_if_not_true {row : Row F} {c : Expr F} {v : GoVal F} (h : handleExpression row c = .ok v)
    (hv : v ≠ .bool true) (a b : Expr F) :
    handleExpression row (.apply "if" [c, a, b]) = handleExpression row b := by
  have : v.toBool = false := by
    cases v with
    | bool t => cases t <;> simp_all [GoVal.toBool]
    | _ => rfl
  simp [handle_if, h, Except.bind, this]

/-- **C31**: an error in the condition is the result. -/
theorem C31_if_error {row : Row F} {c : Expr F} {e : Fault} (h : handleExpression row c = .error e)
    (a b : Expr F) : handleExpression row (.apply "if" [c, a, b]) = .error e := by
  simp [handle_if, h, Except.bind]

/-- **C31**: the branch not taken has no influence. -/
theorem C31_if_untaken (row : Row F) (c a b a' b' : Expr F) :
    (handleExpression row c = .ok (.bool true) →
      handleExpression row (.apply "if" [c, a, b]) = handleExpression row (.apply "if" [c, a, b'])) ∧
    (handleExpression row c ≠ .ok (.bool true) →
      handleExpression row (.apply "if" [c, a, b]) = handleExpression row (.apply "if" [c, a', b])) := by
  refine ⟨fun h => by rw [C31_if_true h, C31_if_true h], fun h => ?_⟩
  cases hc : handleExpression row c with
  | error e => rw [C31_if_error hc, C31_if_error hc]
  | ok v =>
    have hv : v ≠ .bool true := fun hv => h (by rw [hc, hv])
    rw [C31_if_not_true hc hv, C31_if_not_true hc hv]

/-- **C32**: isMissing and isNotMissing fail alike or return opposite booleans, and isMissing is
true exactly on the nil value. -/
theorem C32_missing (row : Row F) (e : Expr F) :
    (∃ f, handleExpression row e = .error f ∧
        handleExpression row (.apply "isMissing" [e]) = .error f ∧
        handleExpression row (.apply "isNotMissing" [e]) = .error f) ∨
    (∃ v b, handleExpression row e = .ok v ∧
        handleExpression row (.apply "isMissing" [e]) = .ok (.bool b) ∧
        handleExpression row (.apply "isNotMissing" [e]) = .ok (.bool (!b)) ∧
        (b = true ↔ v = .nil)) := by
  cases h : handleExpression row e with
  | error f => exact .inl ⟨f, rfl, by simp [handle_isMissing, h, Except.bind],
      by simp [handle_isNotMissing, h, Except.bind]⟩
  | ok v =>
    refine .inr ⟨v, (match v with | .nil => true | _ => false), rfl, ?_, ?_, ?_⟩
    · cases v <;> simp only [handle_isMissing, h, Except.bind]
    · cases v <;> simp only [handle_isNotMissing, h, Except.bind]
    · cases v <;> simp

/-- **C32**: an absent field is missing. -/
theorem C32_absent_field {row : Row F} {f : String} (h : row.get f = none) :
    handleExpression row (.apply "isMissing" [.fieldRef f]) = .ok (.bool true) ∧
    handleExpression row (.apply "isNotMissing" [.fieldRef f]) = .ok (.bool false) := by
  have : row.getD f = .nil := by simp [Row.getD, h]
  constructor
  · rw [handle_isMissing, handleExpression, this]; rfl
  · rw [handle_isNotMissing, handleExpression, this]; rfl

/-! ### MapValues -/

omit [Arith F] [Lib F] in
theorem mapColumns_snoc (ps : List FieldColumnPair) (p : FieldColumnPair) (row : Row F) :
    mapColumns (ps ++ [p]) row =
      (match row.get p.field with
       | some data => (mapColumns ps row).insert p.column data
       | none => mapColumns ps row) := by
  simp only [mapColumns, List.foldl_append, List.foldl_cons, List.foldl_nil]
  cases row.get p.field <;> rfl

omit [Arith F] [Lib F] in
theorem mapCell_eq (tables : List (List (GoMap (GoVal F)))) (s : String) :
    mapCell tables s =
      ((tables.flatten.filter (fun r => cellIs r["input"]? s)).getLast?).map
        (fun r => (r["output"]?).getD .nil) := by
  unfold mapCell
  congr 3

omit [Arith F] [Lib F] in
theorem mapColumns_get (ps : List FieldColumnPair) (row : Row F) (col : String) :
    (mapColumns ps row)[col]? =
      ((ps.filter (fun p => p.column = col ∧ (row.get p.field).isSome)).getLast?).bind
        (fun p => row.get p.field) := by
  induction ps using List.reverseRecOn with
  | nil => simp [mapColumns]
  | append_singleton ps p ih =>
    rw [mapColumns_snoc, List.filter_append]
    cases hr : row.get p.field with
    | none => simp [hr, ih]
    | some v =>
      simp only [GoMap.getElem?_insert]
      by_cases hc : p.column = col
      · simp [hc, hr]
      · simp [hc, hr, ih]

omit [Arith F] in
theorem mapLookup_flatten (tables : List (List (GoMap (GoVal F)))) (columns : GoMap (GoVal F)) :
    mapLookup tables columns = mapLookup [tables.flatten] columns := by
  simp [mapLookup, List.foldl_flatten]

omit [Arith F] in
theorem mapLookup_rows (rows : List (GoMap (GoVal F))) (columns : GoMap (GoVal F)) :
    (mapLookup [rows] columns)["data:input"]? = columns["data:input"]? ∧
    (mapLookup [rows] columns)["data:output"]? =
      (match mapCell [rows] ((columns["data:input"]?).getD .nil).string with
       | some v => some v
       | none => columns["data:output"]?) := by
  induction rows using List.reverseRecOn with
  | nil => simp [mapLookup, mapCell]
  | append_singleton rows r ih =>
    have hs : mapLookup [rows ++ [r]] columns =
        (if cellIs r["input"]? (((mapLookup [rows] columns)["data:input"]?).getD .nil).string then
          (mapLookup [rows] columns).insert "data:output" ((r["output"]?).getD .nil)
        else mapLookup [rows] columns) := by
      unfold mapLookup
      rw [List.foldl_cons, List.foldl_nil, List.foldl_append]
      rfl
    rw [hs, ih.1]
    rw [mapCell_eq] at ih ⊢
    simp only [List.flatten_cons, List.flatten_nil, List.append_nil, List.filter_append] at ih ⊢
    by_cases hc : cellIs r["input"]? ((columns["data:input"]?).getD .nil).string
    · rw [if_pos hc]
      constructor
      · rw [GoMap.getElem?_insert, if_neg (by decide)]; exact ih.1
      · rw [GoMap.getElem?_insert, if_pos rfl]
        simp [hc]
    · rw [if_neg hc]
      refine ⟨ih.1, ?_⟩
      rw [ih.2]
      simp [hc]

/-- **C33**: MapValues, when no column pair writes the output column itself: the output cell of
the last row whose input cell is the string form of the mapped field (`"<nil>"` for an absent
field), else the default, else the input unchanged, else an error. -/
theorem C33_map_values (m : MapValues F) (row : Row F)
    (ho : ∀ p ∈ m.fieldColumnPairs, p.column = "data:output" → row.get p.field = none) :
    handleExpression row (.mapValues m) =
      (match mapCell m.inlineTables ((mapInput m.fieldColumnPairs row).getD .nil).string with
       | some v => .ok v
       | none =>
         match m.defaultValue, mapInput m.fieldColumnPairs row with
         | some d, _ => getRawValue m.dataType d
         | none, some v => .ok v
         | none, none => fail .unexpectedExpression) := by
  rw [handleExpression, handleMapValues, mapLookup_flatten]
  have hin : (mapColumns m.fieldColumnPairs row)["data:input"]? = mapInput m.fieldColumnPairs row :=
    mapColumns_get _ _ _
  have hout : (mapColumns m.fieldColumnPairs row)["data:output"]? = none := by
    rw [mapColumns_get]
    have : m.fieldColumnPairs.filter
        (fun p => p.column = "data:output" ∧ (row.get p.field).isSome) = [] := by
      rw [List.filter_eq_nil_iff]
      intro p hp h
      simp only [decide_eq_true_eq] at h
      rw [ho p hp h.1] at h
      simp at h
    rw [this]; rfl
  have hcell : mapCell [m.inlineTables.flatten] = mapCell m.inlineTables := by
    funext s; simp [mapCell]
  obtain ⟨h1, h2⟩ := mapLookup_rows m.inlineTables.flatten (mapColumns m.fieldColumnPairs row)
  simp only [h1, h2, hin, hout, hcell]
  cases mapCell m.inlineTables ((mapInput m.fieldColumnPairs row).getD .nil).string with
  | some v => rfl
  | none =>
    cases m.defaultValue with
    | some d => rfl
    | none => cases mapInput m.fieldColumnPairs row <;> rfl

/-! ### Errors -/

omit [Arith F] in
theorem getRawValue_no_panic (dt : DataType) (s : String) {p : Panic} :
    getRawValue (F := F) dt s ≠ panic p := by
  cases dt <;> simp only [getRawValue] <;> first | split <;> simp | simp

omit [Arith F] in
theorem handleMapValues_no_panic (m : MapValues F) (row : Row F) {p : Panic} :
    handleMapValues m row ≠ panic p := by
  unfold handleMapValues
  simp only
  split
  · simp
  · split
    · exact getRawValue_no_panic _ _
    · split <;> simp

/-- HandleExpression succeeds. -/
def Succeeds (row : Row F) (e : Expr F) : Prop := ∃ v, handleExpression row e = .ok v

theorem bind_ok_iff {α β : Type} {x : Res α} {f : α → Res β} {b : β} :
    x.bind f = .ok b ↔ ∃ a, x = .ok a ∧ f a = .ok b := by
  cases x <;> simp [Except.bind]

theorem sumLoop_ok_iff (row : Row F) (es : List (Expr F)) :
    ∀ s, (∃ t, sumLoop row s es = .ok t) ↔ ∀ e ∈ es, Succeeds row e := by
  induction es with
  | nil => intro s; simp [sumLoop]
  | cons e es ih =>
    intro s
    rw [List.forall_mem_cons]
    constructor
    · rintro ⟨t, ht⟩
      rw [sumLoop] at ht
      obtain ⟨v, hv, ht⟩ := bind_ok_iff.mp ht
      exact ⟨⟨v, hv⟩, (ih _).mp ⟨t, ht⟩⟩
    · rintro ⟨⟨v, hv⟩, h⟩
      obtain ⟨t, ht⟩ := (ih (Arith.add s v.float64)).mpr h
      exact ⟨t, by rw [sumLoop]; exact bind_ok_iff.mpr ⟨v, hv, ht⟩⟩

theorem succeeds_sum (row : Row F) (es : List (Expr F)) :
    Succeeds row (.apply "sum" es) ↔ ∀ e ∈ es, Succeeds row e := by
  rw [← sumLoop_ok_iff row es Arith.zero]
  unfold Succeeds
  rw [handle_sum]
  constructor
  · rintro ⟨v, hv⟩
    obtain ⟨t, ht, -⟩ := bind_ok_iff.mp hv
    exact ⟨t, ht⟩
  · rintro ⟨t, ht⟩
    exact ⟨.f64 t, bind_ok_iff.mpr ⟨t, ht, rfl⟩⟩

def IsOp (op : String) : Prop := op = "+" ∨ op = "-" ∨ op = "*" ∨ op = "/"

theorem handle_bin_bad (row : Row F) {op : String} (ho : IsOp op) (es : List (Expr F)) (h : es.length ≠ 2) :
    handleExpression row (.apply op es) = fail (.arity op es.length) := by
  have h1 : op ≠ "sum" := by rcases ho with rfl | rfl | rfl | rfl <;> decide
  have h2 : op = "*" ∨ op = "+" ∨ op = "-" ∨ op = "/" := by rcases ho with rfl | rfl | rfl | rfl <;> simp
  unfold handleExpression
  rw [if_neg h1, if_pos h2]
  rcases es with _ | ⟨a, _ | ⟨b, _ | ⟨c, es⟩⟩⟩ <;> first | rfl | simp at h

theorem handle_bin (row : Row F) {op : String} (ho : IsOp op) (a b : Expr F) :
    ∃ g : GoVal F → GoVal F → GoVal F, handleExpression row (.apply op [a, b]) =
      (handleExpression row a).bind (fun v => (handleExpression row b).bind (fun w => .ok (g v w))) := by
  rcases ho with rfl | rfl | rfl | rfl
  · exact ⟨fun v w => .f64 (Arith.add v.float64 w.float64), by
      rw [handleExpression, if_neg (by decide), if_pos (by decide)]; rfl⟩
  · exact ⟨fun v w => .f64 (Arith.sub v.float64 w.float64), by
      rw [handleExpression, if_neg (by decide), if_pos (by decide)]; rfl⟩
  · exact ⟨fun v w => .f64 (Arith.mul v.float64 w.float64), by
      rw [handleExpression, if_neg (by decide), if_pos (by decide)]; rfl⟩
  · exact ⟨fun v w => .f64 (Arith.div v.float64 w.float64), by
      rw [handleExpression, if_neg (by decide), if_pos (by decide)]; rfl⟩

theorem succeeds_bin (row : Row F) {op : String} (ho : IsOp op) (es : List (Expr F)) :
    Succeeds row (.apply op es) ↔ es.length = 2 ∧ ∀ e ∈ es, Succeeds row e := by
  by_cases hl : es.length = 2
  · obtain ⟨a, b, rfl⟩ : ∃ a b, es = [a, b] := List.length_eq_two.mp hl
    obtain ⟨g, hg⟩ := handle_bin row ho a b
    unfold Succeeds
    rw [hg]
    constructor
    · rintro ⟨v, hv⟩
      obtain ⟨x, hx, hv⟩ := bind_ok_iff.mp hv
      obtain ⟨y, hy, hv⟩ := bind_ok_iff.mp hv
      exact ⟨rfl, by simp [hx, hy]⟩
    · rintro ⟨-, h⟩
      obtain ⟨x, hx⟩ := h a (by simp)
      obtain ⟨y, hy⟩ := h b (by simp)
      exact ⟨g x y, bind_ok_iff.mpr ⟨x, hx, bind_ok_iff.mpr ⟨y, hy, rfl⟩⟩⟩
  · unfold Succeeds
    rw [handle_bin_bad row ho es hl]
    simp [hl]

theorem handle_missing_bad (row : Row F) {op : String} (ho : op = "isMissing" ∨ op = "isNotMissing")
    (es : List (Expr F)) (h : es.length ≠ 1) :
    handleExpression row (.apply op es) = fail (.arity op es.length) := by
  unfold handleExpression
  rcases ho with rfl | rfl
  · rw [if_neg (by decide), if_neg (by decide), if_pos rfl]
    rcases es with _ | ⟨a, _ | ⟨b, es⟩⟩ <;> first | rfl | simp at h
  · rw [if_neg (by decide), if_neg (by decide), if_neg (by decide), if_pos rfl]
    rcases es with _ | ⟨a, _ | ⟨b, es⟩⟩ <;> first | rfl | simp at h

theorem succeeds_missing (row : Row F) {op : String} (ho : op = "isMissing" ∨ op = "isNotMissing")
    (es : List (Expr F)) :
    Succeeds row (.apply op es) ↔ ∃ e, es = [e] ∧ Succeeds row e := by
  by_cases hl : es.length = 1
  · obtain ⟨a, rfl⟩ := List.length_eq_one_iff.mp hl
    unfold Succeeds
    rcases C32_missing row a with ⟨f, h1, h2, h3⟩ | ⟨v, b, h1, h2, h3, -⟩
    · rcases ho with rfl | rfl <;> simp [h1, h2, h3]
    · rcases ho with rfl | rfl <;> simp [h1, h2, h3]
  · unfold Succeeds
    rw [handle_missing_bad row ho es hl]
    constructor
    · rintro ⟨v, hv⟩; cases hv
    · rintro ⟨e, rfl, -⟩; simp at hl

theorem handle_if_bad (row : Row F) (es : List (Expr F)) (h : es.length ≠ 3) :
    handleExpression row (.apply "if" es) = fail (.arity "if" es.length) := by
  unfold handleExpression
  rw [if_neg (by decide), if_neg (by decide), if_neg (by decide), if_neg (by decide), if_pos rfl]
  rcases es with _ | ⟨a, _ | ⟨b, _ | ⟨c, _ | ⟨d, es⟩⟩⟩⟩ <;> first | rfl | simp at h

theorem arity_none {f : String} (h : arity f = none) :
    f ≠ "sum" ∧ ¬ IsOp f ∧ f ≠ "isMissing" ∧ f ≠ "isNotMissing" ∧ f ≠ "if" := by
  refine ⟨?_, ?_, ?_, ?_, ?_⟩
  · rintro rfl; simp [arity] at h
  · rintro (rfl | rfl | rfl | rfl) <;> simp [arity] at h
  all_goals (rintro rfl; simp [arity] at h)

theorem arity_cases (f : String) : arity f = none ∨ (f = "sum" ∧ arity f = some none) ∨
    (IsOp f ∧ arity f = some (some 2)) ∨
    ((f = "isMissing" ∨ f = "isNotMissing") ∧ arity f = some (some 1)) ∨
    (f = "if" ∧ arity f = some (some 3)) := by
  unfold arity IsOp
  split <;> simp

theorem handle_unknown (row : Row F) {f : String} (h : arity f = none) (es : List (Expr F)) :
    handleExpression row (.apply f es) = fail (.unsupportedApply f) := by
  obtain ⟨h1, h2, h3, h4, h5⟩ := arity_none h
  unfold handleExpression
  rw [if_neg h1, if_neg (fun h => h2 (by rcases h with h | h | h | h <;> simp [IsOp, h])), if_neg h3,
    if_neg h4, if_neg h5]

theorem handle_no_panic (row : Row F) (e : Expr F) : ∀ p, handleExpression row e ≠ panic p := by
  induction e using Expr.ind with
  | h1 f => intro p; simp [handleExpression]
  | h2 dt v =>
    intro p
    cases dt <;> simp only [handleExpression, handleConstant] <;> first | split <;> simp | simp
  | h4 m => intro p; rw [handleExpression]; exact handleMapValues_no_panic m row
  | h5 k => intro p; simp [handleExpression]
  | h3 fn args ih =>
    intro p
    have hs : ∀ s, sumLoop row s args ≠ panic p := by
      clear * - ih
      induction args with
      | nil => intro s; simp [sumLoop]
      | cons e es ihs =>
        intro s
        have h1 := ih e (by simp) p
        have h2 := ihs (fun a ha => ih a (by simp [ha]))
        rw [sumLoop]
        cases he : handleExpression row e with
        | error f => rw [he] at h1; simpa [bind, Except.bind] using h1
        | ok v => simpa [bind, Except.bind] using h2 _
    have bindNe : ∀ {α β : Type} {x : Res α} {f : α → Res β}, x ≠ panic p → (∀ v, f v ≠ panic p) →
        x.bind f ≠ panic p := by
      intro α β x f hx hf
      cases x with
      | error e => simpa [Except.bind] using hx
      | ok v => exact hf v
    rcases arity_cases fn with ha | ⟨rfl, ha⟩ | ⟨ho, ha⟩ | ⟨ho, ha⟩ | ⟨rfl, ha⟩
    · rw [handle_unknown row ha]; simp
    · rw [handle_sum]; exact bindNe (hs _) (by simp)
    · by_cases hl : args.length = 2
      · obtain ⟨a, b, rfl⟩ := List.length_eq_two.mp hl
        obtain ⟨g, hg⟩ := handle_bin row ho a b
        rw [hg]
        exact bindNe (ih _ (by simp) p) (fun _ => bindNe (ih _ (by simp) p) (by simp))
      · rw [handle_bin_bad row ho _ hl]; simp
    · by_cases hl : args.length = 1
      · obtain ⟨a, rfl⟩ := List.length_eq_one_iff.mp hl
        rcases ho with rfl | rfl
        · rw [handle_isMissing]; exact bindNe (ih _ (by simp) p) (by simp)
        · rw [handle_isNotMissing]; exact bindNe (ih _ (by simp) p) (by simp)
      · rw [handle_missing_bad row ho _ hl]; simp
    · by_cases hl : args.length = 3
      · obtain ⟨c, a, b, rfl⟩ := List.length_eq_three.mp hl
        rw [handle_if]
        refine bindNe (ih _ (by simp) p) (fun v => ?_)
        split
        · exact ih _ (by simp) p
        · exact ih _ (by simp) p
      · rw [handle_if_bad row _ hl]; simp

/-- **C34**: HandleExpression never panics. -/
theorem C34_no_panic (row : Row F) (e : Expr F) :
    (∃ v, handleExpression row e = .ok v) ∨ (∃ err, handleExpression row e = fail err) := by
  cases h : handleExpression row e with
  | ok v => exact .inl ⟨v, rfl⟩
  | error f =>
    cases f with
    | err e => exact .inr ⟨e, rfl⟩
    | panic p => exact absurd h (handle_no_panic row e p)

theorem illFormed_fails (row : Row F) {e : Expr F} (h : IllFormed e) : ¬ Succeeds row e := by
  rintro ⟨v, hv⟩
  cases h with
  | unknown h => rw [handle_unknown row h] at hv; cases hv
  | @wrongArity f n es h hn =>
    rcases arity_cases f with h' | ⟨rfl, h'⟩ | ⟨ho, h'⟩ | ⟨ho, h'⟩ | ⟨rfl, h'⟩ <;> rw [h] at h'
    · cases h'
    · cases h'
    · injection h' with h'; injection h' with h'; subst h'
      rw [handle_bin_bad row ho es hn] at hv; cases hv
    · injection h' with h'; injection h' with h'; subst h'
      rw [handle_missing_bad row ho es hn] at hv; cases hv
    · injection h' with h'; injection h' with h'; subst h'
      rw [handle_if_bad row es hn] at hv; cases hv
  | @constType dt s h =>
    rw [handleExpression] at hv
    cases dt <;> first | exact h rfl | cases hv
  | constText h => simp [handleExpression, handleConstant, h] at hv
  | kind => simp [handleExpression] at hv

theorem not_succeeds_iff (row : Row F) (e : Expr F) :
    ¬ Succeeds row e ↔ ∃ err, handleExpression row e = fail err := by
  unfold Succeeds
  rcases C34_no_panic row e with ⟨v, h⟩ | ⟨err, h⟩ <;> rw [h] <;> simp

theorem reached_fails {row : Row F} {e sub : Expr F} (hr : Reached row e sub) (h : ¬ Succeeds row sub) :
    ¬ Succeeds row e := by
  induction hr with
  | self e => exact h
  | sum he _ ih => rw [succeeds_sum]; exact fun hs => ih h (hs _ he)
  | operand ho _ he _ ih => rw [succeeds_bin row ho]; exact fun hs => ih h (hs.2 _ he)
  | missing ho _ ih =>
    rw [succeeds_missing row ho]
    rintro ⟨e, he, hs⟩
    injection he with he; subst he
    exact ih h hs
  | cond _ ih =>
    rintro ⟨v, hv⟩
    rw [handle_if] at hv
    obtain ⟨w, hw, -⟩ := bind_ok_iff.mp hv
    exact ih h ⟨w, hw⟩
  | then_ hc _ ih =>
    rintro ⟨v, hv⟩
    rw [C31_if_true hc] at hv
    exact ih h ⟨v, hv⟩
  | else_ hc hn _ ih =>
    rintro ⟨v, hv⟩
    rw [C31_if_not_true hc hn] at hv
    exact ih h ⟨v, hv⟩

theorem fails_reached (row : Row F) (e : Expr F) : ¬ Succeeds row e →
    ∃ sub, Reached row e sub ∧ (IllFormed sub ∨ MapFails row sub) := by
  induction e using Expr.ind with
  | h1 f => intro h; exact absurd ⟨_, by rw [handleExpression]⟩ h
  | h2 dt v =>
    intro h
    refine ⟨_, .self _, .inl ?_⟩
    by_cases hd : dt = .double
    · subst hd
      cases hp : Lib.parseFloat (F := F) v with
      | none => exact .constText hp
      | some x => exact absurd ⟨.f64 x, by simp [handleExpression, handleConstant, hp]⟩ h
    · exact .constType hd
  | h4 m =>
    intro h
    obtain ⟨err, h⟩ := (not_succeeds_iff _ _).mp h
    exact ⟨_, .self _, .inr ⟨m, rfl, err, by rwa [handleExpression] at h⟩⟩
  | h5 k => intro _; exact ⟨_, .self _, .inl .kind⟩
  | h3 fn args ih =>
    intro h
    rcases arity_cases fn with ha | ⟨rfl, ha⟩ | ⟨ho, ha⟩ | ⟨ho, ha⟩ | ⟨rfl, ha⟩
    · exact ⟨_, .self _, .inl (.unknown ha)⟩
    · rw [succeeds_sum] at h
      push Not at h
      obtain ⟨e, he, hf⟩ := h
      obtain ⟨sub, hr, hb⟩ := ih e he hf
      exact ⟨sub, .sum he hr, hb⟩
    · by_cases hl : args.length = 2
      · rw [succeeds_bin row ho] at h
        push Not at h
        obtain ⟨e, he, hf⟩ := h hl
        obtain ⟨sub, hr, hb⟩ := ih e he hf
        exact ⟨sub, .operand ho hl he hr, hb⟩
      · exact ⟨_, .self _, .inl (.wrongArity ha hl)⟩
    · by_cases hl : args.length = 1
      · obtain ⟨a, rfl⟩ := List.length_eq_one_iff.mp hl
        rw [succeeds_missing row ho] at h
        push Not at h
        obtain ⟨sub, hr, hb⟩ := ih a (by simp) (h a rfl)
        exact ⟨sub, .missing ho hr, hb⟩
      · exact ⟨_, .self _, .inl (.wrongArity ha hl)⟩
    · by_cases hl : args.length = 3
      · obtain ⟨c, a, b, rfl⟩ := List.length_eq_three.mp hl
        by_cases hc : Succeeds row c
        · obtain ⟨v, hv⟩ := hc
          by_cases ht : v = .bool true
          · subst ht
            have : ¬ Succeeds row a := by unfold Succeeds at h ⊢; rwa [C31_if_true hv] at h
            obtain ⟨sub, hr, hb⟩ := ih a (by simp) this
            exact ⟨sub, .then_ hv hr, hb⟩
          · have : ¬ Succeeds row b := by unfold Succeeds at h ⊢; rwa [C31_if_not_true hv ht] at h
            obtain ⟨sub, hr, hb⟩ := ih b (by simp) this
            exact ⟨sub, .else_ hv ht hr, hb⟩
        · obtain ⟨sub, hr, hb⟩ := ih c (by simp) hc
          exact ⟨sub, .cond hr, hb⟩
      · exact ⟨_, .self _, .inl (.wrongArity ha hl)⟩

/-- **C34**: HandleExpression returns an error exactly when the evaluated path contains an
ill-formed expression or a MapValues without an answer. -/
theorem C34_errors (row : Row F) (e : Expr F) :
    (∃ err, handleExpression row e = fail err) ↔
      ∃ sub, Reached row e sub ∧ (IllFormed sub ∨ MapFails row sub) := by
  rw [← not_succeeds_iff]
  refine ⟨fails_reached row e, ?_⟩
  rintro ⟨sub, hr, hb⟩
  apply reached_fails hr
  rcases hb with hb | ⟨m, rfl, err, hm⟩
  · exact illFormed_fails row hb
  · rw [not_succeeds_iff]; exact ⟨err, by rwa [handleExpression]⟩

/-! ### Frame -/

omit [Arith F] [Lib F] in
theorem exprsFields_mem {es : List (Expr F)} {e : Expr F} (h : e ∈ es) {f : String} (hf : f ∈ exprFields e) :
    f ∈ exprFields.exprsFields es := by
  induction es with
  | nil => cases h
  | cons a es ih =>
    rw [exprFields.exprsFields, List.mem_append]
    rcases List.mem_cons.mp h with rfl | h
    · exact .inl hf
    · exact .inr (ih h)

omit [Arith F] [Lib F] in
theorem mapColumns_congr {row row' : Row F} (ps : List FieldColumnPair)
    (h : ∀ p ∈ ps, row.get p.field = row'.get p.field) : mapColumns ps row = mapColumns ps row' := by
  induction ps using List.reverseRecOn with
  | nil => rfl
  | append_singleton ps p ih =>
    rw [mapColumns_snoc, mapColumns_snoc, h p (by simp), ih (fun q hq => h q (by simp [hq]))]

theorem sumLoop_congr {row row' : Row F} (es : List (Expr F))
    (h : ∀ e ∈ es, handleExpression row e = handleExpression row' e) :
    ∀ s, sumLoop row s es = sumLoop row' s es := by
  induction es with
  | nil => intro s; simp [sumLoop]
  | cons e es ih =>
    intro s
    rw [sumLoop, sumLoop, h e (by simp)]
    congr 1
    funext v
    exact ih (fun a ha => h a (by simp [ha])) _

/-- **C35**: rows agreeing on the fields an expression mentions give it the same result. -/
theorem C35_expression_frame {row row' : Row F} (e : Expr F) :
    (∀ f ∈ exprFields e, row.get f = row'.get f) → handleExpression row e = handleExpression row' e := by
  induction e using Expr.ind with
  | h1 f => intro h; simp [handleExpression, Row.getD, h f (by simp [exprFields])]
  | h2 dt v => intro _; simp [handleExpression]
  | h4 m =>
    intro h
    have : mapColumns m.fieldColumnPairs row = mapColumns m.fieldColumnPairs row' :=
      mapColumns_congr _ (fun p hp => h _ (by simp only [exprFields, List.mem_map]; exact ⟨p, hp, rfl⟩))
    simp only [handleExpression, handleMapValues, this]
  | h5 k => intro _; simp [handleExpression]
  | h3 fn args ih =>
    intro h
    have hs : ∀ e ∈ args, handleExpression row e = handleExpression row' e :=
      fun e he => ih e he (fun f hf => h f (by rw [exprFields]; exact exprsFields_mem he hf))
    have hsum := sumLoop_congr args hs Arith.zero
    unfold handleExpression
    rw [hsum]
    rcases args with _ | ⟨a, _ | ⟨b, _ | ⟨c, _ | ⟨d, es⟩⟩⟩⟩
    · rfl
    · simp only [hs a (by simp)]
    · simp only [hs a (by simp), hs b (by simp)]
    · simp only [hs a (by simp), hs b (by simp), hs c (by simp)]
    · rfl

/-! ### Derived fields -/

omit [Arith F] [Lib F] in
theorem row_set_some (m : GoMap (GoVal F)) (k : String) (v : GoVal F) :
    Row.set (some m) k v = .ok (some (m.insert k v)) := rfl

theorem handleInput_append (pre post : List (DerivedField F)) (row : Row F) :
    handleInput (pre ++ post) row =
      (match handleInput pre row with
       | (.ok (), row') => handleInput post row'
       | (.error e, row') => (.error e, row')) := by
  induction pre generalizing row with
  | nil => simp [handleInput]
  | cons df pre ih =>
    simp only [List.cons_append, handleInput]
    cases handleExpression row df.expr with
    | error e => rfl
    | ok v =>
      simp only
      cases row.set df.name (storeValue df.opType v) with
      | error e => rfl
      | ok row' => exact ih row'

/-- **C29**: once the fields before it are done, a derived field is evaluated on the row they
produced, stored under its name (continuous ones as a float64), and the rest continues with the
updated row. -/
theorem C29_step {pre post : List (DerivedField F)} {df : DerivedField F} {row : Row F}
    {m : GoMap (GoVal F)} {v : GoVal F}
    (hp : handleInput pre row = (.ok (), some m)) (hv : handleExpression (some m) df.expr = .ok v) :
    handleInput (pre ++ df :: post) row =
      handleInput post (some (m.insert df.name
        (if df.opType = .continuous then .f64 v.float64 else v))) := by
  rw [handleInput_append, hp]
  simp only [handleInput, hv, row_set_some]
  cases df.opType <;> simp [storeValue]

/-- **C29**: the first expression that fails stops with its error; the fields before it stay
computed. -/
theorem C29_first_error {pre post : List (DerivedField F)} {df : DerivedField F} {row row' : Row F}
    {e : Fault} (hp : handleInput pre row = (.ok (), row'))
    (hv : handleExpression row' df.expr = .error e) :
    handleInput (pre ++ df :: post) row = (.error e, row') := by
  rw [handleInput_append, hp]
  simp [handleInput, hv]

/-- **C29**: on a row that is not nil, HandleInput succeeds or fails with the error of an
expression, and the row stays a map. -/
theorem C29_errors (dfs : List (DerivedField F)) (m : GoMap (GoVal F)) :
    ∃ m', (handleInput dfs (some m) = (.ok (), some m')) ∨
      ∃ pre df post err, dfs = pre ++ df :: post ∧ handleInput pre (some m) = (.ok (), some m') ∧
        handleExpression (some m') df.expr = fail err ∧
        handleInput dfs (some m) = (fail err, some m') := by
  induction dfs using List.reverseRecOn with
  | nil => exact ⟨m, .inl rfl⟩
  | append_singleton dfs df ih =>
    obtain ⟨m', h | ⟨pre, d, post, err, rfl, h1, h2, h3⟩⟩ := ih
    · rcases C34_no_panic (some m') df.expr with ⟨v, hv⟩ | ⟨err, hv⟩
      · exact ⟨_, .inl (by rw [C29_step h hv]; rfl)⟩
      · exact ⟨m', .inr ⟨dfs, df, [], err, rfl, h, hv, C29_first_error h hv⟩⟩
    · refine ⟨m', .inr ⟨pre, d, post ++ [df], err, by simp, h1, h2, ?_⟩⟩
      rw [List.append_assoc, List.cons_append]
      exact C29_first_error h1 h2

/-- **C29** (finding): with a nil row the first derived field panics. -/
theorem C29_nil_row_panics {df : DerivedField F} {dfs : List (DerivedField F)} {v : GoVal F}
    (h : handleExpression none df.expr = .ok v) :
    handleInput (df :: dfs) none = (panic .nilMapWrite, none) := by
  simp [handleInput, h, Row.set]

/-- Fields other than the derived ones are not touched. -/
theorem C29_frame (dfs : List (DerivedField F)) (row : Row F) {k : String}
    (hk : ∀ df ∈ dfs, df.name ≠ k) : (handleInput dfs row).2.get k = row.get k := by
  induction dfs generalizing row with
  | nil => rfl
  | cons df dfs ih =>
    simp only [handleInput]
    cases handleExpression row df.expr with
    | error e => rfl
    | ok v =>
      cases row with
      | none => rfl
      | some m =>
        simp only [row_set_some]
        rw [ih _ (fun d hd => hk d (by simp [hd]))]
        have := hk df (by simp)
        simp [Row.get, GoMap.getElem?_insert, this]

/-! ### Examples -/

section Examples
open Gopmml.Replay (num mk)

/-- x = 3 (a float64), n = 5 (an int), s = "2.5" -/
def exNums : Row F64 := some (mk
  [("x", .f64 (num "3")), ("n", .int .int 5), ("s", .str "2.5"), ("c", .str "red"), ("b", .bool true)])

/-- (x + s) * (n - 1) / sum(x, absent, n) -/
def exArith : Expr F64 :=
  .apply "/" [.apply "*" [.apply "+" [.fieldRef "x", .fieldRef "s"],
      .apply "-" [.fieldRef "n", .const .double "1"]],
    .apply "sum" [.fieldRef "x", .fieldRef "absent", .fieldRef "n"]]

-- C30: an arithmetic expression with every operation, and its value 22 / 8.
example : IsArith exArith :=
  .bin (by simp) (.bin (by simp) (.bin (by simp) (.field _) (.field _))
      (.bin (by simp) (.field _) (.const (x := num "1") (by decide +kernel))))
    (.sum (.cons (.field _) (.cons (.field _) (.cons (.field _) .nil))))
example : handleExpression exNums exArith = .ok (.f64 (num "2.75")) := by decide +kernel

-- C31: a taken branch next to a failing one; a condition that is not a boolean; a failing one.
example :
    handleExpression exNums (.apply "if" [.fieldRef "b", .fieldRef "x", .other "Aggregate"]) =
      .ok (.f64 (num "3")) ∧
    handleExpression exNums (.apply "if" [.fieldRef "n", .other "Aggregate", .fieldRef "x"]) =
      .ok (.f64 (num "3")) ∧
    handleExpression exNums (.apply "if" [.other "Aggregate", .fieldRef "x", .fieldRef "x"]) =
      fail .unsupportedTransformation := by decide +kernel

-- C32: both outcomes and an error.
example :
    handleExpression exNums (.apply "isMissing" [.fieldRef "x"]) = .ok (.bool false) ∧
    handleExpression exNums (.apply "isMissing" [.fieldRef "absent"]) = .ok (.bool true) ∧
    handleExpression exNums (.apply "isNotMissing" [.other "k"]) = fail .unsupportedTransformation := by
  decide +kernel

/-- Two tables; "red" occurs twice. -/
def exMap : MapValues F64 where
  defaultValue := none
  dataType := .string
  fieldColumnPairs := [⟨"data:input", "c"⟩]
  inlineTables :=
    [[mk [("input", .str "red"), ("output", .str "1")],
      mk [("input", .str "blue"), ("output", .str "2")]],
     [mk [("input", .str "red"), ("output", .str "3")]]]

-- C33: the hypothesis holds, the last matching row wins, an unmatched input is returned, a
-- declared default replaces it.
example : (∀ p ∈ exMap.fieldColumnPairs, p.column = "data:output" → exNums.get p.field = none) ∧
    handleExpression exNums (.mapValues exMap) = .ok (.str "3") ∧
    handleExpression (some (mk [("c", .str "green")])) (.mapValues exMap) =
      .ok (.str "green") ∧
    handleExpression none (.mapValues exMap) = fail .unexpectedExpression ∧
    handleExpression (some (mk [("c", .str "green")]))
      (.mapValues { exMap with defaultValue := some "9", dataType := .integer }) =
      .ok (.int .int64 9) := by decide +kernel

/-- **C33** (finding): an absent input is looked up as the text `<nil>`, so a row for that text
answers for it. -/
theorem C33_absent_is_nil_text :
    handleExpression none (.mapValues { exMap with
      inlineTables := [[mk [("input", .str "<nil>"), ("output", .str "1")]]] }) =
      .ok (.str "1") := by decide +kernel

/-- **C33** (finding): other column names than `data:input` / `data:output` are not looked at. -/
theorem C33_column_names_are_fixed :
    handleExpression exNums (.mapValues { exMap with fieldColumnPairs := [⟨"color", "c"⟩] }) =
      fail .unexpectedExpression := by decide +kernel

-- C34: an unknown function in the branch taken, and in the one not taken.
example :
    Reached exNums (.apply "if" [.fieldRef "b", .apply "round" [.fieldRef "x"], .fieldRef "x"])
      (.apply "round" [.fieldRef "x"]) ∧ IllFormed (.apply "round" [.fieldRef (F := F64) "x"]) :=
  ⟨.then_ (by decide +kernel) (.self _), .unknown (by decide)⟩
example :
    handleExpression exNums (.apply "if" [.fieldRef "b", .apply "round" [.fieldRef "x"], .fieldRef "x"]) =
      fail (.unsupportedApply "round") ∧
    handleExpression exNums (.apply "if" [.fieldRef "b", .fieldRef "x", .apply "round" [.fieldRef "x"]]) =
      .ok (.f64 (num "3")) := by decide +kernel

-- C35: rows that differ only outside the mentioned fields.
example : exprFields exArith = ["x", "s", "n", "x", "absent", "n"] ∧
    (∀ f ∈ exprFields exArith, exNums.get f =
      Row.get (F := F64) (some (mk
        [("x", .f64 (num "3")), ("n", .int .int 5), ("s", .str "2.5"), ("c", .str "blue")])) f) := by
  decide +kernel

/-- y = x + n; z = y * 2, stored as given; w refers to z. -/
def exDerived : List (DerivedField F64) :=
  [⟨"y", .double, .continuous, .apply "+" [.fieldRef "x", .fieldRef "n"]⟩,
   ⟨"z", .double, .other "categorical", .apply "*" [.fieldRef "y", .const .double "2"]⟩,
   ⟨"s", .double, .continuous, .fieldRef "s"⟩,
   ⟨"t", .string, .other "categorical", .fieldRef "s"⟩]

-- C29: later fields see earlier ones; a continuous field is stored as a number, also over an
-- input field.
example :
    (handleInput exDerived exNums).1 = .ok () ∧
    (handleInput exDerived exNums).2.get "z" = some (.f64 (num "16")) ∧
    (handleInput exDerived exNums).2.get "t" = some (.f64 (num "2.5")) ∧
    exNums.get "s" = some (.str "2.5") := by decide +kernel
-- C29: an error in the middle.
example :
    (handleInput (exDerived.take 1 ++ ⟨"e", .double, .continuous, .other "k"⟩ :: exDerived.drop 1) exNums).1 =
      fail .unsupportedTransformation ∧
    (handleInput (exDerived.take 1 ++ ⟨"e", .double, .continuous, .other "k"⟩ :: exDerived.drop 1) exNums).2.get "y" =
      some (.f64 (num "8")) := by decide +kernel
-- C29: the nil row.
example : handleInput exDerived none = (panic .nilMapWrite, none) :=
  C29_nil_row_panics (v := .f64 (num "0")) (by decide +kernel)

end Examples

end Gopmml.Props
