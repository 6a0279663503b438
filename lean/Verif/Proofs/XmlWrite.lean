import Verif.Proofs.XmlText

/-!
# Writing an element
-/

namespace Gopmml.XmlText

open Gopmml Spec Spec.Markup

section Escape

theorem escape_spells {no : List Char} (hn : ∀ d ∈ no, d ∈ ['"', '<', '&']) (c : Char) {raw val : List Char}
    (h : Spells no false raw val) : Spells no false (escape c ++ raw) (c :: val) := by
  unfold escape
  split_ifs with h1 h2 h3 h4 h5
  · subst h1; exact .ref rfl .lt h
  · subst h2; exact .ref rfl .gt h
  · subst h3; exact .ref rfl .amp h
  · subst h4; exact .ref rfl .quot h
  · subst h5
    have : Ref "&#13;".toList '\r' :=
      Ref.dec (ds := "13".toList) (by decide) (by decide) (by decide)
    exact .ref rfl this h
  · refine .char (fun hc => ?_) h5 h
    have := hn c hc
    simp [h4, h1, h3] at this

theorem escaped_spells {no : List Char} (hn : ∀ d ∈ no, d ∈ ['"', '<', '&']) (v : String) :
    Spells no false (escaped v) v.toList := by
  unfold escaped
  generalize v.toList = v
  induction v with
  | nil => exact .nil
  | cons c v ih => exact escape_spells hn c ih

theorem escape_ne (c d : Char) (h : d ∈ escape c) : d ≠ '<' ∧ d ≠ '>' := by
  unfold escape at h
  split_ifs at h with h1 h2 h3 h4 h5
  all_goals first
    | (simp at h; rcases h with h | h | h | h | h | h <;> subst h <;> decide)
    | (simp at h; rcases h with h | h | h | h | h <;> subst h <;> decide)
    | (simp at h; rcases h with h | h | h | h <;> subst h <;> decide)
    | (simp at h; subst h; exact ⟨h1, h2⟩)

theorem escape_nonempty (c : Char) : escape c ≠ [] := by
  unfold escape
  split_ifs <;> simp

theorem escaped_ne {v : String} {d : Char} (h : d ∈ escaped v) : d ≠ '<' ∧ d ≠ '>' := by
  obtain ⟨c, -, hc⟩ := List.mem_flatMap.1 h
  exact escape_ne c d hc

theorem escaped_nil : escaped "" = [] := rfl

theorem escaped_nonempty {v : String} (h : v ≠ "") : escaped v ≠ [] := by
  unfold escaped
  have : v.toList ≠ [] := by
    intro e
    exact h (String.toList_inj.1 (e.trans rfl))
  cases hv : v.toList with
  | nil => exact absurd hv this
  | cons c cs =>
    intro e
    simp only [List.flatMap_cons, List.append_eq_nil_iff] at e
    exact escape_nonempty c e.1

theorem text_write {v : String} (h : v ≠ "") (hl : ∀ c ∈ v.toList, Legal c) :
    TextRun (escaped v) v.toList := by
  refine ⟨escaped_nonempty h, escaped_spells (by decide) v, hl, fun hi => ?_⟩
  have : '>' ∈ escaped v := hi.subset (by decide)
  exact (escaped_ne this).2 rfl

theorem quoted_write {v : String} (hl : ∀ c ∈ v.toList, Legal c) :
    Quoted ('"' :: escaped v ++ ['"']) v.toList :=
  ⟨'"', escaped v, .inl rfl, rfl, escaped_spells (by decide) v, hl⟩

end Escape

section
variable [NameTables]

theorem plain_qual {n : List Char} (h : PlainName n) : QualName n :=
  ⟨h.1, by rw [List.count_eq_zero.2 h.2]; omega⟩

theorem plain_local {n : List Char} (h : PlainName n) : LocalPart n n := by
  refine .plain fun p l e _ => ?_
  exact absurd (by rw [e]; simp) h.2

theorem attrs_write (as : Attrs) (h : ∀ a ∈ as, PlainName a.1.toList ∧ ∀ c ∈ a.2.toList, Legal c) :
    Attributes (writeAttrs as) as := by
  induction as with
  | nil => exact .nil
  | cons a as ih =>
    obtain ⟨h1, h2⟩ := h a (.head _)
    have := Attributes.cons (b := [' ']) (b₁ := []) (b₂ := []) (by simp [Blank]) (plain_qual h1) (plain_local h1)
      (by simp [Blank]) (by simp [Blank]) (quoted_write h2) (ih fun b hb => h b (.tail _ hb))
    simpa [writeAttrs] using this

theorem tag_write {n : String} {as : Attrs} (hn : PlainName n.toList)
    (h : ∀ a ∈ as, PlainName a.1.toList ∧ ∀ c ∈ a.2.toList, Legal c) :
    Tag ('<' :: n.toList ++ writeAttrs as) n.toList as := by
  refine ⟨writeAttrs as, [], by simp, plain_qual hn, attrs_write as h, by simp [Blank], ?_⟩
  cases as with
  | nil => simp [Apart, writeAttrs]
  | cons a as =>
    simp only [Apart, writeAttrs, List.flatMap_cons, List.cons_append, List.head?_cons]
    intro c hc
    cases hc
    refine ⟨by decide, ?_, ?_, by decide⟩ <;> simp only [Letter, Digit] <;> decide

theorem elem_write {n : String} {as : Attrs} {c : List Char} {ys : List Xml} (hn : PlainName n.toList)
    (h : ∀ a ∈ as, PlainName a.1.toList ∧ ∀ c ∈ a.2.toList, Legal c) (hc : Content c ys)
    {s : List Char} {zs : List Xml} (hs : Content s zs) :
    Content ('<' :: n.toList ++ writeAttrs as ++ '>' :: c ++ "</".toList ++ n.toList ++ ['>'] ++ s)
      (.elem n as ys :: zs) := by
  have := Content.pair (b := []) (tag_write hn h) (plain_local hn) (by simp [Blank]) hc hs
  rw [String.ofList_toList] at this
  simpa using this

omit [NameTables] in
theorem same_self {as : Attrs} (h : (as.map (·.1)).Nodup) : SameAttrs as as := ⟨h, h, fun _ _ _ => Iff.rfl⟩

mutual
/-- A written element is read as one with the same content. -/
theorem write_elem : ∀ (row : Bool) (n : String) (as : Attrs) (ch : List Xml), Writable row (.elem n as ch) →
    ∃ ch', (∀ s zs, Content s zs → Content (write (.elem n as ch) ++ s) (.elem n as ch' :: zs)) ∧
      (∀ xs ys, Relay row xs ys → Relay row (.elem n as ch :: xs) (.elem n as ch' :: ys)) ∧
      (verbatim n = false → Relay (n == "row") ch ch')
  | row, n, as, ch, h => by
    rw [Writable] at h
    obtain ⟨h1, h2, h3, h4⟩ := h
    by_cases hc : n = "Constant"
    · rw [if_pos hc] at h4
      subst hc
      have key : ∃ ch', Content (Xml.sources ch).toList ch' ∧ Xml.sources ch = Xml.sources ch' ∧
          Relay false ch ch' ∧ (row = true → Xml.chardata ch = Xml.chardata ch') := by
        rcases h4 with rfl | ⟨raw, v, rfl, ⟨rfl, hv⟩ | ⟨val, h5, h6⟩⟩
        · exact ⟨[], .nil, rfl, .nil, fun _ => rfl⟩
        · exact ⟨[], .nil, rfl, .left .nil, fun hr => by simp [Xml.chardata, hv hr]⟩
        · refine ⟨[.text raw (String.ofList val)], ?_, rfl, .left (.right .nil), fun hr => by
            simp [Xml.chardata, h6 hr]⟩
          have := Content.text h5 (by simp) Content.nil
          rw [String.ofList_toList] at this
          simpa [Xml.sources, Xml.source] using this
      obtain ⟨ch', k1, k2, k3, k4⟩ := key
      refine ⟨ch', fun s zs hs => ?_, fun xs ys hr => .inside (.inr ⟨rfl, k2⟩) (same_self h2) k3 k4 hr,
        fun hv => absurd hv (by decide)⟩
      rw [write, if_pos rfl]
      exact elem_write h1 h3 k1 hs
    · rw [if_neg hc] at h4
      by_cases hv : verbatim n = true
      · rw [if_pos hv] at h4
        subst h4
        refine ⟨[], fun s zs hs => ?_, fun xs ys hr => .same hr, fun hf => by rw [hv] at hf; cases hf⟩
        rw [write, if_neg hc]
        exact elem_write h1 h3 .nil hs
      · rw [if_neg hv] at h4
        obtain ⟨ch', k1, k2, k3, -⟩ := writes_all (n == "row") ch h4
        refine ⟨ch', fun s zs hs => ?_, fun xs ys hr =>
          .inside (.inl (by simpa using hv)) (same_self h2) k2 (fun _ => k3) hr, fun _ => k2⟩
        rw [write, if_neg hc]
        exact elem_write h1 h3 k1 hs

theorem writes_all : ∀ (row : Bool) (xs : List Xml), WritableAll row xs →
    ∃ ys, Content (writes xs) ys ∧ Relay row xs ys ∧ Xml.chardata xs = Xml.chardata ys ∧
      ((∀ x ∈ xs.head?, Xml.isText x = false) → ∀ a ∈ (writes xs).head?, a = '<')
  | row, [], _ => ⟨[], .nil, .nil, rfl, fun _ => by simp [writes]⟩
  | row, .text raw v :: xs, h => by
    rw [WritableAll] at h
    obtain ⟨h1, h2, h3⟩ := h
    rw [Writable] at h1
    obtain ⟨ys, k1, k2, k3, k4⟩ := writes_all row xs h3
    by_cases hv : v = ""
    · subst hv
      refine ⟨ys, by simpa [writes, write, escaped_nil] using k1, .left k2, by simpa [Xml.chardata] using k3,
        fun hx => by have := hx _ rfl; cases this⟩
    · refine ⟨.text (String.ofList (escaped v)) v :: ys, ?_, .left (.right k2), by simp [Xml.chardata, k3],
        fun hx => by have := hx _ rfl; cases this⟩
      have := Content.text (text_write hv h1) (k4 (h2 rfl)) k1
      rw [String.ofList_toList] at this
      simpa [writes, write] using this
  | row, .elem n as ch :: xs, h => by
    rw [WritableAll] at h
    obtain ⟨h1, -, h3⟩ := h
    obtain ⟨ys, k1, k2, k3, -⟩ := writes_all row xs h3
    obtain ⟨ch', e1, e2, -⟩ := write_elem row n as ch h1
    exact ⟨.elem n as ch' :: ys, e1 _ _ k1, e2 _ _ k2, by simpa [Xml.chardata] using k3,
      fun _ => by simp [writes, write]⟩
end

/-! ### Deciding that a tree can be written -/

def plainName (n : List Char) : Bool := isName n && !n.contains ':'

omit [NameTables] in
/-- Text that is written as it is. -/
theorem plain_run {v : List Char} (hv : v ≠ []) (h : ∀ c ∈ v, Legal c ∧ c ∉ ['<', '&', '>', '\r']) : TextRun v v := by
  have key : ∀ w : List Char, (∀ c ∈ w, Legal c ∧ c ∉ ['<', '&', '>', '\r']) → Spells ['<', '&'] false w w := by
    intro w hw
    induction w with
    | nil => exact .nil
    | cons c w ih =>
      have hc := (hw c (.head _)).2
      simp only [List.mem_cons, List.not_mem_nil, or_false, not_or] at hc
      exact .char (by simp [hc.1, hc.2.1]) hc.2.2.2 (ih fun d hd => hw d (.tail _ hd))
  refine ⟨hv, key v h, fun c hc => (h c hc).1, fun hi => ?_⟩
  have : '>' ∈ v := hi.subset (by decide)
  exact (h _ this).2 (by decide)

def constantText : List Xml → Bool
  | [] => true
  | [.text raw v] => raw = v && v.toList.all (fun c => inRange c && !['<', '&', '>', '\r'].contains c)
  | _ => false

mutual
/-- A sufficient condition. -/
def checkWritable : Xml → Bool
  | .text _ v => v.toList.all inRange
  | .elem n as ch =>
    plainName n.toList && decide ((as.map (·.1)).Nodup) &&
    as.all (fun a => plainName a.1.toList && a.2.toList.all inRange) &&
    (if n = "Constant" then constantText ch
    else if verbatim n then ch.isEmpty
    else checkAll ch)
def checkAll : List Xml → Bool
  | [] => true
  | x :: xs => checkWritable x && (!Xml.isText x || xs.head?.all fun y => !Xml.isText y) && checkAll xs
end

theorem plainName_sound {n : List Char} (h : plainName n = true) : PlainName n := by
  cases n with
  | nil => cases h
  | cons c cs =>
    simp only [plainName, isName, Bool.and_eq_true, List.all_eq_true, Bool.not_eq_true',
      List.contains_eq_mem, decide_eq_false_iff_not] at h
    exact ⟨⟨c, cs, rfl, isFirst_iff.1 h.1.1, fun d hd => isPart_iff.1 (h.1.2 d hd)⟩, h.2⟩

mutual
theorem checkWritable_sound : ∀ (row : Bool) (x : Xml), checkWritable x = true → Writable row x
  | row, .text raw v, h => by
    rw [Writable]
    rw [checkWritable] at h
    exact all_inRange.1 h
  | row, .elem n as ch, h => by
    rw [Writable]
    rw [checkWritable] at h
    simp only [Bool.and_eq_true, decide_eq_true_eq] at h
    obtain ⟨⟨⟨h1, h2⟩, h3⟩, h4⟩ := h
    refine ⟨plainName_sound h1, h2, fun a ha => ?_, ?_⟩
    · have := List.all_eq_true.1 h3 a ha
      rw [Bool.and_eq_true] at this
      exact ⟨plainName_sound this.1, all_inRange.1 this.2⟩
    · by_cases hc : n = "Constant"
      · rw [if_pos hc] at h4 ⊢
        match ch, h4 with
        | [], _ => exact .inl rfl
        | [.text raw v], h4 =>
          simp only [constantText, Bool.and_eq_true, decide_eq_true_eq] at h4
          obtain ⟨rfl, h5⟩ := h4
          refine .inr ⟨raw, raw, rfl, ?_⟩
          by_cases hv : raw = ""
          · exact .inl ⟨hv, fun _ => hv⟩
          · refine .inr ⟨raw.toList, plain_run (fun e => hv (String.toList_inj.1 (e.trans rfl))) (fun c hc => ?_),
              fun _ => (String.ofList_toList).symm⟩
            have := List.all_eq_true.1 h5 c hc
            rw [Bool.and_eq_true] at this
            exact ⟨inRange_iff.1 this.1, by simpa using this.2⟩
      · rw [if_neg hc] at h4 ⊢
        by_cases hv : verbatim n = true
        · rw [if_pos hv] at h4 ⊢
          exact List.isEmpty_iff.1 h4
        · rw [if_neg hv] at h4 ⊢
          exact checkAll_sound _ ch h4
theorem checkAll_sound : ∀ (row : Bool) (xs : List Xml), checkAll xs = true → WritableAll row xs
  | row, [], _ => by rw [WritableAll]; trivial
  | row, x :: xs, h => by
    rw [WritableAll]
    rw [checkAll] at h
    simp only [Bool.and_eq_true] at h
    refine ⟨checkWritable_sound row x h.1.1, fun hx y hy => ?_, checkAll_sound row xs h.2⟩
    have := h.1.2
    rw [hx] at this
    cases xs with
    | nil => cases hy
    | cons z zs =>
      cases hy
      simpa using this
end

end

end Gopmml.XmlText
