import Verif.Proofs.XmlWrite
import Verif.Props.Main
import Verif.Model.Samples

/-!
# C103: the text of a file

The reader of texts (`encoding/xml`'s `Decoder.Token`, as far as `Decode` uses it) reads exactly the
texts of the grammar in `Verif/Spec/XmlText.lean`, and `main`'s answers on a text are those on the
element it stands for.
-/

namespace Gopmml.Props

open Gopmml Spec Spec.Markup XmlText

section
variable [NameTables]

/-- C103: a text is read as an element just if it stands for that element. -/
theorem C103_reads_exactly (s : List Char) (x : Xml) : readXml s = some x ↔ Document s x :=
  readXml_iff

/-- C103 (unambiguous): a text stands for at most one element. -/
theorem C103_unambiguous {s : List Char} {x y : Xml} (hx : Document s x) (hy : Document s y) : x = y :=
  Option.some.inj ((readXml_iff.2 hx).symm.trans (readXml_iff.2 hy))

/-- C103 (the rest): what follows the first element is not read. -/
theorem C103_rest_unread {s : List Char} {x : Xml} (h : Document s x) (rest : List Char) :
    Document (s ++ rest) x := by
  obtain ⟨p, e, r, pre, n, as, ch, rfl, h1, h2, h3, h4⟩ := h
  exact ⟨p, e, r ++ rest, pre, n, as, ch, by simp, h1, h2, h3, h4⟩

theorem content_append {c d : List Char} {xs ys : List Xml} (hc : Content c xs) (hd : Content d ys)
    (h : ∀ a ∈ d.head?, a = '<') : Content (c ++ d) (xs ++ ys) := by
  induction hc with
  | nil => exact hd
  | @text raw val s xs h1 h2 _ ih =>
    rw [List.append_assoc]
    refine .text h1 ?_ ih
    cases s with
    | nil => exact h
    | cons a s => simpa using h2
  | cdata h1 _ ih => rw [List.append_assoc]; exact .cdata h1 ih
  | skipped h1 _ ih => rw [List.append_assoc]; exact .skipped h1 ih
  | @empty t n l s as xs h1 h2 _ ih =>
    rw [List.append_assoc]
    exact .empty h1 h2 ih
  | @pair t n l b c s as ys xs h1 h2 h3 h4 _ _ ih =>
    have hs : t ++ '>' :: c ++ "</".toList ++ n ++ b ++ '>' :: s ++ d =
        t ++ '>' :: c ++ "</".toList ++ n ++ b ++ '>' :: (s ++ d) := by simp
    rw [hs]
    exact .pair h1 h2 h3 h4 ih

/-- C103 (before the first element): a declaration, comments, a document type, other instructions
and even text may precede the first element, without effect. -/
theorem C103_prolog {p s : List Char} {pre : List Xml} {x : Xml} (hp : Content p pre)
    (ht : ∀ y ∈ pre, ∃ r v, y = .text r v) (hs : s.head? = some '<') (h : Document s x) :
    Document (p ++ s) x := by
  obtain ⟨q, e, r, pre', n, as, ch, rfl, h1, h2, h3, h4⟩ := h
  refine ⟨p ++ q, e, r, pre ++ pre', n, as, ch, by simp, content_append hp h1 ?_, ?_, h3, h4⟩
  · intro a ha
    cases q with
    | nil => cases ha
    | cons b q =>
      simp at hs ha
      rw [← ha, hs]
  · intro y hy
    rcases List.mem_append.1 hy with hy | hy
    · exact ht y hy
    · exact h2 y hy

end

section
variable {F : Type} [Arith F] [Lib F] [Trans F] [NameTables] [Reflect]

/-- C103 (answers): on a text `main` does what it does on the element the text stands for. -/
theorem C103_run {s : String} {n : String} {as : Attrs} {ch : List Xml}
    (h : Document s.toList (.elem n as ch)) (calls : List (MapOrd × Row F)) :
    runText s calls = runFile as ch calls := by
  unfold runText
  rw [readXml_iff.2 h]

/-- C103 (malformed): a text that stands for no element is rejected, whatever the rows. -/
theorem C103_malformed {s : String} (h : ∀ x, ¬ Document s.toList x) (calls : List (MapOrd × Row F)) :
    runText (F := F) s calls = .error (.decode (.syntax s)) := by
  unfold runText
  cases hr : readXml s.toList with
  | none => rfl
  | some x => exact absurd (readXml_iff.1 hr) (h x)

/-- C103 (every way of writing): any text that stands for the document, in any layout and spelling,
gives its answers. -/
theorem C103_any_text {s : String} {n : String} {as as' : Attrs} {ch ch' : List Xml} {p : Pmml F}
    (h : Document s.toList (.elem n as' ch')) (ha : SameAttrs as as') (hr : Relay false ch ch')
    (hp : decodePmml as ch = .ok p) (calls : List (MapOrd × Row F)) :
    runText s calls = runFile as ch calls := by
  rw [C103_run h]
  unfold runFile loadFile
  rw [hp, (C62_layout ha hr p).1 hp]

omit F [Arith F] [Lib F] [Trans F] [Reflect] in
/-- C103 (written): a tree of legal names and characters has a text, which is read as the same tree up
to layout. -/
theorem C103_written {n : String} {as : Attrs} {ch : List Xml} (h : Writable false (.elem n as ch))
    (hn : verbatim n = false) :
    ∃ ch', Document (Markup.write (.elem n as ch)) (.elem n as ch') ∧ SameAttrs as as ∧
      Relay (n == "row") ch ch' := by
  obtain ⟨ch', h1, -, h3⟩ := write_elem false n as ch h
  have hd := h1 [] [] .nil
  rw [List.append_nil] at hd
  rw [Writable] at h
  exact ⟨ch', ⟨[], _, [], [], n, as, ch', by simp, .nil, by simp, hd, rfl⟩, same_self h.2.1, h3 hn⟩

variable {fmt : F → String}

/-- C103 (every document): a document is written as a text on which `main` gives the document's
answers. -/
theorem C103_every_document (hr : OthersDecode) {p : Pmml F} (hp : OkPmml fmt p)
    (hw : Writable false (.elem "PMML" (pmmlXml fmt p).1 (pmmlXml fmt p).2)) {e : ModelElem F}
    {es : List (ModelElem F)} (he : p.models = e :: es) {m : EModel F} {td' : TD F}
    (hm : newModel p.dataDictionary e p.transformations = (.ok m, td')) :
    ∃ s : String, ∀ (calls : List (MapOrd × Row F)) outs, runText s calls = .ok outs ↔
      List.Forall₂ (fun c out => (EModel.evaluate c.1 m c.2).res = .ok out) calls outs := by
  obtain ⟨ch', h1, h2, h3⟩ := C103_written hw (by decide)
  refine ⟨String.ofList (Markup.write (.elem "PMML" (pmmlXml fmt p).1 (pmmlXml fmt p).2)), fun calls outs => ?_⟩
  rw [C103_any_text (by simpa using h1) h2 h3 (C58_roundtrip hr p hp)]
  exact (C69_answers hr hp he hm calls).1 outs

end

/-! ## Texts -/

namespace TextExample
open Samples Replay MainExample

/-- Letters beyond ASCII: none. -/
local instance : NameTables := ⟨fun _ => false, fun _ => false⟩
local instance : Reflect := ⟨fun _ _ _ => true⟩

/-- A text with a declaration, a document type, comments, both quotes, references, a CDATA section, a
prefix, and words behind the element. -/
def sampleText : String :=
"<?xml version='1.0'?><!DOCTYPE a [<!-- > -->]><!-- a -->
<p:a><DataDictionary><DataField name=\"x\" dataType='double'/></DataDictionary>
<TreeModel functionName=\"regression\" ><Node score=\"a &lt; b\"><True/>
<Node score = '7'><SimplePredicate field=\"&#x78;\" operator=\"lessThan\" value=\"3\"/></Node >
</Node><![CDATA[<b>]]></TreeModel></p:a> and </so> on"

/-- It is read, and gives answers. -/
example : runText sampleText [call "1", call "2"] =
      .ok [some (mk [("score", .f64 (num "7"))]), some (mk [("score", .f64 (num "7"))])] ∧
    runText sampleText [call "1", call "5", call "2"] = .error (.evaluate (.err (.parse "a < b"))) := by
  decide +kernel

/-- Texts that stand for no element: tags that do not match, an unknown entity, `<` in a value, two dashes in
a comment, an unquoted value, `]]>` in a text, an illegal character, another encoding. -/
example : ∀ s ∈ ["<a></b>", "<a>&nbsp;</a>", "<a b='<'/>", "<!-- -- --><a/>", "<a b=1/>", "<a>]]></a>",
    "<a>&#0;</a>", "<?xml version='1.0' encoding='latin1'?><a/>", "<a>", "</a>", "words", "", "<p:a></a>"],
    ∀ x, ¬ Document s.toList x := by
  have h : ∀ s ∈ ["<a></b>", "<a>&nbsp;</a>", "<a b='<'/>", "<!-- -- --><a/>", "<a b=1/>", "<a>]]></a>",
      "<a>&#0;</a>", "<?xml version='1.0' encoding='latin1'?><a/>", "<a>", "</a>", "words", "", "<p:a></a>"],
      (readXml s.toList).isNone = true := by decide +kernel
  intro s hs x hx
  have := h s hs
  rw [(C103_reads_exactly _ _).2 hx] at this
  cases this

/-- The hypotheses of `C103_every_document`. -/
example : OthersDecode ∧ OkPmml MainExample.write sample ∧
    Writable false (.elem "PMML" (pmmlXml MainExample.write sample).1 (pmmlXml MainExample.write sample).2) := by
  refine ⟨fun _ _ _ => rfl, ?_, ?_⟩
  · simp [sample, OkPmml, OkModels, OkModel, OkTree, Samples.dd, OkMiningField, OkDataType, OkMiningFunction, OkUsage,
      OkMissing, OkNoTrue, OkSimpleOp, OkNode, OkNodes, OkPred, printable, regTree, active, sp]
  · exact checkWritable_sound _ _ (by decide +kernel)

end TextExample

end Gopmml.Props
