import Verif.Model.XmlText
import Verif.Spec.Layout

/-!
# The texts that stand for an element

A grammar of XML documents, following the XML 1.0 recommendation where Go's library does: names,
references, quoted values, character data, CDATA sections, comments, processing instructions,
directives, tags.  It relates a text to the tree it stands for and does not refer to the functions
that read texts.  Deviations from XML 1.0 are Go's: attributes need no white space between them
and may occur twice, comments and processing instructions may contain any characters, directives
are skipped wherever they stand, text may precede the first element, and nothing is asked of what follows it.
-/

namespace Gopmml.Spec.Markup

abbrev Chars := List Char

/-! ## Names -/

/-- White space. -/
def Blank (s : Chars) : Prop := ∀ c ∈ s, c ∈ [' ', '\t', '\n', '\r']

def Letter (c : Char) : Prop := ('a' ≤ c ∧ c ≤ 'z') ∨ ('A' ≤ c ∧ c ≤ 'Z')
def Digit (c : Char) : Prop := '0' ≤ c ∧ c ≤ '9'

section
variable [NameTables]

def NameStart (c : Char) : Prop :=
  (c.toNat < 128 ∧ (Letter c ∨ c = '_' ∨ c = ':')) ∨ (128 ≤ c.toNat ∧ NameTables.first c = true)

def NamePart (c : Char) : Prop :=
  NameStart c ∨ (c.toNat < 128 ∧ (Digit c ∨ c = '-' ∨ c = '.')) ∨
    (128 ≤ c.toNat ∧ NameTables.second c = true)

def Name (n : Chars) : Prop := ∃ c cs, n = c :: cs ∧ NameStart c ∧ ∀ d ∈ cs, NamePart d

/-- The name of an element or attribute: at most one colon. -/
def QualName (n : Chars) : Prop := Name n ∧ n.count ':' ≤ 1

end

/-- What stands behind the prefix of a name. -/
inductive LocalPart : Chars → Chars → Prop
  | prefixed {p l : Chars} : p ≠ [] → l ≠ [] → ':' ∉ p → LocalPart (p ++ ':' :: l) l
  | plain {n : Chars} : (∀ p l, n = p ++ ':' :: l → ':' ∉ p → p = [] ∨ l = []) → LocalPart n n

/-- A text that does not go on with a character of a name. -/
def Apart (s : Chars) : Prop :=
  ∀ c ∈ s.head?, c.toNat < 128 ∧ ¬ Letter c ∧ ¬ Digit c ∧ c ∉ ['_', ':', '.', '-']

/-! ## Characters and references -/

def Legal (c : Char) : Prop :=
  c ∈ ['\t', '\n', '\r'] ∨ (0x20 ≤ c.toNat ∧ c.toNat ≠ 0xFFFE ∧ c.toNat ≠ 0xFFFF)

/-- What digits stand for. -/
def value (base : Nat) : Chars → Nat
  | [] => 0
  | d :: ds => "0123456789abcdef".toList.idxOf d.toLower * base ^ ds.length + value base ds

/-- The character with a number; a surrogate is none. -/
def charOf (n : Nat) : Char := if 0xD800 ≤ n ∧ n ≤ 0xDFFF then '�' else Char.ofNat n

/-- References to characters. -/
inductive Ref : Chars → Char → Prop
  | lt : Ref "&lt;".toList '<'
  | gt : Ref "&gt;".toList '>'
  | amp : Ref "&amp;".toList '&'
  | apos : Ref "&apos;".toList '\''
  | quot : Ref "&quot;".toList '"'
  | dec {ds : Chars} : ds ≠ [] → (∀ d ∈ ds, d ∈ "0123456789".toList) → value 10 ds ≤ 0x10FFFF →
      Ref ("&#".toList ++ ds ++ [';']) (charOf (value 10 ds))
  | hex {ds : Chars} : ds ≠ [] → (∀ d ∈ ds, d ∈ "0123456789abcdefABCDEF".toList) →
      value 16 ds ≤ 0x10FFFF → Ref ("&#x".toList ++ ds ++ [';']) (charOf (value 16 ds))

/-- How text is spelled: characters but those in `no` stand for themselves, a carriage return, with
a line feed behind it or not, for a line feed, and, unless `cdata`, references for characters. -/
inductive Spells (no : List Char) (cdata : Bool) : Chars → Chars → Prop
  | nil : Spells no cdata [] []
  | char {c : Char} {raw val : Chars} : c ∉ no → c ≠ '\r' → Spells no cdata raw val →
      Spells no cdata (c :: raw) (c :: val)
  | cr {raw val : Chars} : raw.head? ≠ some '\n' → Spells no cdata raw val →
      Spells no cdata ('\r' :: raw) ('\n' :: val)
  | crlf {raw val : Chars} : Spells no cdata raw val →
      Spells no cdata ('\r' :: '\n' :: raw) ('\n' :: val)
  | ref {r raw val : Chars} {c : Char} : cdata = false → Ref r c → Spells no cdata raw val →
      Spells no cdata (r ++ raw) (c :: val)

/-- Character data between tags. -/
def TextRun (raw val : Chars) : Prop :=
  raw ≠ [] ∧ Spells ['<', '&'] false raw val ∧ (∀ c ∈ val, Legal c) ∧ ¬ "]]>".toList <:+: raw

/-- A CDATA section. -/
def CData (s val : Chars) : Prop :=
  ∃ raw, s = "<![CDATA[".toList ++ raw ++ "]]>".toList ∧ Spells [] true raw val ∧
    (∀ c ∈ val, Legal c) ∧ ¬ "]]>".toList <:+: raw

/-- An attribute's value in its quotes. -/
def Quoted (s val : Chars) : Prop :=
  ∃ q raw, (q = '"' ∨ q = '\'') ∧ s = q :: raw ++ [q] ∧ Spells [q, '<', '&'] false raw val ∧
    ∀ c ∈ val, Legal c

/-! ## What is skipped -/

def Comment (s : Chars) : Prop :=
  ∃ body, s = "<!--".toList ++ body ++ "-->".toList ∧ ¬ "--".toList <:+: body ++ ['-']

/-- `data` gives the parameter the value `v` where it is first mentioned. -/
def Declares (param data v : Chars) : Prop :=
  ∃ pre q post, data = pre ++ param ++ q :: v ++ q :: post ∧ (q = '"' ∨ q = '\'') ∧ q ∉ v ∧
    ¬ param <:+: pre ++ param.dropLast

section
variable [NameTables]

/-- A processing instruction; the XML declaration may only ask for version 1.0 and UTF-8. -/
def Instruction (s : Chars) : Prop :=
  ∃ target body, s = "<?".toList ++ target ++ body ++ "?>".toList ∧ Name target ∧
    Apart (body ++ ['?']) ∧ ¬ "?>".toList <:+: body ∧
    (target = "xml".toList →
      (∀ v, Declares "version=".toList body v → v = [] ∨ v = "1.0".toList) ∧
      ∀ v, Declares "encoding=".toList body v → v = [] ∨ v.map Char.toLower = "utf-8".toList)

/-- The rest of a directive, with `depth` angle brackets to be closed before the last. -/
inductive InDirective : (depth : Nat) → Chars → Prop
  | done : InDirective 0 ['>']
  | close {depth : Nat} {s : Chars} : InDirective depth s → InDirective (depth + 1) ('>' :: s)
  | opened {depth : Nat} {s : Chars} : ¬ "!--".toList <+: s → InDirective (depth + 1) s →
      InDirective depth ('<' :: s)
  | comment {depth : Nat} {body s : Chars} : ¬ "-->".toList <:+: body ++ "--".toList →
      InDirective depth s → InDirective depth ("<!--".toList ++ body ++ "-->".toList ++ s)
  | quoted {depth : Nat} {q : Char} {body s : Chars} : q = '"' ∨ q = '\'' → q ∉ body →
      InDirective depth s → InDirective depth (q :: body ++ q :: s)
  | char {depth : Nat} {c : Char} {s : Chars} : c ∉ ['<', '>', '"', '\''] → InDirective depth s →
      InDirective depth (c :: s)

def Directive (s : Chars) : Prop :=
  ∃ c body, s = "<!".toList ++ c :: body ∧ c ≠ '-' ∧ c ≠ '[' ∧ InDirective 0 body

def Skipped (s : Chars) : Prop := Comment s ∨ Instruction s ∨ Directive s

/-! ## Elements -/

/-- The attributes of a start tag. -/
inductive Attributes : Chars → Attrs → Prop
  | nil : Attributes [] []
  | cons {b n l b₁ b₂ q v a : Chars} {as : Attrs} : Blank b → QualName n → LocalPart n l → Blank b₁ →
      Blank b₂ → Quoted q v → Attributes a as →
      Attributes (b ++ n ++ b₁ ++ '=' :: b₂ ++ q ++ a) ((String.ofList l, String.ofList v) :: as)

/-- A start tag for the name `n`, up to its `>` or `/>`. -/
def Tag (s n : Chars) (as : Attrs) : Prop :=
  ∃ a b, s = '<' :: n ++ a ++ b ∧ QualName n ∧ Attributes a as ∧ Blank b ∧ Apart a

/-- The content of an element. -/
inductive Content : Chars → List Xml → Prop
  | nil : Content [] []
  | text {raw val s : Chars} {xs : List Xml} : TextRun raw val → (∀ c ∈ s.head?, c = '<') →
      Content s xs → Content (raw ++ s) (.text (String.ofList raw) (String.ofList val) :: xs)
  | cdata {raw val s : Chars} {xs : List Xml} : CData raw val → Content s xs →
      Content (raw ++ s) (.text (String.ofList raw) (String.ofList val) :: xs)
  | skipped {raw s : Chars} {xs : List Xml} : Skipped raw → Content s xs →
      Content (raw ++ s) (.text (String.ofList raw) "" :: xs)
  | empty {t n l s : Chars} {as : Attrs} {xs : List Xml} : Tag t n as → LocalPart n l →
      Content s xs → Content (t ++ "/>".toList ++ s) (.elem (String.ofList l) as [] :: xs)
  | pair {t n l b c s : Chars} {as : Attrs} {ys xs : List Xml} : Tag t n as → LocalPart n l →
      Blank b → Content c ys → Content s xs →
      Content (t ++ '>' :: c ++ "</".toList ++ n ++ b ++ '>' :: s) (.elem (String.ofList l) as ys :: xs)

/-- A file that stands for an element: its first, after which anything may follow. -/
def Document (s : Chars) (x : Xml) : Prop :=
  ∃ p e rest pre n as ch, s = p ++ e ++ rest ∧ Content p pre ∧ (∀ y ∈ pre, ∃ r v, y = .text r v) ∧
    Content e [x] ∧ x = .elem n as ch

/-! ## Writing an element -/

/-- A name without a prefix. -/
def PlainName (n : Chars) : Prop := Name n ∧ ':' ∉ n

end

/-- A character as it is written between tags and between double quotes. -/
def escape (c : Char) : Chars :=
  if c = '<' then "&lt;".toList
  else if c = '>' then "&gt;".toList
  else if c = '&' then "&amp;".toList
  else if c = '"' then "&quot;".toList
  else if c = '\r' then "&#13;".toList
  else [c]

def escaped (v : String) : Chars := v.toList.flatMap escape

def writeAttrs (as : Attrs) : Chars :=
  as.flatMap fun a => ' ' :: a.1.toList ++ '=' :: '"' :: escaped a.2 ++ ['"']

mutual
/-- A text for a tree.  The content of a `Constant` is its source. -/
def write : Xml → Chars
  | .text _ v => escaped v
  | .elem n as ch =>
    '<' :: n.toList ++ writeAttrs as ++ '>' ::
      (if n = "Constant" then (Xml.sources ch).toList else writes ch) ++ "</".toList ++ n.toList ++ ['>']
def writes : List Xml → Chars
  | [] => []
  | x :: xs => write x ++ writes xs
end

def Xml.isText : Xml → Bool
  | .text _ _ => true
  | .elem _ _ _ => false

section
variable [NameTables]

mutual
/-- The trees that can be written: legal names and characters, no text next to a text, nothing
inside an element that is taken over word by word, at most one run of text in a `Constant`.  The
flag is set inside a `row`. -/
def Writable : Bool → Xml → Prop
  | _, .text _ v => ∀ c ∈ v.toList, Legal c
  | row, .elem n as ch =>
    PlainName n.toList ∧ (as.map (·.1)).Nodup ∧
    (∀ a ∈ as, PlainName a.1.toList ∧ ∀ c ∈ a.2.toList, Legal c) ∧
    if n = "Constant" then
      ch = [] ∨ ∃ raw v, ch = [.text raw v] ∧ ((raw = "" ∧ (row = true → v = "")) ∨
        ∃ val, TextRun raw.toList val ∧ (row = true → v = String.ofList val))
    else if verbatim n then ch = []
    else WritableAll (n == "row") ch
def WritableAll : Bool → List Xml → Prop
  | _, [] => True
  | row, x :: xs =>
    Writable row x ∧ (Xml.isText x → ∀ y ∈ xs.head?, Xml.isText y = false) ∧ WritableAll row xs
end

end

end Gopmml.Spec.Markup
