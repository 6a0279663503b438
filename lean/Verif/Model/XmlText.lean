import Verif.Model.Main

/-!
# From the text of a file to its elements (main/perftest.go:47-58)

`xml.NewDecoder(r).Decode(&doc)` reads the text of a file with `encoding/xml`.  This is a model of
that part of Go's library (`Decoder.rawToken`, `Decoder.Token`, the search of `Decoder.Decode` for
the first start tag) with the decoder's default settings: strict, no extra entities, no
`CharsetReader`.  The decoders of the repository see the file only as the tree read here.

Simplifications: the text is a sequence of characters (how it comes from bytes, and what becomes of
invalid UTF-8, is in `Verif/Model/Bytes.lean`); all syntax errors are one; a tree is read as a whole although the decoders of the repository
run while the text is read (both an error of the text and an error of a decoder make `Decode`
fail); names keep the prefix only to compare start and end tags; the letters beyond ASCII that may
occur in names are a parameter (`NameTables`); comments, processing instructions and directives
inside an element are kept as text without a meaning, since `innerxml` fields receive them.  The
Go releases differ in names with more than one colon and in `procInst` on odd XML declarations.
-/

namespace Gopmml

/-- The tables `first` and `second` of `encoding/xml`, used for characters beyond ASCII. -/
class NameTables where
  first : Char → Bool
  second : Char → Bool

namespace XmlText

/-- `Decoder.space` -/
def isBlank (c : Char) : Bool := c = ' ' || c = '\r' || c = '\n' || c = '\t'

def isAlpha (c : Char) : Bool := ('A' ≤ c && c ≤ 'Z') || ('a' ≤ c && c ≤ 'z')

/-- `readName` takes all bytes from 0x80 on and those of `isNameByte`. -/
def nameByte (c : Char) : Bool :=
  0x80 ≤ c.toNat || isAlpha c || ('0' ≤ c && c ≤ '9') || c = '_' || c = ':' || c = '.' || c = '-'

variable [NameTables]

def isFirst (c : Char) : Bool :=
  if c.toNat < 0x80 then isAlpha c || c = '_' || c = ':' else NameTables.first c

def isSecond (c : Char) : Bool :=
  if c.toNat < 0x80 then ('0' ≤ c && c ≤ '9') || c = '-' || c = '.' else NameTables.second c

/-- `isName` -/
def isName : List Char → Bool
  | [] => false
  | c :: cs => isFirst c && cs.all fun c => isFirst c || isSecond c

/-- `Decoder.name` -/
def readName (s : List Char) : Option (List Char × List Char) :=
  if isName (s.takeWhile nameByte) then some (s.takeWhile nameByte, s.dropWhile nameByte) else none

/-- `xml.Name`, before prefixes are replaced by name spaces -/
structure QName where
  space : List Char
  loc : List Char
  deriving DecidableEq, Repr

/-- A name is cut at its colon, unless one side is empty. -/
def cutName (n : List Char) : QName :=
  let sp := n.takeWhile (· ≠ ':')
  let lo := (n.dropWhile (· ≠ ':')).drop 1
  if sp = [] ∨ lo = [] then ⟨[], n⟩ else ⟨sp, lo⟩

/-- `Decoder.nsname` -/
def readQName (s : List Char) : Option (QName × List Char) :=
  match readName s with
  | none => none
  | some (n, r) => if 1 < n.count ':' then none else some (cutName n, r)

/-- `isInCharacterRange` (a `Char` is no surrogate) -/
def inRange (c : Char) : Bool :=
  c = '\t' || c = '\n' || c = '\r' || (0x20 ≤ c.toNat && c.toNat ≤ 0xFFFD) || 0x10000 ≤ c.toNat

/-- The table `entity` -/
def entity (n : List Char) : Option Char :=
  if n = ['l', 't'] then some '<'
  else if n = ['g', 't'] then some '>'
  else if n = ['a', 'm', 'p'] then some '&'
  else if n = ['a', 'p', 'o', 's'] then some '\''
  else if n = ['q', 'u', 'o', 't'] then some '"'
  else none

def hexDigit (c : Char) : Option Nat :=
  if '0' ≤ c ∧ c ≤ '9' then some (c.toNat - 48)
  else if 'a' ≤ c ∧ c ≤ 'f' then some (c.toNat - 87)
  else if 'A' ≤ c ∧ c ≤ 'F' then some (c.toNat - 55)
  else none

def isHex (c : Char) : Bool := (hexDigit c).isSome

/-- `strconv.ParseUint` of digits; numbers that overflow are too large for a character anyway. -/
def numeral (base : Nat) (ds : List Char) : Nat :=
  ds.foldl (fun n c => n * base + (hexDigit c).getD 0) 0

/-- `string(rune(n))` for `n ≤ unicode.MaxRune`: a surrogate becomes U+FFFD. -/
def runeOf (n : Nat) : Char := if n.isValidChar then Char.ofNat n else '�'

/-- The digits of a character reference and its semicolon. -/
def readNumeral (base : Nat) (digit : Char → Bool) (s : List Char) : Option (Char × List Char) :=
  match s.dropWhile digit with
  | ';' :: r =>
    if s.takeWhile digit = [] ∨ 0x10FFFF < numeral base (s.takeWhile digit) then none
    else some (runeOf (numeral base (s.takeWhile digit)), r)
  | _ => none

/-- `Decoder.text` after `&`: the character a reference stands for. -/
def readRef (s : List Char) : Option (Char × List Char) :=
  match s with
  | '#' :: 'x' :: s => readNumeral 16 isHex s
  | '#' :: s => readNumeral 10 (fun c => '0' ≤ c && c ≤ '9') s
  | s =>
    match s.dropWhile nameByte with
    | ';' :: r => (entity (s.takeWhile nameByte)).map fun c => (c, r)
    | _ => none

/-- `Decoder.text`: `quote` is the quote that ends the text, if any. `buf` is what has been read,
last character first, `b0` and `b1` the two characters before. The fuel is the number of characters
left. -/
def readText (quote : Option Char) (cdata : Bool) :
    Nat → (b0 b1 : Char) → (buf s : List Char) → Option (List Char × List Char)
  | _, _, _, buf, [] => if cdata then none else some (buf, [])
  | 0, _, _, _, _ :: _ => none
  | fuel + 1, b0, b1, buf, b :: s =>
    if quote = none ∧ b0 = ']' ∧ b1 = ']' ∧ b = '>' then
      if cdata then some (buf.drop 2, s) else none
    else if b = '<' ∧ ¬ cdata then
      if quote = none then some (buf, b :: s) else none
    else if quote = some b then some (buf, s)
    else if b = '&' ∧ ¬ cdata then
      match readRef s with
      | none => none
      | some (c, r) => readText quote cdata fuel '\x00' '\x00' (c :: buf) r
    else if b = '\r' then readText quote cdata fuel b1 b ('\n' :: buf) s
    else if b1 = '\r' ∧ b = '\n' then readText quote cdata fuel b1 b buf s
    else readText quote cdata fuel b1 b (b :: buf) s

/-- `Decoder.text` with its last check. -/
def text (quote : Option Char) (cdata : Bool) (s : List Char) : Option (List Char × List Char) :=
  match readText quote cdata s.length '\x00' '\x00' [] s with
  | none => none
  | some (buf, r) => if buf.all inRange then some (buf.reverse, r) else none

/-- `Decoder.attrval` -/
def attrValue (s : List Char) : Option (List Char × List Char) :=
  match s with
  | [] => none
  | q :: s => if q = '"' ∨ q = '\'' then text (some q) false s else none

/-- The attributes of a start tag, whether it ends with `/>`, and what follows it. -/
def readAttributes : Nat → List Char → Option (Attrs × Bool × List Char)
  | 0, _ => none
  | fuel + 1, s =>
    match s.dropWhile isBlank with
    | [] => none
    | b :: s =>
      if b = '/' then
        match s with
        | '>' :: r => some ([], true, r)
        | _ => none
      else if b = '>' then some ([], false, s)
      else
        match readQName (b :: s) with
        | none => none
        | some (n, s) =>
          match s.dropWhile isBlank with
          | '=' :: s =>
            match attrValue (s.dropWhile isBlank) with
            | none => none
            | some (v, s) =>
              match readAttributes fuel s with
              | none => none
              | some (as, closed, r) => some ((String.ofList n.loc, String.ofList v) :: as, closed, r)
          | _ => none

/-- The rest of a comment after `<!--`. -/
def readComment : (b0 b1 : Char) → List Char → Option (List Char)
  | _, _, [] => none
  | b0, b1, b :: s =>
    if b0 = '-' ∧ b1 = '-' then (if b = '>' then some s else none) else readComment b1 b s

/-- The rest of a processing instruction after its target: its data (last character first) and what
follows `?>`. -/
def readInstruction : (b0 : Char) → (buf s : List Char) → Option (List Char × List Char)
  | _, _, [] => none
  | b0, buf, b :: s => if b0 = '?' ∧ b = '>' then some (buf.drop 1, s) else readInstruction b (b :: buf) s

/-- What stands between the quotes at the start of the text. -/
def quoted : List Char → List Char
  | [] => []
  | q :: s => if (q = '"' ∨ q = '\'') ∧ q ∈ s then s.takeWhile (· ≠ q) else []

/-- `procInst`: the value written behind the first `param=`. -/
def procInst (param : List Char) : List Char → List Char
  | [] => []
  | c :: s => if param.isPrefixOf (c :: s) then quoted ((c :: s).drop param.length) else procInst param s

def lower (c : Char) : Char := if 'A' ≤ c ∧ c ≤ 'Z' then Char.ofNat (c.toNat + 32) else c

/-- The checks of an XML declaration. -/
def declarationOk (data : List Char) : Bool :=
  let ver := procInst "version=".toList data
  let enc := procInst "encoding=".toList data
  (ver = [] || ver = "1.0".toList) && (enc = [] || enc.map lower = "utf-8".toList)

/-- A processing instruction after `<?`. -/
def instruction (s : List Char) : Option (List Char) :=
  match readName s with
  | none => none
  | some (target, s) =>
    match readInstruction '\x00' [] (s.dropWhile isBlank) with
    | none => none
    | some (buf, r) =>
      if target = "xml".toList ∧ ¬ declarationOk buf.reverse then none else some r

/-- The end of a comment inside a directive. -/
def directiveComment : (b0 b1 : Char) → List Char → Option (List Char)
  | _, _, [] => none
  | b0, b1, b :: s => if b0 = '-' ∧ b1 = '-' ∧ b = '>' then some s else directiveComment b1 b s

/-- The rest of a directive after its first character. Quoted angle brackets do not count, nor does
what stands in comments. The fuel is the number of characters left. -/
def directive : Nat → (inquote : Option Char) → (depth : Nat) → List Char → Option (List Char)
  | _, _, _, [] => none
  | 0, _, _, _ => none
  | fuel + 1, inquote, depth, b :: s =>
    match inquote with
    | some q => directive fuel (if b = q then none else some q) depth s
    | none =>
      if b = '>' then (if depth = 0 then some s else directive fuel none (depth - 1) s)
      else if b = '\'' ∨ b = '"' then directive fuel (some b) depth s
      else if b = '<' then
        if "!--".toList.isPrefixOf s then
          match directiveComment '\x00' '\x00' (s.drop 3) with
          | none => none
          | some r => directive fuel none depth r
        else directive fuel none (depth + 1) s
      else directive fuel none depth s

/-- `xml.Token`; an element that closes itself is one token here. -/
inductive Tok where
  | start (n : QName) (as : Attrs) (closed : Bool)
  | stop (n : QName)
  | text (val : List Char)
  | skip

/-- `Decoder.rawToken` after `<`. -/
def markup (s : List Char) : Option (Tok × List Char) :=
  match s with
  | [] => none
  | b :: s =>
    if b = '/' then
      match readQName s with
      | none => none
      | some (n, s) =>
        match s.dropWhile isBlank with
        | '>' :: r => some (.stop n, r)
        | _ => none
    else if b = '?' then (instruction s).map fun r => (.skip, r)
    else if b = '!' then
      match s with
      | [] => none
      | c :: s =>
        if c = '-' then
          match s with
          | '-' :: s => (readComment '\x00' '\x00' s).map fun r => (.skip, r)
          | _ => none
        else if c = '[' then
          if "CDATA[".toList.isPrefixOf s then
            (text none true (s.drop 6)).map fun p => (.text p.1, p.2)
          else none
        else (directive s.length none 0 s).map fun r => (.skip, r)
    else
      match readQName (b :: s) with
      | none => none
      | some (n, s) =>
        match readAttributes s.length s with
        | none => none
        | some (as, closed, r) => some (.start n as closed, r)

/-- `Decoder.rawToken` -/
def token (s : List Char) : Option (Tok × List Char) :=
  match s with
  | '<' :: s => markup s
  | s => (text none false s).map fun p => (.text p.1, p.2)

/-- An element that has been opened, its content so far last node first. -/
structure Opened where
  name : QName
  attrs : Attrs
  content : List Xml

def Opened.node (o : Opened) : Xml := .elem (String.ofList o.name.loc) o.attrs o.content.reverse

/-- A node is added to the innermost open element; before the first start tag it is ignored. -/
def addNode (x : Xml) : List Opened → List Opened
  | [] => []
  | o :: st => { o with content := x :: o.content } :: st

/-- The part of the text a token was read from. -/
def sourceOf (s r : List Char) : String := String.ofList (s.take (s.length - r.length))

/-- `Decoder.Token` until the first element is complete; what follows is not read. The fuel is the
number of characters. -/
def readTree : Nat → List Char → List Opened → Option Xml
  | _, [], _ => none
  | 0, _ :: _, _ => none
  | fuel + 1, s, st =>
    match token s with
    | none => none
    | some (.text v, r) => readTree fuel r (addNode (.text (sourceOf s r) (String.ofList v)) st)
    | some (.skip, r) => readTree fuel r (addNode (.text (sourceOf s r) "") st)
    | some (.start n as false, r) => readTree fuel r (⟨n, as, []⟩ :: st)
    | some (.start n as true, r) =>
      match st with
      | [] => some (Opened.node ⟨n, as, []⟩)
      | st => readTree fuel r (addNode (Opened.node ⟨n, as, []⟩) st)
    | some (.stop n, r) =>
      match st with
      | [] => none
      | o :: st =>
        if o.name = n then
          match st with
          | [] => some o.node
          | st => readTree fuel r (addNode o.node st)
        else none

/-- The first element of a text. -/
def readXml (s : List Char) : Option Xml := readTree s.length s []

end XmlText

variable {F : Type} [Arith F] [Lib F] [Trans F]

/-- main/perftest.go:47-86: one file, given as its text. The name of the first element does not
matter, since `models.PMML` has no `XMLName` field (models/elements.go:3734-3743). -/
def runText [NameTables] [Reflect] (s : String) (calls : List (MapOrd × Row F)) :
    Except Crash (List (Out F)) :=
  match XmlText.readXml s.toList with
  | some (.elem _ as ch) => runFile as ch calls
  | _ => .error (.decode (.syntax s))

end Gopmml
