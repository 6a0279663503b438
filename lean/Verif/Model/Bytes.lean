import Verif.Model.XmlText

/-!
# From the bytes of a file to its text (main/perftest.go:47-58)

`os.Open` and `xml.NewDecoder` read bytes. `encoding/xml` cuts the markup out of the bytes, since
all of it is ASCII, and decodes with `utf8.DecodeRune` where it looks at characters: in names and
in text. A byte that `DecodeRune` rejects is never part of a name and makes text an error; elsewhere
(comments, processing instructions, directives) it is skipped. That is what happens to U+FFFE, too,
which is encoded with bytes from 0x80 on and may stand neither in names nor in text, so such a byte
is taken for this character here.

Simplification: if a comment with such a byte stands inside a `Constant`, its text (which
`innerxml` takes over) has the character in place of the byte.
-/

namespace Gopmml.XmlBytes

/-- `utf8.DecodeRune`: the first character and what follows it, or nothing if the first byte does
not begin one (then one byte is skipped). The masks and shifts of the library are written as
arithmetic. -/
def decodeRune : List UInt8 → Option (Char × List UInt8)
  | [] => none
  | b0 :: bs =>
    if b0.toNat < 0x80 then some (Char.ofNat b0.toNat, bs)
    else if b0.toNat < 0xC2 then none
    else if b0.toNat < 0xE0 then
      match bs with
      | b1 :: r =>
        if b1.toNat < 0x80 ∨ 0xBF < b1.toNat then none
        else some (Char.ofNat ((b0.toNat - 0xC0) * 0x40 + (b1.toNat - 0x80)), r)
      | _ => none
    else if b0.toNat < 0xF0 then
      match bs with
      | b1 :: b2 :: r =>
        if b1.toNat < (if b0.toNat = 0xE0 then 0xA0 else 0x80) ∨
            (if b0.toNat = 0xED then 0x9F else 0xBF) < b1.toNat then none
        else if b2.toNat < 0x80 ∨ 0xBF < b2.toNat then none
        else some (Char.ofNat ((b0.toNat - 0xE0) * 0x1000 + (b1.toNat - 0x80) * 0x40 + (b2.toNat - 0x80)), r)
      | _ => none
    else if b0.toNat < 0xF5 then
      match bs with
      | b1 :: b2 :: b3 :: r =>
        if b1.toNat < (if b0.toNat = 0xF0 then 0x90 else 0x80) ∨
            (if b0.toNat = 0xF4 then 0x8F else 0xBF) < b1.toNat then none
        else if b2.toNat < 0x80 ∨ 0xBF < b2.toNat then none
        else if b3.toNat < 0x80 ∨ 0xBF < b3.toNat then none
        else some (Char.ofNat ((b0.toNat - 0xF0) * 0x40000 + (b1.toNat - 0x80) * 0x1000 +
          (b2.toNat - 0x80) * 0x40 + (b3.toNat - 0x80)), r)
      | _ => none
    else none

/-- The characters of a file one after the other; `none` is a byte that belongs to none. The fuel is
the number of bytes. -/
def runes : Nat → List UInt8 → List (Option Char)
  | _, [] => []
  | 0, _ :: _ => []
  | fuel + 1, b :: bs =>
    match decodeRune (b :: bs) with
    | some (c, r) => some c :: runes fuel r
    | none => none :: runes fuel bs

/-- The character that a wrong byte is taken for. -/
def bad : Char := Char.ofNat 0xFFFE

/-- The file as `encoding/xml` sees it. -/
def decodeBytes (bs : List UInt8) : List Char := (runes bs.length bs).map (·.getD bad)

/-- The first element of a file. -/
def readBytes [NameTables] (bs : List UInt8) : Option Xml := XmlText.readXml (decodeBytes bs)

end Gopmml.XmlBytes

namespace Gopmml

variable {F : Type} [Arith F] [Lib F] [Trans F]

/-- main/perftest.go:47-86: one file, given as its bytes. -/
def runBytes [NameTables] [Reflect] (bs : List UInt8) (calls : List (MapOrd × Row F)) :
    Except Crash (List (Out F)) :=
  runText (String.ofList (XmlBytes.decodeBytes bs)) calls

end Gopmml
