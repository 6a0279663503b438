import Verif.Spec.XmlText

/-!
# The bytes of a text (for C110)

UTF-8 as RFC 3629 has it, and where in a file a character may stand that is not allowed in it.
-/

namespace Gopmml.Spec.Markup

/-- The bytes of a character. -/
def utf8Char (c : Char) : List UInt8 :=
  (if c.toNat < 0x80 then [c.toNat]
  else if c.toNat < 0x800 then [0xC0 + c.toNat / 0x40, 0x80 + c.toNat % 0x40]
  else if c.toNat < 0x10000 then [0xE0 + c.toNat / 0x1000, 0x80 + c.toNat / 0x40 % 0x40, 0x80 + c.toNat % 0x40]
  else [0xF0 + c.toNat / 0x40000, 0x80 + c.toNat / 0x1000 % 0x40, 0x80 + c.toNat / 0x40 % 0x40,
    0x80 + c.toNat % 0x40]).map UInt8.ofNat

/-- The bytes of a text. -/
def utf8 (s : Chars) : List UInt8 := s.flatMap utf8Char

/-- The place `i` of the text lies in a comment, an instruction or a directive. -/
def InSkipped [NameTables] (s : Chars) (i : Nat) : Prop :=
  ∃ p k r, s = p ++ k ++ r ∧ Skipped k ∧ p.length ≤ i ∧ i < p.length + k.length

/-- A character that may stand neither in a text nor in a name. -/
def Foreign [NameTables] (c : Char) : Prop := ¬ Legal c ∧ ¬ NamePart c

end Gopmml.Spec.Markup
