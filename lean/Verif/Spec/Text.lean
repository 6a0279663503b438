import Verif.Model.F64
import Verif.Model.Xml

/-!
# What a written constant means (for C74)

The texts `strconv.ParseInt`, `ParseBool` and `ParseFloat` accept and the value each of them
stands for, as a grammar; and what it means that a float is the nearest one to a number.
-/

namespace Gopmml.Spec
open Gopmml

/-- The value of one of the ten digits. -/
inductive DigitIs : Char → Nat → Prop
  | d0 : DigitIs '0' 0
  | d1 : DigitIs '1' 1
  | d2 : DigitIs '2' 2
  | d3 : DigitIs '3' 3
  | d4 : DigitIs '4' 4
  | d5 : DigitIs '5' 5
  | d6 : DigitIs '6' 6
  | d7 : DigitIs '7' 7
  | d8 : DigitIs '8' 8
  | d9 : DigitIs '9' 9

/-- A (possibly empty) row of digits and its value in base ten: appending a digit multiplies by ten
and adds the digit. -/
inductive DigitsAre : List Char → Nat → Prop
  | nil : DigitsAre [] 0
  | snoc {l : List Char} {n : Nat} {c : Char} {d : Nat} :
      DigitsAre l n → DigitIs c d → DigitsAre (l ++ [c]) (10 * n + d)

/-- A sign: `-`, or `+`, or nothing. -/
inductive SignIs : List Char → Bool → Prop
  | none : SignIs [] false
  | plus : SignIs ['+'] false
  | minus : SignIs ['-'] true

/-- An optional sign followed by at least one digit, within the range of int64. -/
def IntText (s : String) (n : Int) : Prop :=
  ∃ sg neg ds v, s.toList = sg ++ ds ∧ SignIs sg neg ∧ DigitsAre ds v ∧ ds ≠ [] ∧
    n = (if neg then -(v : Int) else v) ∧ -2 ^ 63 ≤ n ∧ n < 2 ^ 63

/-- The texts of the booleans. -/
inductive BoolText : String → Bool → Prop
  | one : BoolText "1" true
  | t : BoolText "t" true
  | T : BoolText "T" true
  | lower : BoolText "true" true
  | upper : BoolText "TRUE" true
  | title : BoolText "True" true
  | zero : BoolText "0" false
  | f : BoolText "f" false
  | F : BoolText "F" false
  | lowerF : BoolText "false" false
  | upperF : BoolText "FALSE" false
  | titleF : BoolText "False" false

/-- The fraction of a decimal: nothing, or a point and digits. -/
inductive FracIs : List Char → List Char → Prop
  | none : FracIs [] []
  | point {ds : List Char} : FracIs ('.' :: ds) ds

/-- The value of a digit of base ten or, with `hex`, of base sixteen. -/
inductive NumeralIs (hex : Bool) : Char → Nat → Prop
  | dec {c : Char} {d : Nat} : DigitIs c d → NumeralIs hex c d
  | a : hex = true → NumeralIs hex 'a' 10
  | b : hex = true → NumeralIs hex 'b' 11
  | c : hex = true → NumeralIs hex 'c' 12
  | d : hex = true → NumeralIs hex 'd' 13
  | e : hex = true → NumeralIs hex 'e' 14
  | f : hex = true → NumeralIs hex 'f' 15
  | A : hex = true → NumeralIs hex 'A' 10
  | B : hex = true → NumeralIs hex 'B' 11
  | C : hex = true → NumeralIs hex 'C' 12
  | D : hex = true → NumeralIs hex 'D' 13
  | E : hex = true → NumeralIs hex 'E' 14
  | F : hex = true → NumeralIs hex 'F' 15

/-- A (possibly empty) row of such digits and its value. -/
inductive NumeralsAre (hex : Bool) : List Char → Nat → Prop
  | nil : NumeralsAre hex [] 0
  | snoc {l : List Char} {n : Nat} {c : Char} {d : Nat} : NumeralsAre hex l n → NumeralIs hex c d →
      NumeralsAre hex (l ++ [c]) ((if hex then 16 else 10) * n + d)

/-- What is left of the exponent `v`: all of it, or if it has more than five digits the first five. -/
def FirstFive (v k : Nat) : Prop := ∃ j, k = v / 10 ^ j ∧ k < 100000 ∧ (j ≠ 0 → 10000 ≤ k)

/-- The letter in front of the exponent. -/
inductive ExpLetter : Bool → Char → Prop
  | e : ExpLetter false 'e'
  | E : ExpLetter false 'E'
  | p : ExpLetter true 'p'
  | P : ExpLetter true 'P'

/-- The exponent of a number: the letter, a sign and at least one digit.  A decimal may have none. -/
inductive ExpIs : Bool → List Char → Int → Prop
  | none : ExpIs false [] 0
  | some {hex : Bool} {c : Char} {sg ds : List Char} {neg : Bool} {v k : Nat} : ExpLetter hex c → SignIs sg neg →
      DigitsAre ds v → ds ≠ [] → FirstFive v k → ExpIs hex (c :: (sg ++ ds)) (if neg then -(k : Int) else k)

/-- The prefix of a number. -/
inductive PrefixIs : Bool → List Char → Prop
  | dec : PrefixIs false []
  | x : PrefixIs true ['0', 'x']
  | X : PrefixIs true ['0', 'X']

/-- A number `[sign]digits[.digits][e[sign]digits]`, or `[sign]0x digits[.digits]p[sign]digits` in base
sixteen, with a digit before or after the point, and the rational number it stands for; `neg` tells
whether a minus sign is written. -/
def PlainText (hex : Bool) (l : List Char) (neg : Bool) (q : ℚ) : Prop :=
  ∃ sg pre ip fr fp ex v k, l = sg ++ (pre ++ (ip ++ (fr ++ ex))) ∧ SignIs sg neg ∧ PrefixIs hex pre ∧
    FracIs fr fp ∧ ExpIs hex ex k ∧ NumeralsAre hex (ip ++ fp) v ∧ ¬ (ip = [] ∧ fp = []) ∧
    q = (if neg then -1 else 1) * v / (if hex then 16 else 10) ^ fp.length * (if hex then 2 else 10) ^ k

/-- Every underscore stands between two digits; in base sixteen the x of the prefix counts as one. -/
def Separated (hex : Bool) (l : List Char) : Prop := ∀ a b, l = a ++ '_' :: b →
  (∃ c ∈ a.getLast?, (∃ d, NumeralIs hex c d) ∨ hex = true ∧ (c = 'x' ∨ c = 'X')) ∧
  ∃ c ∈ b.head?, ∃ d, NumeralIs hex c d

/-- A number with underscores, in base ten or sixteen. -/
def NumText (s : String) (neg : Bool) (q : ℚ) : Prop :=
  ∃ hex, Separated hex s.toList ∧ PlainText hex (s.toList.filter (· ≠ '_')) neg q

/-- A letter in either case. -/
def EitherCase (upper lower c : Char) : Prop := c = upper ∨ c = lower

/-- A word in any mixture of cases, given in capitals and in small letters. -/
def AnyCase (upper lower : String) (l : List Char) : Prop :=
  List.Forall₂ (fun ul c => EitherCase ul.1 ul.2 c) (upper.toList.zip lower.toList) l

/-- The numbers of a binary floating point format with `p` significant bits and the smallest
exponent `emin`, with no bound above: `m * 2^e` with `|m| < 2^p` and `emin ≤ e`. -/
def Binary (p : Nat) (emin : Int) (q : ℚ) : Prop :=
  ∃ m e : Int, |m| < 2 ^ p ∧ emin ≤ e ∧ q = m * 2 ^ e

/-- `r` is the number of the format closest to `q`.  When another number of the format is as close,
`r` is the one whose last bit is zero, that is, the one that also fits with one bit less. -/
def Nearest (p : Nat) (emin : Int) (q r : ℚ) : Prop :=
  Binary p emin r ∧ (∀ s, Binary p emin s → |r - q| ≤ |s - q|) ∧
  ∀ s, Binary p emin s → s ≠ r → |s - q| = |r - q| → Binary (p - 1) (emin + 1) r

/-- The float64 `x` is the number `q` rounded: the nearest float64, ties to even; a zero carries
the sign `neg`; from `2^1024` on (after rounding) it is an infinity. -/
def Rounded (neg : Bool) (q : ℚ) (x : F64) : Prop :=
  ∃ r, Nearest 53 (-1074) q r ∧
    ((2 ^ 1024 ≤ |r| ∧ x = .inf (r < 0)) ∨ (r = 0 ∧ neg = true ∧ x = .negZero) ∨
      (|r| < 2 ^ 1024 ∧ ¬ (r = 0 ∧ neg = true) ∧ ∃ h, x = .fin r h))

/-- The texts of floating point numbers and the float64 each of them stands for. -/
inductive FloatText (s : String) : F64 → Prop
  | nan : AnyCase "NAN" "nan" s.toList → FloatText s .nan
  | inf {sg w : List Char} {neg : Bool} : s.toList = sg ++ w → SignIs sg neg →
      AnyCase "INF" "inf" w ∨ AnyCase "INFINITY" "infinity" w → FloatText s (.inf neg)
  | number {neg : Bool} {q : ℚ} {x : F64} : NumText s neg q → Rounded neg q x → (∀ b, x ≠ .inf b) → FloatText s x

/-- The constant a text stands for in a field of the given data type (float64 arithmetic). -/
inductive ConstText : DataType → String → GoVal F64 → Prop
  | boolean {s : String} {b : Bool} : BoolText s b → ConstText .boolean s (.bool b)
  | integer {s : String} {n : Int} : IntText s n → ConstText .integer s (.int .int64 n)
  | string {s : String} : ConstText .string s (.str s)
  | real {dt : DataType} {s : String} {x : F64} : dt = .double ∨ dt = .float → FloatText s x → ConstText dt s (.f64 x)

/-- The white space characters of Unicode, by number. -/
def Space (c : Char) : Prop :=
  9 ≤ c.toNat ∧ c.toNat ≤ 13 ∨ 0x2000 ≤ c.toNat ∧ c.toNat ≤ 0x200A ∨
    c.toNat ∈ [0x20, 0x85, 0xA0, 0x1680, 0x2028, 0x2029, 0x202F, 0x205F, 0x3000]

/-- `core` is `s` without the white space around it. -/
def Trimmed (s core : String) : Prop :=
  ∃ a b : List Char, s.toList = a ++ core.toList ++ b ∧ (∀ c ∈ a, Space c) ∧
    (∀ c ∈ b, Space c) ∧ (∀ c ∈ core.toList.head?, ¬ Space c) ∧
    ∀ c ∈ core.toList.getLast?, ¬ Space c

/-- At least one digit and nothing else, within the range of uint64. -/
def UintText (s : String) (n : Nat) : Prop := DigitsAre s.toList n ∧ s ≠ "" ∧ n < 2 ^ 64

end Gopmml.Spec
