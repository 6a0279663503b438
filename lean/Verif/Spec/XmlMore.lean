import Verif.Model.XmlMore

/-!
# What the decoders of `Alternate` and `ChildParent` should produce
-/

namespace Gopmml.Spec

variable {F : Type}

/-- The value of the last attribute with this name. -/
def lastAttr (k : String) (as : Attrs) : Option String :=
  ((as.filter fun a => decide (a.1 = k)).getLast?).map (·.2)

/-- A float attribute: absent or empty means zero. -/
def FloatAttr [Arith F] [Lib F] (k : String) (as : Attrs) (x : F) : Prop :=
  match lastAttr k as with
  | none => x = Arith.zero
  | some v => if v = "" then x = Arith.zero else Lib.parseFloat (trimSpace v) = some x

/-- Every attribute with this name is empty or a number. -/
def Numeric (F : Type) [Arith F] [Lib F] (k : String) (as : Attrs) : Prop :=
  ∀ v, (k, v) ∈ as → v = "" ∨ ∃ x : F, Lib.parseFloat (trimSpace v) = some x

def distributionKinds : List String :=
  ["AnyDistribution", "GaussianDistribution", "PoissonDistribution", "UniformDistribution"]

def childParentKinds : List String := ["Extension", "FieldColumnPair", "InlineTable", "TableLocator"]

/-- An `Extension` as written. -/
def extension (as : Attrs) (ch : List Xml) : Extension :=
  ⟨lastAttr "extender" as, lastAttr "name" as, lastAttr "value" as, Xml.sources ch⟩

/-- A `FieldColumnPair` as written. -/
def columnPair (as : Attrs) : FieldColumnPair :=
  { column := (lastAttr "column" as).getD "", field := (lastAttr "field" as).getD "" }

/-- The children with this name, in document order. -/
def named (k : String) (ch : List Xml) : List (String × Attrs × List Xml) :=
  (Xml.elems ch).filter fun e => decide (e.1 = k)

end Gopmml.Spec
