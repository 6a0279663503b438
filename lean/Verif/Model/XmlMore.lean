import Verif.Model.Xml

/-!
# Two more hand-written decoders (models/elements.go)

`Alternate` (part of baseline models) and `ChildParent` (part of hierarchies).  No evaluator reads
what they produce; they are modelled because their loops are written by hand.
-/

namespace Gopmml

variable {F : Type} [Arith F] [Lib F]

/-- models/elements.go:2070-2075 `Extension` -/
structure Extension where
  extender : Option String
  name : Option String
  value : Option String
  contents : String
  deriving DecidableEq

/-- models/elements.go:2070-2075, by reflection: three optional attributes and the inner XML -/
def extensionAttr (k v : String) (e : Extension) : Dec Extension :=
  if k = "extender" then .ok { e with extender := some v }
  else if k = "name" then .ok { e with name := some v }
  else if k = "value" then .ok { e with value := some v }
  else .ok e

def decodeExtension (as : Attrs) (ch : List Xml) : Dec Extension :=
  attrLoop extensionAttr as ⟨none, none, none, Xml.sources ch⟩

/-- models/groups.go:16-18 `ContinuousDistributionType`.  Their `Extension` children are left out. -/
inductive Distribution (F : Type) where
  | any (mean variance : F)
  | gaussian (mean variance : F)
  | poisson
  | uniform
  deriving DecidableEq

/-- models/elements.go:296-301 and 2192-2196: the two attributes of a distribution, by reflection -/
def momentsAttr (k v : String) (m : F × F) : Dec (F × F) :=
  if k = "mean" then (attrFloat v).map fun x => (x, m.2)
  else if k = "variance" then (attrFloat v).map fun x => (m.1, x)
  else .ok m

/-- models/groups.go:20-33 `GetContinuousDistributionType` and the decoding of the item -/
def decodeDistribution (n : String) (as : Attrs) : Option (Dec (Distribution F)) :=
  if n = "AnyDistribution" then
    some ((attrLoop momentsAttr as (Arith.zero, Arith.zero)).map fun m => .any m.1 m.2)
  else if n = "GaussianDistribution" then
    some ((attrLoop momentsAttr as (Arith.zero, Arith.zero)).map fun m => .gaussian m.1 m.2)
  else if n = "PoissonDistribution" then some (.ok .poisson)
  else if n = "UniformDistribution" then some (.ok .uniform)
  else none

/-- models/elements.go:164-176 the `switch` of `Alternate.UnmarshalXML`; the last one wins -/
def alternateHandle (n : String) (as : Attrs) (_ : List Xml) (_ : Option (Distribution F)) :
    Option (Dec (Option (Distribution F))) :=
  (decodeDistribution n as).map fun r => r.map some

/-- models/elements.go:152-181 `Alternate.UnmarshalXML`; attributes are not looked at -/
def decodeAlternate (ch : List Xml) : Dec (Option (Distribution F)) :=
  consumed "Alternate" (bodyLoop alternateHandle ch none)

/-- models/groups.go:311-313 `Table` -/
inductive TableElem (F : Type) where
  | inline (rows : List (GoMap (GoVal F)))
  | locator

/-- models/elements.go:900-909 `ChildParent` -/
structure ChildParent (F : Type) where
  childField : String
  isRecursive : Bool
  parentField : String
  parentLevelField : String
  table : Option (TableElem F)
  extensions : List Extension
  fieldColumnPairs : List FieldColumnPair

def ChildParent.zero : ChildParent F := ⟨"", false, "", "", none, [], []⟩

/-- models/elements.go:915-932 the attributes of `ChildParent` -/
def childParentAttr (k v : String) (c : ChildParent F) : Dec (ChildParent F) :=
  if k = "childField" then .ok { c with childField := v }
  else if k = "isRecursive" then
    if v = "yes" then .ok { c with isRecursive := true }
    else if v = "no" then .ok { c with isRecursive := false }
    else .error (.syntax v)
  else if k = "parentField" then .ok { c with parentField := v }
  else if k = "parentLevelField" then .ok { c with parentLevelField := v }
  else .ok c

/-- models/elements.go:940-971 the `switch` of `ChildParent.UnmarshalXML` -/
def childParentHandle (n : String) (as : Attrs) (ch : List Xml) (c : ChildParent F) :
    Option (Dec (ChildParent F)) :=
  if n = "Extension" then
    some ((decodeExtension as ch).map fun e => { c with extensions := c.extensions ++ [e] })
  else if n = "FieldColumnPair" then
    some ((attrLoop pairAttr as ⟨"", ""⟩).map fun p =>
      { c with fieldColumnPairs := c.fieldColumnPairs ++ [p] })
  else if n = "InlineTable" then
    some ((decodeTable ch []).map fun t => { c with table := some (.inline t) })
  else if n = "TableLocator" then some (.ok { c with table := some .locator })
  else none

/-- models/elements.go:912-976 `ChildParent.UnmarshalXML` -/
def decodeChildParent (as : Attrs) (ch : List Xml) : Dec (ChildParent F) :=
  match attrLoop childParentAttr as ChildParent.zero with
  | .error e => .error e
  | .ok c => consumed "ChildParent" (bodyLoop childParentHandle ch c)

end Gopmml
