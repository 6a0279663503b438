import Verif.Model.Structs

/-!
# When a document can be decoded

In terms of the table of struct tags (`goStructs`): nothing that is looked at may offend.
-/

namespace Gopmml.Spec

open Gopmml Structs

variable (F : Type) [Arith F] [Lib F]

/-- The text can be read into a variable of the kind. -/
def Readable : Kind → String → Prop
  | .string, _ => True
  | .float64, v => v = "" ∨ ∃ x : F, Lib.parseFloat (trimSpace v) = some x
  | .int, v => v = "" ∨ ∃ x, parseInt (trimSpace v) = some x
  | .uint, v => v = "" ∨ ∃ x, parseUint (trimSpace v) = some x
  | .bool, v => v = "" ∨ ∃ x, parseBool (trimSpace v) = some x
  | .count, v => v = "" ∨ ∃ x : F, Lib.parseFloat v = some x
  | .yesNo, v => v = "yes" ∨ v = "no"

/-- Decoding an element into the type `t` decodes the second element into the type `u`: the elements themselves, and
below them those that have fields. -/
inductive Looked : String → Attrs → List Xml → String → Attrs → List Xml → Prop where
  | here (t : String) (as : Attrs) (ch : List Xml) : Looked t as ch t as ch
  | inside {t u v n : String} {as as' as'' : Attrs} {ch ch' ch'' : List Xml} {s : GoStruct}
      (hs : find t goStructs = some s) (hc : .elem n as' ch' ∈ ch) (hn : find n s.fields = some u) (hu : u ≠ "float64")
      (h : Looked u as' ch' v as'' ch'') : Looked t as ch v as'' ch''

/-- What makes the decoding of an element fail, apart from its children's content. -/
inductive Offends (s : GoStruct) (as : Attrs) (ch : List Xml) : Prop where
  /-- an attribute that has a field and cannot be read into it -/
  | attribute (k v : String) (kind : Kind) (h : (k, v) ∈ as) (hf : find k s.attrs = some kind) (hr : ¬ Readable F kind v)
  /-- the same of a child that is a number -/
  | number (n : String) (as' : Attrs) (ch' : List Xml) (h : .elem n as' ch' ∈ ch) (hf : find n s.fields = some "float64")
      (hr : ¬ Readable F .float64 (Xml.chardata ch'))
  /-- a child unknown to a hand-written decoder -/
  | unknown (n : String) (as' : Attrs) (ch' : List Xml) (h : .elem n as' ch' ∈ ch) (hf : find n s.fields = none)
      (hs : s.strict = true)

/-- The attributes that have a field. -/
def known (s : GoStruct) (as : Attrs) : Attrs := as.filter fun a => (find a.1 s.attrs).isSome

/-- Edits of the content of an element of the type `s` that have nothing to do with whether it can be decoded, at any
depth: its text, the order of elements and attributes, and attributes and elements that have no field. -/
inductive Edit : GoStruct → List Xml → List Xml → Prop where
  | nil (s : GoStruct) : Edit s [] []
  | text {s : GoStruct} {xs ys : List Xml} (raw val : String) (h : Edit s xs ys) : Edit s (.text raw val :: xs) ys
  | elem {s s' : GoStruct} {xs ys ch ch' : List Xml} {as as' : Attrs} {n t : String} (hn : find n s.fields = some t)
      (hf : t ≠ "float64") (ht : find t goStructs = some s') (ha : (known s' as).Perm (known s' as')) (hc : Edit s' ch ch')
      (h : Edit s xs ys) : Edit s (.elem n as ch :: xs) (.elem n as' ch' :: ys)
  | number {s : GoStruct} {xs ys ch ch' : List Xml} {as as' : Attrs} {n : String} (hn : find n s.fields = some "float64")
      (hc : Xml.chardata ch = Xml.chardata ch') (h : Edit s xs ys) : Edit s (.elem n as ch :: xs) (.elem n as' ch' :: ys)
  | unlisted {s : GoStruct} {xs ys ch : List Xml} {as : Attrs} {n : String} (hn : find n s.fields = none)
      (hs : s.strict = false) (h : Edit s xs ys) : Edit s (.elem n as ch :: xs) ys
  | swap (s : GoStruct) (x y : Xml) (xs : List Xml) : Edit s (x :: y :: xs) (y :: x :: xs)
  | symm {s : GoStruct} {xs ys : List Xml} (h : Edit s xs ys) : Edit s ys xs
  | trans {s : GoStruct} {xs ys zs : List Xml} (h : Edit s xs ys) (h' : Edit s ys zs) : Edit s xs zs

/-- The kinds of models of which nothing is read. -/
def unread : List String :=
  ["ClusteringModel", "GaussianProcessModel", "GeneralRegressionModel", "NaiveBayesModel", "NearestNeighborModel",
   "NeuralNetwork", "RuleSetModel", "Scorecard", "SequenceModel", "SupportVectorMachineModel", "TextModel",
   "TimeSeriesModel"]

end Gopmml.Spec
