import Verif.Spec.Structs

/-!
# Why a document cannot be decoded

The first offending place, in the order of the document, in terms of the table of struct tags (`goStructs`).
-/

namespace Gopmml.Spec.Why

open Gopmml Structs

variable (F : Type) [Arith F] [Lib F]

/-- Types no evaluator looks at: of what is wrong inside such an element, only the element is named. -/
def unnamed : List String :=
  ["ModelExplanation", "ModelStats", "Taxonomy",
   "AssociationModel", "BaselineModel", "BayesianNetworkModel", "ClusteringModel", "GaussianProcessModel",
   "GeneralRegressionModel", "NaiveBayesModel", "NearestNeighborModel", "NeuralNetwork", "RuleSetModel", "Scorecard",
   "SequenceModel", "SupportVectorMachineModel", "TextModel", "TimeSeriesModel"]

/-- An attribute that has a field and cannot be read into it: its text is the error. -/
def attrWhy (s : GoStruct) (a : String × String) : Option DecErr :=
  if attrReads F s a then none else some (.syntax a.2)

mutual
/-- What is wrong with a child of an element that is decoded into the type `t`, `s` in the table. An element unknown to a
hand-written decoder is entered as if its content were that of the element itself; where it ends, so does the decoder, and
that is an error. -/
def childWhy (t : String) (s : GoStruct) : Xml → Option DecErr
  | .text _ _ => none
  | .elem n as ch =>
    match find n s.fields with
    | none => if s.strict then (childrenWhy t s ch).or (some (.leftover t)) else none
    | some u =>
      if u = "float64" then (if Kind.float64.reads F (Xml.chardata ch) then none else some (.syntax (Xml.chardata ch)))
      else if u ∈ unnamed then (if reads F u as ch then none else some (.other u))
      else match find u goStructs with
        | none => none
        | some s' => (as.findSome? (attrWhy F s')).or (childrenWhy u s' ch)
/-- The first of the children something is wrong with. -/
def childrenWhy (t : String) (s : GoStruct) : List Xml → Option DecErr
  | [] => none
  | c :: cs => (childWhy t s c).or (childrenWhy t s cs)
end

/-- What is wrong with an element that is decoded into the type `t`: its attributes come first. -/
def why (t : String) (as : Attrs) (ch : List Xml) : Option DecErr :=
  if t ∈ unnamed then (if reads F t as ch then none else some (.other t))
  else match find t goStructs with
    | none => none
    | some s => (as.findSome? (attrWhy F s)).or (childrenWhy F t s ch)

/-- Elements that are met below content read as that of the type `t`: those that have fields, what they contain, and what
is inside unknown elements of a hand-written decoder. -/
inductive Met : String → List Xml → String → Attrs → List Xml → Prop where
  | child {t u n : String} {as : Attrs} {ch cs : List Xml} {s : GoStruct} (hs : find t goStructs = some s)
      (hc : .elem n as ch ∈ cs) (hn : find n s.fields = some u) : Met t cs u as ch
  | inside {t u v n : String} {as as' : Attrs} {ch ch' cs : List Xml} {s : GoStruct} (hs : find t goStructs = some s)
      (hc : .elem n as ch ∈ cs) (hn : find n s.fields = some u) (h : Met u ch v as' ch') : Met t cs v as' ch'
  | through {t v n : String} {as as' : Attrs} {ch ch' cs : List Xml} {s : GoStruct} (hs : find t goStructs = some s)
      (hc : .elem n as ch ∈ cs) (hn : find n s.fields = none) (hst : s.strict = true) (h : Met t ch v as' ch') :
      Met t cs v as' ch'

/-- The element itself, or one that is met below it. -/
def Place (t : String) (as : Attrs) (ch : List Xml) (u : String) (as' : Attrs) (ch' : List Xml) : Prop :=
  (u = t ∧ as' = as ∧ ch' = ch) ∨ Met t ch u as' ch'

/-- What an error says about the element it is found at. -/
inductive Says : DecErr → String → Attrs → List Xml → Prop where
  /-- the text is that of an attribute, which cannot be read into its field -/
  | attrText {u k v : String} {as : Attrs} {ch : List Xml} {s : GoStruct} {kind : Kind} (hs : find u goStructs = some s)
      (hm : (k, v) ∈ as) (hf : find k s.attrs = some kind) (hr : ¬ Readable F kind v) : Says (.syntax v) u as ch
  /-- the text is the content of a child that is a number and cannot be read -/
  | number {u n : String} {as as' : Attrs} {ch ch' : List Xml} {s : GoStruct} (hs : find u goStructs = some s)
      (hm : .elem n as' ch' ∈ ch) (hf : find n s.fields = some "float64")
      (hr : ¬ Readable F .float64 (Xml.chardata ch')) : Says (.syntax (Xml.chardata ch')) u as ch
  /-- the element has a child unknown to its decoder -/
  | unknown {u n : String} {as as' : Attrs} {ch ch' : List Xml} {s : GoStruct} (hs : find u goStructs = some s)
      (hm : .elem n as' ch' ∈ ch) (hf : find n s.fields = none) (hst : s.strict = true) : Says (.leftover u) u as ch
  /-- nothing looks at the element, and it or something inside offends -/
  | inside {u v : String} {as as' : Attrs} {ch ch' : List Xml} {s : GoStruct} (hu : u ∈ unnamed)
      (hl : Looked u as ch v as' ch') (hs : find v goStructs = some s) (ho : Offends F s as' ch') : Says (.other u) u as ch

/-- Edits of the content of an element of the type `t`, `s` in the table, that do not change the error it is refused with,
at any depth: its text, attributes and elements that have no field, the name and the attributes of an element unknown to a
hand-written decoder and all that follows it, and inside elements no evaluator looks at also the order. -/
inductive SameError : String → GoStruct → List Xml → List Xml → Prop where
  | nil (t : String) (s : GoStruct) : SameError t s [] []
  | text {t : String} {s : GoStruct} {xs ys : List Xml} (raw val : String) (h : SameError t s xs ys) :
      SameError t s (.text raw val :: xs) ys
  | elem {t u n : String} {s s' : GoStruct} {xs ys ch ch' : List Xml} {as as' : Attrs} (hn : find n s.fields = some u)
      (hf : u ≠ "float64") (hu : u ∉ unnamed) (hs : find u goStructs = some s') (ha : known s' as = known s' as')
      (hc : SameError u s' ch ch') (h : SameError t s xs ys) : SameError t s (.elem n as ch :: xs) (.elem n as' ch' :: ys)
  | number {t n : String} {s : GoStruct} {xs ys ch ch' : List Xml} {as as' : Attrs} (hn : find n s.fields = some "float64")
      (hc : Xml.chardata ch = Xml.chardata ch') (h : SameError t s xs ys) :
      SameError t s (.elem n as ch :: xs) (.elem n as' ch' :: ys)
  | unnamed {t u n : String} {s s' : GoStruct} {xs ys ch ch' : List Xml} {as as' : Attrs} (hn : find n s.fields = some u)
      (hf : u ≠ "float64") (hu : u ∈ unnamed) (hs : find u goStructs = some s') (ha : (known s' as).Perm (known s' as'))
      (hc : Edit s' ch ch') (h : SameError t s xs ys) : SameError t s (.elem n as ch :: xs) (.elem n as' ch' :: ys)
  | unlisted {t n : String} {s : GoStruct} {xs ys ch : List Xml} {as : Attrs} (hn : find n s.fields = none)
      (hst : s.strict = false) (h : SameError t s xs ys) : SameError t s (.elem n as ch :: xs) ys
  | unknown {t n m : String} {s : GoStruct} {xs ys ch ch' : List Xml} {as as' : Attrs} (hn : find n s.fields = none)
      (hm : find m s.fields = none) (hst : s.strict = true) (hc : SameError t s ch ch') :
      SameError t s (.elem n as ch :: xs) (.elem m as' ch' :: ys)
  | symm {t : String} {s : GoStruct} {xs ys : List Xml} (h : SameError t s xs ys) : SameError t s ys xs
  | trans {t : String} {s : GoStruct} {xs ys zs : List Xml} (h : SameError t s xs ys) (h' : SameError t s ys zs) :
      SameError t s xs zs

end Gopmml.Spec.Why
