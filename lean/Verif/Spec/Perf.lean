import Verif.Model.Perf
import Verif.Spec.Walk
import Verif.Spec.Safe
import Verif.Spec.Specialise

/-!
# What the performance test asks of its files (C107)
-/

namespace Gopmml.Spec
open Gopmml

/-- The fields of the rows, in the order in which they are drawn. -/
def perfFields : List String :=
  ["is_email_domain_free", "emails_per_bank", "dollars_out_by_email", "dollars_in_out_1h", "amount",
    "emails_per_device"]

/-- A file the program runs. -/
def Chosen (root : FsEntry) (path : List String) : Prop := ∃ stem text, LastNamed root stem path text

/-- The chosen files have the places 0, 1, 2 and so on. -/
def Turns (root : FsEntry) (place : List String → Nat) : Prop :=
  (∀ p q, Chosen root p → Chosen root q → place p = place q → p = q) ∧
  ∀ p, Chosen root p → ∀ j < place p, ∃ q, Chosen root q ∧ place q = j

variable {F : Type} [Arith F] [Lib F] [Trans F] [NameTables] [Reflect]

omit [Trans F] in
/-- The text has a first model, which is the model `e` of a document with these dictionaries. -/
def FirstModel (s : String) (dd : List DataField) (td : TD F) (e : ModelElem F) : Prop :=
  ∃ n as ch p es, XmlText.readXml s.toList = some (.elem n as ch) ∧ decodePmml as ch = .ok p ∧
    p.models = e :: es ∧ p.dataDictionary = dd ∧ p.transformations = td

/-- The first model can be built and passes the check of C94 for the six fields. -/
def Checked (F : Type) [Arith F] [Lib F] (s : String) : Prop :=
  ∃ (dd : List DataField) (td : TD F) (e : ModelElem F), FirstModel s dd td e ∧
    (∃ m, (newModel dd e td).1 = .ok m) ∧ safe dd perfFields e = true

/-- The check, as a program. -/
def checkText (F : Type) [Arith F] [Lib F] (s : String) : Bool :=
  match XmlText.readXml s.toList with
  | some (.elem _ as ch) =>
    match decodePmml (F := F) as ch with
    | .ok p =>
      match p.models with
      | [] => false
      | e :: _ => (newModel p.dataDictionary e p.transformations).1.isOk && safe p.dataDictionary perfFields e
    | .error _ => false
  | _ => false

/-- The six fields between zero and one, nothing else. -/
def perfBox : Box := fun f => if f ∈ perfFields then .between Arith.zero Arith.one else .absent

end Gopmml.Spec
