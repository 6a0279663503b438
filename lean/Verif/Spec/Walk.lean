import Verif.Model.Walk

/-!
# Which files a directory holds

Written without the walk: a file is there under a path, names are legal, one path comes before another.
-/

namespace Gopmml.Spec

open Gopmml

/-- There is a file with this text under this path. -/
inductive Has : FsEntry → List String → Option String → Prop
  | file {n text} : Has (.file n text) [n] text
  | dir {n es e p text} : e ∈ es → Has e p text → Has (.dir n es) (n :: p) text

/-- What is under this path cannot be read. -/
inductive Blocked : FsEntry → List String → Prop
  | here {n} : Blocked (.unreadable n) [n]
  | dir {n es e p} : e ∈ es → Blocked e p → Blocked (.dir n es) (n :: p)

/-- A name a directory can hold. -/
def LegalName (n : String) : Prop := n ≠ "" ∧ '/' ∉ n.toList

/-- Names are legal, and the names in one directory differ. -/
inductive LegalTree : FsEntry → Prop
  | file {n text} : LegalName n → LegalTree (.file n text)
  | unreadable {n} : LegalName n → LegalTree (.unreadable n)
  | dir {n es} : LegalName n → (∀ e ∈ es, LegalTree e) → (es.map FsEntry.name).Nodup → LegalTree (.dir n es)

/-- The last name of the path is the given name with `.xml` after it. -/
def NamedXml (stem : String) (p : List String) : Prop := p.getLast? = some (stem ++ ".xml")

/-- The path `p` comes before `q`: at the first place where they differ, the name in `p` is the smaller. -/
def Before (p q : List String) : Prop :=
  ∃ common a as b bs, p = common ++ a :: as ∧ q = common ++ b :: bs ∧ a < b

/-- Of all files `stem.xml`, in whatever directory, this one comes last. -/
def LastNamed (root : FsEntry) (stem : String) (p : List String) (text : Option String) : Prop :=
  Has root p text ∧ NamedXml stem p ∧
    ∀ q t, Has root q t → NamedXml stem q → q = p ∨ Before q p

variable {F : Type} [Arith F] [Lib F] [Trans F] [NameTables] [Reflect]

/-- The file cannot be opened, or the program ends in its text. -/
def Fails (calls : List String → List (MapOrd × Row F)) (path : List String) (text : Option String)
    (c : MainCrash) : Prop :=
  match text with
  | none => c = .open_ path
  | some s => ∃ k, runText s (calls path) = .error k ∧ c = .file path k

/-- The answers for one file. -/
def Gives (calls : List String → List (MapOrd × Row F)) (path : List String) (text : Option String)
    (outs : List (Out F)) : Prop :=
  ∃ s, text = some s ∧ runText s (calls path) = .ok outs

end Gopmml.Spec
