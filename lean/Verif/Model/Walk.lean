import Verif.Model.XmlText
import Mathlib.Data.String.Basic
import Mathlib.Data.List.Sort

/-!
# The files `main/perftest.go` runs

From a directory to the answers for its files.  Profiling and timing are left out; the rows, which the
program draws at random, are given.  The files are taken not to change while the program runs.
-/

namespace Gopmml

/-- What stands under a name in a directory: a file with its text (`none` if it cannot be opened), a directory, or
something whose kind or entries cannot be read. -/
inductive FsEntry where
  | file (name : String) (text : Option String)
  | dir (name : String) (entries : List FsEntry)
  | unreadable (name : String)

def FsEntry.name : FsEntry → String
  | .file n _ => n
  | .dir n _ => n
  | .unreadable n => n

/-- One after the other, up to the first error. -/
def inSequence {ε α : Type} : List (Except ε (List α)) → Except ε (List α)
  | [] => .ok []
  | .error e :: _ => .error e
  | .ok xs :: rs =>
    match inSequence rs with
    | .error e => .error e
    | .ok ys => .ok (xs ++ ys)

mutual
/-- `filepath.Walk` (main/perftest.go:27-42): the files below an entry, in the order visited, as paths (lists of names) and
texts; the path of the first thing that cannot be read, since the function given returns the errors it is given
(main/perftest.go:28-30). -/
def walk : FsEntry → Except (List String) (List (List String × Option String))
  | .file n text => .ok [([n], text)]
  | .unreadable n => .error [n]
  | .dir n es =>
    match inSequence (((walkEntries es).insertionSort fun a b => a.1 ≤ b.1).map (·.2)) with
    | .error p => .error (n :: p)
    | .ok fs => .ok (fs.map fun f => (n :: f.1, f.2))
/-- The entries of a directory; `walk` visits them in the order of their names, whose bytes are compared (in UTF-8 this is
the order of the characters). -/
def walkEntries : List FsEntry → List (String × Except (List String) (List (List String × Option String)))
  | [] => []
  | e :: es => (e.name, walk e) :: walkEntries es
end

/-- A path as one string, as `filepath.Join` writes it. -/
def joinPath : List String → List Char
  | [] => []
  | [n] => n.toList
  | n :: m :: ns => n.toList ++ '/' :: joinPath (m :: ns)

/-- The loop of `path.Ext`, from the end; `acc` has been passed. -/
def extFrom : List Char → List Char → List Char
  | [], _ => []
  | c :: cs, acc => if c = '/' then [] else if c = '.' then '.' :: acc else extFrom cs (c :: acc)

/-- `path.Ext` -/
def pathExt (p : List Char) : List Char := extFrom p.reverse []

/-- `path.Base` -/
def pathBase (p : List Char) : List Char :=
  if p = [] then ['.']
  else
    let b := (((p.reverse.dropWhile (· = '/')).takeWhile (· ≠ '/'))).reverse
    if b = [] then ['/'] else b

/-- `strings.TrimSuffix` -/
def trimSuffix (s suffix : List Char) : List Char :=
  if suffix.isSuffixOf s then s.take (s.length - suffix.length) else s

/-- main/perftest.go:36-39 for one file; `prefix_` leads to the directory searched. -/
def addFile (prefix_ : List String) (modelFiles : GoMap (List String × Option String)) (f : List String × Option String) :
    GoMap (List String × Option String) :=
  let p := joinPath (prefix_ ++ f.1)
  if pathExt p = ".xml".toList then
    modelFiles.insert (String.ofList (trimSuffix (pathBase p) (pathExt p))) f
  else modelFiles

/-- main/perftest.go:26-46: the map `modelFiles`, with the text of each file beside its path. -/
def modelFiles (prefix_ : List String) (root : FsEntry) : Except (List String) (GoMap (List String × Option String)) :=
  match walk root with
  | .error p => .error p
  | .ok fs => .ok (fs.foldl (addFile prefix_) ∅)

/-- How the program ends otherwise. -/
inductive MainCrash where
  /-- main/perftest.go:44-46 -/
  | walk (path : List String)
  /-- main/perftest.go:49-52 -/
  | open_ (path : List String)
  /-- main/perftest.go:58-85 -/
  | file (path : List String) (c : Crash)
  deriving DecidableEq

variable {F : Type} [Arith F] [Lib F] [Trans F]

/-- main/perftest.go:48-93: one file after the other; `calls` are the rows drawn for each. -/
def runFiles [NameTables] [Reflect] (calls : List String → List (MapOrd × Row F)) :
    List (String × List String × Option String) → Except MainCrash (List (List String × List (Out F)))
  | [] => .ok []
  | (_, path, text) :: fs =>
    match text with
    | none => .error (.open_ path)
    | some s =>
      match runText s (calls path) with
      | .error c => .error (.file path c)
      | .ok outs =>
        match runFiles calls fs with
        | .error c => .error c
        | .ok rest => .ok ((path, outs) :: rest)

/-- main/perftest.go:26-93; the files are visited in the order of the map. -/
def runMain [NameTables] [Reflect] (o : MapOrd) (prefix_ : List String) (root : FsEntry)
    (calls : List String → List (MapOrd × Row F)) : Except MainCrash (List (List String × List (Out F))) :=
  match modelFiles prefix_ root with
  | .error p => .error (.walk p)
  | .ok files => runFiles calls (o.range files)

end Gopmml
