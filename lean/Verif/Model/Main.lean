import Verif.Model.Xml
import Verif.Model.Mining

/-!
# The program `main/perftest.go`

From the elements of a file to the answers. Finding the files, profiling and timing are left out; the
rows, which the program draws at random, are given. The answers, which the program ignores, are kept.
-/

namespace Gopmml

/-- Where main/perftest.go:47-86 panics. -/
inductive Crash where
  /-- main/perftest.go:58-60 -/
  | decode (e : DecErr)
  /-- main/perftest.go:63: `doc.Models[0]` of no models -/
  | noModel
  /-- main/perftest.go:66-68 -/
  | build (f : Fault)
  /-- main/perftest.go:82-85 -/
  | evaluate (f : Fault)
  deriving DecidableEq

variable {F : Type} [Arith F] [Lib F] [Trans F]

omit [Trans F] in
/-- main/perftest.go:55-68: decode the document and build its first model. -/
def loadFile [Reflect] (as : Attrs) (ch : List Xml) : Except Crash (EModel F) :=
  match decodePmml as ch with
  | .error e => .error (.decode e)
  | .ok doc =>
    match doc.models with
    | [] => .error .noModel
    | mdl :: _ =>
      match (newModel doc.dataDictionary mdl doc.transformations).1 with
      | .error f => .error (.build f)
      | .ok m => .ok m

/-- main/perftest.go:73-86: one call for every row, each on the model as the calls before left it. -/
def callAll : EModel F → List (MapOrd × Row F) → Except Crash (List (Out F))
  | _, [] => .ok []
  | m, c :: calls =>
    match (EModel.evaluate c.1 m c.2).res with
    | .error f => .error (.evaluate f)
    | .ok out =>
      match callAll (EModel.evaluate c.1 m c.2).model calls with
      | .error x => .error x
      | .ok outs => .ok (out :: outs)

/-- main/perftest.go:47-86: one file. -/
def runFile [Reflect] (as : Attrs) (ch : List Xml) (calls : List (MapOrd × Row F)) :
    Except Crash (List (Out F)) :=
  match loadFile as ch with
  | .error x => .error x
  | .ok m => callAll m calls

end Gopmml
