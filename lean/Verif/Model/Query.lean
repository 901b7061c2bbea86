import Verif.Model.Cmd
import Verif.Model.Vector
import Verif.Model.Console

/-! # `cmd/query`: `execute` of the query and console commands on an abstract file system -/

namespace Wego

/-- `pkg/search/search.go:37-45` `Describe`: the cells of the table, row by row: `%d` of the rank (a `uint`), the word, `%f`
of the similarity. How `tablewriter` lays the cells out is not modelled. -/
def describe (ns : List (Neighbor F64)) : List (List Word) :=
  ns.map fun n => [natDigits n.rank, n.word, fmtF n.sim]

/-- `cmd/query/query.go:52-77` `execute`; the result is what `neighbors.Describe()` prints. `openFails`, `readFails`:
`os.Open` fails, reading the opened file fails (for instance because it is a directory). `other` is the part of
`strconv.ParseFloat` that is not modelled (see `Verif/Model/Vector.lean`). -/
def queryExecute (other : Word → Option F64) (fs : FS) (openFails readFails : Bool) (input : Path) (args : List Word)
    (rank : Int) : Res (List (Neighbor F64)) :=
  if !fs.exists input then .err .noInput
  else match args with
    | [w] =>
      if openFails then .err .osErr
      else
        load other ⟨fs.read input, readFails⟩ >>= fun embs =>
        Searcher.new embs >>= fun s =>
        s.searchInternal w rank
    | _ => .err .singleWord

/-- `cmd/query/console/console.go:55-78` `execute` up to `console.Run()` -/
def consoleExecute (other : Word → Option F64) (fs : FS) (openFails readFails : Bool) (input : Path) (rank : Int) :
    Res (Console F64) :=
  if !fs.exists input then .err .noInput
  else if openFails then .err .osErr
  else
    load other ⟨fs.read input, readFails⟩ >>= fun embs =>
    Searcher.new embs >>= fun s =>
    Console.new s rank

end Wego
