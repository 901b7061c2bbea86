import Verif.Go.Res
import Verif.Go.Text

/-! # `cmd/model/{word2vec,glove,lexvec}`: `execute` on an abstract file system

The three functions are the same but for the model and an error text
(`word2vec.go:60-95`, `glove.go:60-95`, `lexvec.go:60-95` under `cmd/model`). -/

namespace Wego

abbrev Path := Word

/-- What a path names. -/
inductive Node where
  | dir
  | file (content : List Char)
  deriving DecidableEq, Repr

/-- A file system. -/
abbrev FS := Path → Option Node

/-- Everything outside the program that decides how system calls end. -/
structure Env where
  /-- directories `os.MkdirAll` creates (those that exist are left alone) -/
  mkdirs : List Path
  mkdirFails : Bool
  /-- `os.Create(outputFile)` fails -/
  createFails : Bool
  /-- `os.Create("cpu.prof")` fails -/
  profFails : Bool
  openFails : Bool

/-- How `NewForOptions`, `Train` and `Save` end for a given input: `Train` (or `NewForOptions`) fails, panics, or `Save` has
written `content` and returned `res`. -/
inductive TrainOutcome where
  | trainErr (e : Err)
  | trainPanic (p : Panic)
  | saved (content : List Char) (res : Res Unit)
  deriving DecidableEq

def cpuProf : Path := "cpu.prof".toList

/-- store a node -/
def FS.put (fs : FS) (p : Path) (n : Node) : FS := fun q => if q = p then some n else fs q

/-- `os.MkdirAll` (`execute` line 75): adds directories at paths that do not exist -/
def FS.mkdirAll (fs : FS) (ps : List Path) : FS :=
  fun q => match fs q with
    | some n => some n
    | none => if q ∈ ps then some .dir else none

/-- `execute` lines 55-58 `fileExists`. Simplification: `os.Stat` fails only for paths that do not exist. -/
def FS.exists (fs : FS) (p : Path) : Bool := (fs p).isSome

/-- the content read from `input` -/
def FS.read (fs : FS) (p : Path) : List Char :=
  match fs p with
  | some (.file c) => c
  | _ => []

/-- `execute` lines 70-95 (after profiling is set up) -/
def executeMain (env : Env) (input output : Path) (run : List Char → TrainOutcome) (fs : FS) : FS × Res Unit :=
  if fs.exists output then (fs, .err .outputExists)
  else if !fs.exists input then (fs, .err .noInput)
  else
    let fs := fs.mkdirAll env.mkdirs
    if env.mkdirFails then (fs, .err .osErr)
    else if env.createFails then (fs, .err .osErr)
    else
      let fs := fs.put output (.file [])
      if env.openFails then (fs, .err .osErr)
      else
        match run (fs.read input) with
        | .trainErr e => (fs, .err e)
        | .trainPanic p => (fs, .panic p)
        | .saved content res => (fs.put output (.file content), res)

/-- `execute` lines 60-95 -/
def execute (env : Env) (prof : Bool) (input output : Path) (run : List Char → TrainOutcome) (fs : FS) :
    FS × Res Unit :=
  if prof then
    if env.profFails then (fs, .err .osErr)
    else executeMain env input output run (fs.put cpuProf (.file []))
  else executeMain env input output run fs

end Wego
