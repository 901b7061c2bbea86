import Verif.Go.Float
import Verif.Go.Text

/-! # Options of the three models: `pkg/model/{word2vec,glove,lexvec}/options.go` and `New`

Written by `tools/gen_options.py`. An option is a constructor of the `...Opt` type with the value it sets;
Boolean options take no value and set `true`; `apply` is the function stored in the `ModelOption`. `F` is float64. -/

namespace Wego
variable {F : Type}

/-- `word2vec/options.go:60` `Options` -/
structure W2VOptions (F : Type) where
  batchSize : Int
  dim : Int
  docInMemory : Bool
  goroutines : Int
  initlr : F
  iter : Int
  logBatch : Int
  maxCount : Int
  maxDepth : Int
  minCount : Int
  minLR : F
  modelType : Word
  negativeSampleSize : Int
  optimizerType : Word
  subsampleThreshold : F
  toLower : Bool
  updateLRBatch : Int
  verbose : Bool
  window : Int

/-- `word2vec/options.go:82` `DefaultOptions` (values from the `default...` variables, line 39 on; `ncpu` is
`runtime.NumCPU()`) -/
def W2VOptions.default [GoFloat F] (ncpu : Int) : W2VOptions F where
  batchSize := 10000
  dim := 10
  docInMemory := false
  goroutines := ncpu
  initlr := GoFloat.ofRat (25 / 1000)
  iter := 15
  logBatch := 100000
  maxCount := -1
  maxDepth := 100
  minCount := 5
  minLR := GoFloat.ofRat (25 / 1000) *. GoFloat.ofRat (1 / 10000)
  modelType := "cbow".toList
  negativeSampleSize := 5
  optimizerType := "ns".toList
  subsampleThreshold := GoFloat.ofRat (1 / 1000)
  toLower := false
  updateLRBatch := 100000
  verbose := false
  window := 5

/-- `word2vec/options.go:106` `LoadForCmd`: registering each flag stores its default in the field -/
def W2VOptions.loadForCmd [GoFloat F] (ncpu : Int) (o : W2VOptions F) : W2VOptions F :=
  let o := { o with batchSize := 10000 }
  let o := { o with dim := 10 }
  let o := { o with goroutines := ncpu }
  let o := { o with docInMemory := false }
  let o := { o with initlr := GoFloat.ofRat (25 / 1000) }
  let o := { o with iter := 15 }
  let o := { o with logBatch := 100000 }
  let o := { o with maxCount := -1 }
  let o := { o with maxDepth := 100 }
  let o := { o with minCount := 5 }
  let o := { o with minLR := GoFloat.ofRat (25 / 1000) *. GoFloat.ofRat (1 / 10000) }
  let o := { o with modelType := "cbow".toList }
  let o := { o with negativeSampleSize := 5 }
  let o := { o with optimizerType := "ns".toList }
  let o := { o with subsampleThreshold := GoFloat.ofRat (1 / 1000) }
  let o := { o with toLower := false }
  let o := { o with updateLRBatch := 100000 }
  let o := { o with verbose := false }
  let o := { o with window := 5 }
  o

/-- the functional options of `word2vec/options.go:128` on -/
inductive W2VOpt (F : Type) where
  | batchSize (v : Int)
  | dim (v : Int)
  | docInMemory
  | goroutines (v : Int)
  | initlr (v : F)
  | iter (v : Int)
  | logBatch (v : Int)
  | maxCount (v : Int)
  | maxDepth (v : Int)
  | minCount (v : Int)
  | minLR (v : F)
  | modelType (v : Word)
  | negativeSampleSize (v : Int)
  | optimizerType (v : Word)
  | subsampleThreshold (v : F)
  | toLower
  | updateLRBatch (v : Int)
  | verbose
  | window (v : Int)

/-- the body of each option, `word2vec/options.go:128` on -/
def W2VOpt.apply (x : W2VOpt F) (o : W2VOptions F) : W2VOptions F :=
  match x with
  | .batchSize v => { o with batchSize := v }
  | .dim v => { o with dim := v }
  | .docInMemory => { o with docInMemory := true }
  | .goroutines v => { o with goroutines := v }
  | .initlr v => { o with initlr := v }
  | .iter v => { o with iter := v }
  | .logBatch v => { o with logBatch := v }
  | .maxCount v => { o with maxCount := v }
  | .maxDepth v => { o with maxDepth := v }
  | .minCount v => { o with minCount := v }
  | .minLR v => { o with minLR := v }
  | .modelType v => { o with modelType := v }
  | .negativeSampleSize v => { o with negativeSampleSize := v }
  | .optimizerType v => { o with optimizerType := v }
  | .subsampleThreshold v => { o with subsampleThreshold := v }
  | .toLower => { o with toLower := true }
  | .updateLRBatch v => { o with updateLRBatch := v }
  | .verbose => { o with verbose := true }
  | .window v => { o with window := v }

/-- `word2vec.go:53-60` `New`: the options the model is built with -/
def W2VOptions.new [GoFloat F] (ncpu : Int) (l : List (W2VOpt F)) : W2VOptions F :=
  l.foldl (fun o x => x.apply o) (W2VOptions.default ncpu)

/-- a command-line flag with its value, `word2vec/options.go:106` on: cobra stores the value in the field -/
inductive W2VFlag (F : Type) where
  | batchSize (v : Int)
  | dim (v : Int)
  | goroutines (v : Int)
  | docInMemory (v : Bool)
  | initlr (v : F)
  | iter (v : Int)
  | logBatch (v : Int)
  | maxCount (v : Int)
  | maxDepth (v : Int)
  | minCount (v : Int)
  | minLR (v : F)
  | modelType (v : Word)
  | negativeSampleSize (v : Int)
  | optimizerType (v : Word)
  | subsampleThreshold (v : F)
  | toLower (v : Bool)
  | updateLRBatch (v : Int)
  | verbose (v : Bool)
  | window (v : Int)

/-- storing the value of a flag -/
def W2VFlag.set (x : W2VFlag F) (o : W2VOptions F) : W2VOptions F :=
  match x with
  | .batchSize v => { o with batchSize := v }
  | .dim v => { o with dim := v }
  | .goroutines v => { o with goroutines := v }
  | .docInMemory v => { o with docInMemory := v }
  | .initlr v => { o with initlr := v }
  | .iter v => { o with iter := v }
  | .logBatch v => { o with logBatch := v }
  | .maxCount v => { o with maxCount := v }
  | .maxDepth v => { o with maxDepth := v }
  | .minCount v => { o with minCount := v }
  | .minLR v => { o with minLR := v }
  | .modelType v => { o with modelType := v }
  | .negativeSampleSize v => { o with negativeSampleSize := v }
  | .optimizerType v => { o with optimizerType := v }
  | .subsampleThreshold v => { o with subsampleThreshold := v }
  | .toLower v => { o with toLower := v }
  | .updateLRBatch v => { o with updateLRBatch := v }
  | .verbose v => { o with verbose := v }
  | .window v => { o with window := v }

/-- the options a command runs with: flags registered on the zero value (any value `z`), then parsed in order -/
def W2VOptions.fromFlags [GoFloat F] (ncpu : Int) (z : W2VOptions F) (l : List (W2VFlag F)) : W2VOptions F :=
  l.foldl (fun o x => x.set o) (z.loadForCmd ncpu)

/-- `glove/options.go:51` `Options` -/
structure GloveOptions (F : Type) where
  alpha : F
  batchSize : Int
  countType : Word
  dim : Int
  docInMemory : Bool
  goroutines : Int
  initlr : F
  iter : Int
  logBatch : Int
  maxCount : Int
  minCount : Int
  solverType : Word
  subsampleThreshold : F
  toLower : Bool
  verbose : Bool
  window : Int
  xmax : Int

/-- `glove/options.go:71` `DefaultOptions` (values from the `default...` variables, line 33 on; `ncpu` is
`runtime.NumCPU()`) -/
def GloveOptions.default [GoFloat F] (ncpu : Int) : GloveOptions F where
  alpha := GoFloat.ofRat (3 / 4)
  batchSize := 10000
  countType := "inc".toList
  dim := 10
  docInMemory := false
  goroutines := ncpu
  initlr := GoFloat.ofRat (25 / 1000)
  iter := 15
  logBatch := 100000
  maxCount := -1
  minCount := 5
  solverType := "sgd".toList
  subsampleThreshold := GoFloat.ofRat (1 / 1000)
  toLower := false
  verbose := false
  window := 5
  xmax := 100

/-- `glove/options.go:93` `LoadForCmd`: registering each flag stores its default in the field -/
def GloveOptions.loadForCmd [GoFloat F] (ncpu : Int) (o : GloveOptions F) : GloveOptions F :=
  let o := { o with alpha := GoFloat.ofRat (3 / 4) }
  let o := { o with batchSize := 10000 }
  let o := { o with countType := "inc".toList }
  let o := { o with dim := 10 }
  let o := { o with goroutines := ncpu }
  let o := { o with docInMemory := false }
  let o := { o with initlr := GoFloat.ofRat (25 / 1000) }
  let o := { o with iter := 15 }
  let o := { o with logBatch := 100000 }
  let o := { o with maxCount := -1 }
  let o := { o with minCount := 5 }
  let o := { o with solverType := "sgd".toList }
  let o := { o with subsampleThreshold := GoFloat.ofRat (1 / 1000) }
  let o := { o with toLower := false }
  let o := { o with verbose := false }
  let o := { o with window := 5 }
  let o := { o with xmax := 100 }
  o

/-- the functional options of `glove/options.go:113` on -/
inductive GloveOpt (F : Type) where
  | alpha (v : F)
  | batchSize (v : Int)
  | dim (v : Int)
  | docInMemory
  | goroutines (v : Int)
  | initlr (v : F)
  | iter (v : Int)
  | maxCount (v : Int)
  | minCount (v : Int)
  | solverType (v : Word)
  | subsampleThreshold (v : F)
  | toLower
  | verbose
  | window (v : Int)
  | xmax (v : Int)

/-- the body of each option, `glove/options.go:113` on -/
def GloveOpt.apply (x : GloveOpt F) (o : GloveOptions F) : GloveOptions F :=
  match x with
  | .alpha v => { o with alpha := v }
  | .batchSize v => { o with batchSize := v }
  | .dim v => { o with dim := v }
  | .docInMemory => { o with docInMemory := true }
  | .goroutines v => { o with goroutines := v }
  | .initlr v => { o with initlr := v }
  | .iter v => { o with iter := v }
  | .maxCount v => { o with maxCount := v }
  | .minCount v => { o with minCount := v }
  | .solverType v => { o with solverType := v }
  | .subsampleThreshold v => { o with subsampleThreshold := v }
  | .toLower => { o with toLower := true }
  | .verbose => { o with verbose := true }
  | .window v => { o with window := v }
  | .xmax v => { o with xmax := v }

/-- `glove.go:49-56` `New`: the options the model is built with -/
def GloveOptions.new [GoFloat F] (ncpu : Int) (l : List (GloveOpt F)) : GloveOptions F :=
  l.foldl (fun o x => x.apply o) (GloveOptions.default ncpu)

/-- a command-line flag with its value, `glove/options.go:93` on: cobra stores the value in the field -/
inductive GloveFlag (F : Type) where
  | alpha (v : F)
  | batchSize (v : Int)
  | countType (v : Word)
  | dim (v : Int)
  | goroutines (v : Int)
  | docInMemory (v : Bool)
  | initlr (v : F)
  | iter (v : Int)
  | logBatch (v : Int)
  | maxCount (v : Int)
  | minCount (v : Int)
  | solverType (v : Word)
  | subsampleThreshold (v : F)
  | toLower (v : Bool)
  | verbose (v : Bool)
  | window (v : Int)
  | xmax (v : Int)

/-- storing the value of a flag -/
def GloveFlag.set (x : GloveFlag F) (o : GloveOptions F) : GloveOptions F :=
  match x with
  | .alpha v => { o with alpha := v }
  | .batchSize v => { o with batchSize := v }
  | .countType v => { o with countType := v }
  | .dim v => { o with dim := v }
  | .goroutines v => { o with goroutines := v }
  | .docInMemory v => { o with docInMemory := v }
  | .initlr v => { o with initlr := v }
  | .iter v => { o with iter := v }
  | .logBatch v => { o with logBatch := v }
  | .maxCount v => { o with maxCount := v }
  | .minCount v => { o with minCount := v }
  | .solverType v => { o with solverType := v }
  | .subsampleThreshold v => { o with subsampleThreshold := v }
  | .toLower v => { o with toLower := v }
  | .verbose v => { o with verbose := v }
  | .window v => { o with window := v }
  | .xmax v => { o with xmax := v }

/-- the options a command runs with: flags registered on the zero value (any value `z`), then parsed in order -/
def GloveOptions.fromFlags [GoFloat F] (ncpu : Int) (z : GloveOptions F) (l : List (GloveFlag F)) : GloveOptions F :=
  l.foldl (fun o x => x.set o) (z.loadForCmd ncpu)

/-- `lexvec/options.go:54` `Options` -/
structure LexvecOptions (F : Type) where
  batchSize : Int
  dim : Int
  docInMemory : Bool
  goroutines : Int
  initlr : F
  iter : Int
  logBatch : Int
  maxCount : Int
  minCount : Int
  minLR : F
  negativeSampleSize : Int
  relationType : Word
  smooth : F
  subsampleThreshold : F
  toLower : Bool
  updateLRBatch : Int
  verbose : Bool
  window : Int

/-- `lexvec/options.go:75` `DefaultOptions` (values from the `default...` variables, line 34 on; `ncpu` is
`runtime.NumCPU()`) -/
def LexvecOptions.default [GoFloat F] (ncpu : Int) : LexvecOptions F where
  batchSize := 10000
  dim := 10
  docInMemory := false
  goroutines := ncpu
  initlr := GoFloat.ofRat (25 / 1000)
  iter := 15
  logBatch := 100000
  maxCount := -1
  minCount := 5
  minLR := GoFloat.ofRat (25 / 1000) *. GoFloat.ofRat (1 / 10000)
  negativeSampleSize := 5
  relationType := "ppmi".toList
  smooth := GoFloat.ofRat (3 / 4)
  subsampleThreshold := GoFloat.ofRat (1 / 1000)
  toLower := false
  updateLRBatch := 100000
  verbose := false
  window := 5

/-- `lexvec/options.go:97` `LoadForCmd`: registering each flag stores its default in the field -/
def LexvecOptions.loadForCmd [GoFloat F] (ncpu : Int) (o : LexvecOptions F) : LexvecOptions F :=
  let o := { o with batchSize := 10000 }
  let o := { o with dim := 10 }
  let o := { o with goroutines := ncpu }
  let o := { o with docInMemory := false }
  let o := { o with initlr := GoFloat.ofRat (25 / 1000) }
  let o := { o with iter := 15 }
  let o := { o with logBatch := 100000 }
  let o := { o with maxCount := -1 }
  let o := { o with minCount := 5 }
  let o := { o with minLR := GoFloat.ofRat (25 / 1000) *. GoFloat.ofRat (1 / 10000) }
  let o := { o with negativeSampleSize := 5 }
  let o := { o with relationType := "ppmi".toList }
  let o := { o with smooth := GoFloat.ofRat (3 / 4) }
  let o := { o with subsampleThreshold := GoFloat.ofRat (1 / 1000) }
  let o := { o with toLower := false }
  let o := { o with updateLRBatch := 100000 }
  let o := { o with verbose := false }
  let o := { o with window := 5 }
  o

/-- the functional options of `lexvec/options.go:119` on -/
inductive LexvecOpt (F : Type) where
  | batchSize (v : Int)
  | dim (v : Int)
  | docInMemory
  | goroutines (v : Int)
  | initlr (v : F)
  | iter (v : Int)
  | logBatch (v : Int)
  | maxCount (v : Int)
  | minCount (v : Int)
  | minLR (v : F)
  | negativeSampleSize (v : Int)
  | relationType (v : Word)
  | smooth (v : F)
  | subsampleThreshold (v : F)
  | toLower
  | updateLRBatch (v : Int)
  | verbose
  | window (v : Int)

/-- the body of each option, `lexvec/options.go:119` on -/
def LexvecOpt.apply (x : LexvecOpt F) (o : LexvecOptions F) : LexvecOptions F :=
  match x with
  | .batchSize v => { o with batchSize := v }
  | .dim v => { o with dim := v }
  | .docInMemory => { o with docInMemory := true }
  | .goroutines v => { o with goroutines := v }
  | .initlr v => { o with initlr := v }
  | .iter v => { o with iter := v }
  | .logBatch v => { o with logBatch := v }
  | .maxCount v => { o with maxCount := v }
  | .minCount v => { o with minCount := v }
  | .minLR v => { o with minLR := v }
  | .negativeSampleSize v => { o with negativeSampleSize := v }
  | .relationType v => { o with relationType := v }
  | .smooth v => { o with smooth := v }
  | .subsampleThreshold v => { o with subsampleThreshold := v }
  | .toLower => { o with toLower := true }
  | .updateLRBatch v => { o with updateLRBatch := v }
  | .verbose => { o with verbose := true }
  | .window v => { o with window := v }

/-- `lexvec.go:52-59` `New`: the options the model is built with -/
def LexvecOptions.new [GoFloat F] (ncpu : Int) (l : List (LexvecOpt F)) : LexvecOptions F :=
  l.foldl (fun o x => x.apply o) (LexvecOptions.default ncpu)

/-- a command-line flag with its value, `lexvec/options.go:97` on: cobra stores the value in the field -/
inductive LexvecFlag (F : Type) where
  | batchSize (v : Int)
  | dim (v : Int)
  | goroutines (v : Int)
  | docInMemory (v : Bool)
  | initlr (v : F)
  | iter (v : Int)
  | logBatch (v : Int)
  | maxCount (v : Int)
  | minCount (v : Int)
  | minLR (v : F)
  | negativeSampleSize (v : Int)
  | relationType (v : Word)
  | smooth (v : F)
  | subsampleThreshold (v : F)
  | toLower (v : Bool)
  | updateLRBatch (v : Int)
  | verbose (v : Bool)
  | window (v : Int)

/-- storing the value of a flag -/
def LexvecFlag.set (x : LexvecFlag F) (o : LexvecOptions F) : LexvecOptions F :=
  match x with
  | .batchSize v => { o with batchSize := v }
  | .dim v => { o with dim := v }
  | .goroutines v => { o with goroutines := v }
  | .docInMemory v => { o with docInMemory := v }
  | .initlr v => { o with initlr := v }
  | .iter v => { o with iter := v }
  | .logBatch v => { o with logBatch := v }
  | .maxCount v => { o with maxCount := v }
  | .minCount v => { o with minCount := v }
  | .minLR v => { o with minLR := v }
  | .negativeSampleSize v => { o with negativeSampleSize := v }
  | .relationType v => { o with relationType := v }
  | .smooth v => { o with smooth := v }
  | .subsampleThreshold v => { o with subsampleThreshold := v }
  | .toLower v => { o with toLower := v }
  | .updateLRBatch v => { o with updateLRBatch := v }
  | .verbose v => { o with verbose := v }
  | .window v => { o with window := v }

/-- the options a command runs with: flags registered on the zero value (any value `z`), then parsed in order -/
def LexvecOptions.fromFlags [GoFloat F] (ncpu : Int) (z : LexvecOptions F) (l : List (LexvecFlag F)) : LexvecOptions F :=
  l.foldl (fun o x => x.set o) (z.loadForCmd ncpu)

end Wego
