import Verif.Model.Corpus
import Verif.Model.Options
import Verif.Model.Subsample
import Verif.Model.WordVector
import Verif.Model.Lexvec

/-! # The sequential part of `Train`: everything before the first training iteration

`pkg/model/word2vec/word2vec.go:74-123`, `pkg/model/glove/glove.go:68-107`, `pkg/model/lexvec/lexvec.go:73-101` with
`train`/`batchTrain` up to the loop over iterations. The iterations themselves are in `Verif/Model/Concurrency.lean`
(goroutines) and `Verif/Model/{Word2vec,Glove,Lexvec}.lean` (one step).

`rand.Float64()` of `math/rand` is a function `r` on an arbitrary generator state `σ`. Progress output not modelled. -/

namespace Wego
variable {F : Type} {σ : Type}

/-- `for i := 0; i < n; i++ { vec[i] = f(rand.Float64()) }` -/
def randFill (r : σ → F × σ) (f : F → F) : Nat → σ → List F × σ
  | 0, s => ([], s)
  | n + 1, s =>
    let x := r s
    let y := randFill r f n x.2
    (f x.1 :: y.1, y.2)

section
variable [GoFloat F]

/-- `word2vec.go:87-95`, `optimizer.go:37-45`, `lexvec.go:93-101`: `(rand.Float64() - 0.5) / float64(dim)` -/
def initValue (dim : Int) (x : F) : F := (x -. GoFloat.ofRat (1 / 2)) /. GoFloat.ofRat (dim : ℚ)

/-- `matrix.New(rows, dim, ...)` filled with random values -/
def randMatrix (r : σ → F × σ) (f : F → F) (rows : Int) (col : Int) (s : σ) : Res (Matrix F × σ) :=
  Matrix.new rows col (fun _ _ s => randFill r f col.toNat s) s

/-- the options both corpora are created with -/
def W2VOptions.corpus (o : W2VOptions F) (lower : Word → Word) : CorpusCfg := ⟨o.toLower, lower, o.maxCount, o.minCount⟩

/-- the options both corpora are created with -/
def GloveOptions.corpus (o : GloveOptions F) (lower : Word → Word) : CorpusCfg := ⟨o.toLower, lower, o.maxCount, o.minCount⟩

/-- the options both corpora are created with -/
def LexvecOptions.corpus (o : LexvecOptions F) (lower : Word → Word) : CorpusCfg := ⟨o.toLower, lower, o.maxCount, o.minCount⟩

/-- `word2vec.go:75-83`, `glove.go:69-85`, `lexvec.go:74-90`: create the corpus and load it; `p1`, `p2` are the reading passes. -/
def loadCorpus (inMemory : Bool) (cfg : CorpusCfg) (p1 p2 : Pass) (w : Option WithCooccurrence) : Res (CorpusState F) :=
  if inMemory then memLoad cfg p1 w else fsLoad cfg p1 p2 w

/-- `model.go:37-46`, `90-102`: `make(chan, Goroutines)`, then as many buffers of `Dim` values -/
def newBuffers (goroutines dim : Int) : Res Unit :=
  if goroutines < 0 then .panic .makeNegLen
  else if 0 < goroutines ∧ dim < 0 then .panic .makeNegLen
  else .ok ()

/-- a word2vec model when its training loop starts -/
structure W2VModel (F : Type) where
  corpus : CorpusState F
  param : Matrix F
  samples : List F
  skipGram : Bool
  opt : W2VOptimizer F

/-- a GloVe model when its training loop starts; `gradsq` only for AdaGrad -/
structure GloveModel (F : Type) where
  corpus : CorpusState F
  param : Matrix F
  gradsq : Option (Matrix F)

/-- a LexVec model when its training loop starts -/
structure LexModel (F : Type) where
  corpus : CorpusState F
  param : Matrix F
  samples : List F
  items : GoMap (BitVec 64) F

/-- `glove.go:68-108`: `Train` up to `g.train()` -/
def gloveSetup (lower : Word → Word) (r : σ → F × σ) (o : GloveOptions F) (p1 p2 : Pass) (s : σ) : Res (GloveModel F × σ) :=
  loadCorpus o.docInMemory (o.corpus lower) p1 p2 (some ⟨String.ofList o.countType, o.window⟩) >>= fun c =>
  randMatrix r (fun x => x /. GoFloat.ofRat (o.dim : ℚ)) ((c.dic.len : Int) * 2) (o.dim + 1) s >>= fun ps =>
  if o.solverType = "sgd".toList then .ok (⟨c, ps.1, none⟩, ps.2)
  else if o.solverType = "adagrad".toList then
    adaGradsq c.dic.len o.dim >>= fun g => .ok (⟨c, ps.1, some g⟩, ps.2)
  else .err .invalidSolver

end

section
variable [GoMath F]

/-- `word2vec.go:74-123`: `Train` up to `w.train()` / `w.batchTrain()` -/
def w2vSetup (lower : Word → Word) (r : σ → F × σ) (o : W2VOptions F) (p1 p2 : Pass) (s : σ) : Res (W2VModel F × σ) :=
  loadCorpus o.docInMemory (o.corpus lower) p1 p2 none >>= fun c =>
  randMatrix r (initValue o.dim) c.dic.len o.dim s >>= fun ps =>
  subsamples c.dic o.subsampleThreshold >>= fun samples =>
  (if o.modelType = "skipgram".toList then newBuffers o.goroutines o.dim >>= fun _ => .ok true
   else if o.modelType = "cbow".toList then newBuffers o.goroutines o.dim >>= fun _ => .ok false
   else .err .invalidModel) >>= fun sg =>
  if o.optimizerType = "ns".toList then
    randMatrix r (initValue o.dim) c.dic.len o.dim ps.2 >>= fun cs =>
    .ok (⟨c, ps.1, samples, sg, .ns ⟨cs.1, sigTable, o.negativeSampleSize⟩⟩, cs.2)
  else if o.optimizerType = "hs".toList then
    huffmanTree c.dic o.dim >>= fun t =>
    .ok (⟨c, ps.1, samples, sg, .hs ⟨sigTable, t.1, t.2, o.maxDepth⟩⟩, ps.2)
  else .err .invalidOptimizer

/-- `lexvec.go:73-101`, `117-120`, `148-151`: `Train` up to the loop over iterations; `enum` is the order in which Go
enumerates the co-occurrence map. -/
def lexSetup (lower : Word → Word) (enum : GoMap (BitVec 64) F → List (BitVec 64 × F)) (r : σ → F × σ) (o : LexvecOptions F)
    (p1 p2 : Pass) (s : σ) : Res (LexModel F × σ) :=
  loadCorpus o.docInMemory (o.corpus lower) p1 p2 (some ⟨countInc, o.window⟩) >>= fun c =>
  randMatrix r (initValue o.dim) ((c.dic.len : Int) * 2) o.dim s >>= fun ps =>
  subsamples c.dic o.subsampleThreshold >>= fun samples =>
  match c.cooc with
  | none => .panic .nilDeref
  | some co =>
    lexItems c.dic c.maxLen o.smooth (String.ofList o.relationType) (enum co.encodedMatrix) >>= fun items =>
    .ok (⟨c, ps.1, samples, items⟩, ps.2)

end
end Wego
