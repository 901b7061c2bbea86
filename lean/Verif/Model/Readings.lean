import Verif.Model.TrainCmd

/-! # `Train` when the readings of a file-backed corpus need not find the same text

`Verif/Model/TrainCmd.lean` gives every reading of the input the same text. `ReadWord` and `ReadWordWithForwardContext` (`pkg/corpus/cpsutil/cpsutil.go:30-44`, `46-94`)
first call `r.Seek(0, 0)` and ignore what it returns: a reader that cannot seek (a pipe) delivers in a later reading what it has left, and a file can be written to between
two readings. Here the readings are given one by one: `p1`, `p2` for `Load`, then one of `qs` for each iteration. `DocInMemory = false` throughout; the number of iterations
is `qs.length`. -/

namespace Wego
variable {F : Type} {σ : Type}

/-- `fs.go:58-85` `BatchWords` in one iteration: the batches it sends when the reading finds `q` -/
def readBatches [GoFloat F] (cfg : CorpusCfg) (c : CorpusState F) (q : Pass) (batchSize : Int) : List (List Nat) :=
  sentBatches (fsBatchWords cfg c.dic q batchSize).1.out

/-- `word2vec.go:74-133`, `161-180`: `Train`, file-backed; the results of the executions that end. `p` is what `Load` reads. An iteration whose reading returns an error never ends (C39),
so the readings before the last are complete. -/
inductive W2VReads [GoMath F] (env : MemEnv F) (lower : Word → Word) (r : σ → F × σ) (o : W2VOptions F) (p : Pass) (qs : List Pass) (s : σ) (next : UInt64) :
    Res (W2VModel F) → Prop
  | setupErr (e : Err) (h : w2vSetup lower r o p p s = .err e) : W2VReads env lower r o p qs s next (.err e)
  | setupPanic (x : Panic) (h : w2vSetup lower r o p p s = .panic x) : W2VReads env lower r o p qs s next (.panic x)
  | panics (M : W2VModel F) (s' : σ) (x : Panic) (before : List Pass) (q : Pass) (after : List Pass) (hq : qs = before ++ q :: after)
      (h : w2vSetup lower r o p p s = .ok (M, s')) (hp : ∀ q ∈ before, (fsBatchWords (o.corpus lower) M.corpus.dic q o.batchSize).2 = .next)
      (hi : Pool.ItersPanic env o.goroutines.toNat x (M.mem o next) [] ((before ++ [q]).map (fun q => w2vRound M o (readBatches (o.corpus lower) M.corpus q o.batchSize)))) :
      W2VReads env lower r o p qs s next (.panic x)
  | producerPanic (M : W2VModel F) (s' : σ) (x : Panic) (before : List Pass) (q : Pass) (after : List Pass) (b : BatchState) (mem : Mem F) (hq : qs = before ++ q :: after)
      (h : w2vSetup lower r o p p s = .ok (M, s')) (hp : ∀ q ∈ before, (fsBatchWords (o.corpus lower) M.corpus.dic q o.batchSize).2 = .next)
      (hi : Pool.Iters env o.goroutines.toNat (M.mem o next) [] (before.map (fun q => w2vRound M o (readBatches (o.corpus lower) M.corpus q o.batchSize))) mem)
      (hb : fsBatchWords (o.corpus lower) M.corpus.dic q o.batchSize = (b, .crash x)) : W2VReads env lower r o p qs s next (.panic x)
  | done (M : W2VModel F) (s' : σ) (mem : Mem F) (h : w2vSetup lower r o p p s = .ok (M, s'))
      (hp : ∀ q ∈ qs, (fsBatchWords (o.corpus lower) M.corpus.dic q o.batchSize).2 = .next)
      (hi : Pool.Iters env o.goroutines.toNat (M.mem o next) [] (qs.map (fun q => w2vRound M o (readBatches (o.corpus lower) M.corpus q o.batchSize))) mem) :
      W2VReads env lower r o p qs s next (.ok (M.after o mem))

/-- `lexvec.go:73-114`, `147-171`: the same for LexVec, whose `Load` reads twice (`fs.go:99-155`). -/
inductive LexReads [GoMath F] (env : MemEnv F) (lower : Word → Word) (enum : GoMap (BitVec 64) F → List (BitVec 64 × F)) (r : σ → F × σ) (o : LexvecOptions F)
    (p1 p2 : Pass) (qs : List Pass) (s : σ) (next : UInt64) : Res (LexModel F) → Prop
  | setupErr (e : Err) (h : lexSetup lower enum r o p1 p2 s = .err e) : LexReads env lower enum r o p1 p2 qs s next (.err e)
  | setupPanic (x : Panic) (h : lexSetup lower enum r o p1 p2 s = .panic x) : LexReads env lower enum r o p1 p2 qs s next (.panic x)
  | chanPanic (M : LexModel F) (s' : σ) (h : lexSetup lower enum r o p1 p2 s = .ok (M, s')) (hq : qs ≠ []) (hg : o.goroutines < 0) :
      LexReads env lower enum r o p1 p2 qs s next (.panic .makeNegLen)
  | panics (M : LexModel F) (s' : σ) (x : Panic) (before : List Pass) (q : Pass) (after : List Pass) (hq : qs = before ++ q :: after) (hg : 0 ≤ o.goroutines)
      (h : lexSetup lower enum r o p1 p2 s = .ok (M, s')) (hp : ∀ q ∈ before, (fsBatchWords (o.corpus lower) M.corpus.dic q o.batchSize).2 = .next)
      (hi : Pool.ItersPanic env o.goroutines.toNat x (M.mem o next) [] ((before ++ [q]).map (fun q => lexRound M o (readBatches (o.corpus lower) M.corpus q o.batchSize)))) :
      LexReads env lower enum r o p1 p2 qs s next (.panic x)
  | producerPanic (M : LexModel F) (s' : σ) (x : Panic) (before : List Pass) (q : Pass) (after : List Pass) (b : BatchState) (mem : Mem F) (hq : qs = before ++ q :: after)
      (hg : 0 ≤ o.goroutines) (h : lexSetup lower enum r o p1 p2 s = .ok (M, s')) (hp : ∀ q ∈ before, (fsBatchWords (o.corpus lower) M.corpus.dic q o.batchSize).2 = .next)
      (hi : Pool.Iters env o.goroutines.toNat (M.mem o next) [] (before.map (fun q => lexRound M o (readBatches (o.corpus lower) M.corpus q o.batchSize))) mem)
      (hb : fsBatchWords (o.corpus lower) M.corpus.dic q o.batchSize = (b, .crash x)) : LexReads env lower enum r o p1 p2 qs s next (.panic x)
  | done (M : LexModel F) (s' : σ) (mem : Mem F) (h : lexSetup lower enum r o p1 p2 s = .ok (M, s')) (hg : qs = [] ∨ 0 ≤ o.goroutines)
      (hp : ∀ q ∈ qs, (fsBatchWords (o.corpus lower) M.corpus.dic q o.batchSize).2 = .next)
      (hi : Pool.Iters env o.goroutines.toNat (M.mem o next) [] (qs.map (fun q => lexRound M o (readBatches (o.corpus lower) M.corpus q o.batchSize))) mem) :
      LexReads env lower enum r o p1 p2 qs s next (.ok (M.after o mem))

/-- `glove.go:68-135`: GloVe reads only in `Load`, twice. -/
inductive GloveReads [GoMath F] (env : MemEnv F) (lower : Word → Word) (enum : GoMap (BitVec 64) F → List (BitVec 64 × F)) (r : σ → F × σ) (o : GloveOptions F)
    (p1 p2 : Pass) (s : σ) (next : UInt64) : Res (GloveModel F) → Prop
  | setupErr (e : Err) (h : gloveSetup lower r o p1 p2 s = .err e) : GloveReads env lower enum r o p1 p2 s next (.err e)
  | setupPanic (x : Panic) (h : gloveSetup lower r o p1 p2 s = .panic x) : GloveReads env lower enum r o p1 p2 s next (.panic x)
  | slicePanic (M : GloveModel F) (s' : σ) (x : Panic) (h : gloveSetup lower r o p1 p2 s = .ok (M, s')) (hd : gloveSlices M o enum = .panic x) :
      GloveReads env lower enum r o p1 p2 s next (.panic x)
  | panics (M : GloveModel F) (s' : σ) (slices : List (List (GItem F))) (x : Panic) (h : gloveSetup lower r o p1 p2 s = .ok (M, s')) (hd : gloveSlices M o enum = .ok slices)
      (hi : Pool.ItersPanic env o.goroutines.toNat x (M.mem next) [] (List.replicate o.iter.toNat (gloveIter M o slices))) : GloveReads env lower enum r o p1 p2 s next (.panic x)
  | done (M : GloveModel F) (s' : σ) (slices : List (List (GItem F))) (mem : Mem F) (h : gloveSetup lower r o p1 p2 s = .ok (M, s')) (hd : gloveSlices M o enum = .ok slices)
      (hi : Pool.Iters env o.goroutines.toNat (M.mem next) [] (List.replicate o.iter.toNat (gloveIter M o slices)) mem) :
      GloveReads env lower enum r o p1 p2 s next (.ok (M.after o mem))

end Wego
