import Verif.Model.TrainSys
import Verif.Model.Vector
import Verif.Model.Cmd

/-! # Whole runs of `Train` and `Save`, and the training commands on top of them

`Verif/Model/Train.lean` is `Train` before its loop, `Verif/Model/TrainSys.lean` the goroutines of an iteration. Here: the whole method, as the set of results that
some schedule can lead to, and what the commands do with it. The reader delivers the same text in every pass (`p`). -/

namespace Wego
variable {F : Type} {σ : Type}

/-- a goroutine that is running has panicked -/
def Pool.Panicked (s : Pool F) (x : Panic) : Prop := Prog.panic x ∈ s.obs ++ s.run

/-- a goroutine panics in some iteration (see `Pool.Iters`) -/
inductive Pool.ItersPanic (env : MemEnv F) (g : Nat) (x : Panic) : Mem F → List (Prog F Unit) → List (Prog F Unit × List (Prog F Unit)) → Prop
  | here (m : Mem F) (obs : List (Prog F Unit)) (ob : Prog F Unit) (ws : List (Prog F Unit)) (rest : List (Prog F Unit × List (Prog F Unit))) (s : Pool F)
      (h : Pool.Reach env g ⟨m, ob :: obs, ws, []⟩ s) (hs : s.Panicked x) : ItersPanic env g x m obs ((ob, ws) :: rest)
  | later (m m' : Mem F) (obs obs' : List (Prog F Unit)) (ob : Prog F Unit) (ws : List (Prog F Unit)) (rest : List (Prog F Unit × List (Prog F Unit)))
      (h : Pool.Reach env g ⟨m, ob :: obs, ws, []⟩ ⟨m', obs', [], []⟩) (hr : ItersPanic env g x m' obs' rest) : ItersPanic env g x m obs ((ob, ws) :: rest)

/-- `word2vec.go:74-180` `Train`: the results of the executions that end. `next` is the generator variable of `modelutil` at the start, `s` the state of `math/rand`
for the initial values. `producerPanic`: `BatchWords` panics in its goroutine; when it returns an error the iteration never ends (C39). In memory the slices are made before the loop (`139`), file-backed each iteration reads the batches again (`166`): the same ones. -/
inductive W2VTrain [GoMath F] (env : MemEnv F) (lower : Word → Word) (r : σ → F × σ) (o : W2VOptions F) (p : Pass) (s : σ) (next : UInt64) : Res (W2VModel F) → Prop
  | setupErr (e : Err) (h : w2vSetup lower r o p p s = .err e) : W2VTrain env lower r o p s next (.err e)
  | setupPanic (x : Panic) (h : w2vSetup lower r o p p s = .panic x) : W2VTrain env lower r o p s next (.panic x)
  | slicePanic (M : W2VModel F) (s' : σ) (x : Panic) (h : w2vSetup lower r o p p s = .ok (M, s'))
      (hd : workerDocs o.docInMemory (o.corpus lower) M.corpus p o.goroutines o.batchSize = .panic x) : W2VTrain env lower r o p s next (.panic x)
  | panics (M : W2VModel F) (s' : σ) (docs : List (List Nat)) (x : Panic) (h : w2vSetup lower r o p p s = .ok (M, s'))
      (hd : workerDocs o.docInMemory (o.corpus lower) M.corpus p o.goroutines o.batchSize = .ok docs)
      (hi : Pool.ItersPanic env o.goroutines.toNat x (M.mem o next) [] (List.replicate o.iter.toNat (w2vRound M o docs))) : W2VTrain env lower r o p s next (.panic x)
  | producerPanic (M : W2VModel F) (s' : σ) (b : BatchState) (x : Panic) (h : w2vSetup lower r o p p s = .ok (M, s')) (hm : o.docInMemory = false) (hi : 1 ≤ o.iter)
      (hp : fsBatchWords (o.corpus lower) M.corpus.dic p o.batchSize = (b, .crash x)) : W2VTrain env lower r o p s next (.panic x)
  | done (M : W2VModel F) (s' : σ) (docs : List (List Nat)) (mem : Mem F) (h : w2vSetup lower r o p p s = .ok (M, s'))
      (hp : o.docInMemory = true ∨ o.iter ≤ 0 ∨ (fsBatchWords (o.corpus lower) M.corpus.dic p o.batchSize).2 = .next)
      (hd : workerDocs o.docInMemory (o.corpus lower) M.corpus p o.goroutines o.batchSize = .ok docs)
      (hi : Pool.Iters env o.goroutines.toNat (M.mem o next) [] (List.replicate o.iter.toNat (w2vRound M o docs)) mem) : W2VTrain env lower r o p s next (.ok (M.after o mem))

/-- `lexvec.go:73-171` `Train`; `chanPanic`: `make(chan []int, Goroutines)` (`lexvec.go:160`) before the producer
and the workers start; the observer has nothing to do. In word2vec the set-up already panics on negative `Goroutines`. -/
inductive LexTrain [GoMath F] (env : MemEnv F) (lower : Word → Word) (enum : GoMap (BitVec 64) F → List (BitVec 64 × F)) (r : σ → F × σ) (o : LexvecOptions F) (p : Pass)
    (s : σ) (next : UInt64) : Res (LexModel F) → Prop
  | setupErr (e : Err) (h : lexSetup lower enum r o p p s = .err e) : LexTrain env lower enum r o p s next (.err e)
  | setupPanic (x : Panic) (h : lexSetup lower enum r o p p s = .panic x) : LexTrain env lower enum r o p s next (.panic x)
  | slicePanic (M : LexModel F) (s' : σ) (x : Panic) (h : lexSetup lower enum r o p p s = .ok (M, s'))
      (hd : workerDocs o.docInMemory (o.corpus lower) M.corpus p o.goroutines o.batchSize = .panic x) : LexTrain env lower enum r o p s next (.panic x)
  | panics (M : LexModel F) (s' : σ) (docs : List (List Nat)) (x : Panic) (h : lexSetup lower enum r o p p s = .ok (M, s'))
      (hd : workerDocs o.docInMemory (o.corpus lower) M.corpus p o.goroutines o.batchSize = .ok docs)
      (hi : Pool.ItersPanic env o.goroutines.toNat x (M.mem o next) [] (List.replicate o.iter.toNat (lexRound M o docs))) (hc : o.docInMemory = true ∨ o.iter ≤ 0 ∨ 0 ≤ o.goroutines) : LexTrain env lower enum r o p s next (.panic x)
  | chanPanic (M : LexModel F) (s' : σ) (h : lexSetup lower enum r o p p s = .ok (M, s')) (hm : o.docInMemory = false) (hi : 1 ≤ o.iter) (hg : o.goroutines < 0) :
      LexTrain env lower enum r o p s next (.panic .makeNegLen)
  | producerPanic (M : LexModel F) (s' : σ) (b : BatchState) (x : Panic) (h : lexSetup lower enum r o p p s = .ok (M, s')) (hm : o.docInMemory = false) (hi : 1 ≤ o.iter)
      (hp : fsBatchWords (o.corpus lower) M.corpus.dic p o.batchSize = (b, .crash x)) (hc : 0 ≤ o.goroutines) : LexTrain env lower enum r o p s next (.panic x)
  | done (M : LexModel F) (s' : σ) (docs : List (List Nat)) (mem : Mem F) (h : lexSetup lower enum r o p p s = .ok (M, s'))
      (hp : o.docInMemory = true ∨ o.iter ≤ 0 ∨ (fsBatchWords (o.corpus lower) M.corpus.dic p o.batchSize).2 = .next)
      (hd : workerDocs o.docInMemory (o.corpus lower) M.corpus p o.goroutines o.batchSize = .ok docs)
      (hi : Pool.Iters env o.goroutines.toNat (M.mem o next) [] (List.replicate o.iter.toNat (lexRound M o docs)) mem) (hc : o.docInMemory = true ∨ o.iter ≤ 0 ∨ 0 ≤ o.goroutines) : LexTrain env lower enum r o p s next (.ok (M.after o mem))

/-- `glove.go:110-135`: one iteration; the observer only prints (`glove.go:162-176`) -/
def gloveIter [GoFloat F] (M : GloveModel F) (o : GloveOptions F) (slices : List (List (GItem F))) : Prog F Unit × List (Prog F Unit) :=
  (.ret (), slices.map (gloveWorkerP (M.step o) M.corpus.dic.len))

/-- `glove.go:68-135` `Train` -/
inductive GloveTrain [GoMath F] (env : MemEnv F) (lower : Word → Word) (enum : GoMap (BitVec 64) F → List (BitVec 64 × F)) (r : σ → F × σ) (o : GloveOptions F) (p : Pass)
    (s : σ) (next : UInt64) : Res (GloveModel F) → Prop
  | setupErr (e : Err) (h : gloveSetup lower r o p p s = .err e) : GloveTrain env lower enum r o p s next (.err e)
  | setupPanic (x : Panic) (h : gloveSetup lower r o p p s = .panic x) : GloveTrain env lower enum r o p s next (.panic x)
  | slicePanic (M : GloveModel F) (s' : σ) (x : Panic) (h : gloveSetup lower r o p p s = .ok (M, s')) (hd : gloveSlices M o enum = .panic x) :
      GloveTrain env lower enum r o p s next (.panic x)
  | panics (M : GloveModel F) (s' : σ) (slices : List (List (GItem F))) (x : Panic) (h : gloveSetup lower r o p p s = .ok (M, s')) (hd : gloveSlices M o enum = .ok slices)
      (hi : Pool.ItersPanic env o.goroutines.toNat x (M.mem next) [] (List.replicate o.iter.toNat (gloveIter M o slices))) : GloveTrain env lower enum r o p s next (.panic x)
  | done (M : GloveModel F) (s' : σ) (slices : List (List (GItem F))) (mem : Mem F) (h : gloveSetup lower r o p p s = .ok (M, s')) (hd : gloveSlices M o enum = .ok slices)
      (hi : Pool.Iters env o.goroutines.toNat (M.mem next) [] (List.replicate o.iter.toNat (gloveIter M o slices)) mem) : GloveTrain env lower enum r o p s next (.ok (M.after o mem))

/-- `execute` line 94 with `Save` (`word2vec.go:229-231`, `glove.go:177-179`, `lexvec.go:256-258`, `vector.go:41-68`) on the file opened for output: the text it ends up with.
Simplification: every write of the file succeeds (otherwise see C51). A panic of `WordVector` or `Save` ends the process. -/
def saveOutcome (dic : Dictionary) (wv : Res (Matrix F64)) (verbose : Bool) (logBatch : Int) : TrainOutcome :=
  match wv >>= fun m => saveText dic m verbose logBatch with
  | .ok text => .saved text (.ok ())
  | .err e => .saved [] (.err e)
  | .panic x => .trainPanic x

/-- `execute` lines 87-94 of `cmd/model/word2vec/word2vec.go` -/
def w2vOutcome (o : W2VOptions F64) (typ : Word) : Res (W2VModel F64) → TrainOutcome
  | .err e => .trainErr e
  | .panic x => .trainPanic x
  | .ok N => saveOutcome N.corpus.dic (w2vWordVector N.corpus.dic.len o.dim N.param N.opt typ) o.verbose o.logBatch

/-- `execute` lines 87-94 of `cmd/model/lexvec/lexvec.go` -/
def lexOutcome (o : LexvecOptions F64) (typ : Word) : Res (LexModel F64) → TrainOutcome
  | .err e => .trainErr e
  | .panic x => .trainPanic x
  | .ok N => saveOutcome N.corpus.dic (lexWordVector N.corpus.dic.len o.dim N.param typ) o.verbose o.logBatch

/-- `execute` lines 87-94 of `cmd/model/glove/glove.go` -/
def gloveOutcome (o : GloveOptions F64) (typ : Word) : Res (GloveModel F64) → TrainOutcome
  | .err e => .trainErr e
  | .panic x => .trainPanic x
  | .ok N => saveOutcome N.corpus.dic (gloveWordVector N.corpus.dic.len o.dim N.param typ) o.verbose o.logBatch

end Wego
