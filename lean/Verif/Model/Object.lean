import Verif.Model.TrainCmd

/-! # The model objects and histories of calls on them

`model.Model` (`pkg/model/model.go:26-30`) is an object with mutable fields on which `Train`, `WordVector` and `Save` can be called in any order, any number
of times. `Verif/Model/TrainCmd.lean` has one `Train` on a new object; here: the fields, what every call does to them - also when it returns an error - and
histories of calls. -/

namespace Wego
variable {F : Type} {σ : Type}

/-- The fields that methods read before they assign them: `word2vec.go:39-51`, `glove.go:38-46`, `lexvec.go:42-50`. `none` is nil. `opt` only for word2vec, `lr` (`currentlr`)
only for word2vec and LexVec. The other fields (`subsampler`, `mod`, `solver`) are assigned by `Train` before their first use and read by nothing but training. -/
structure ModelObj (F : Type) where
  corpus : Option (CorpusState F)
  param : Option (Matrix F)
  opt : Option (W2VOptimizer F)
  lr : F

/-- `word2vec.go:62-72`, `glove.go:58-66`, `lexvec.go:62-71` `NewForOptions` -/
def ModelObj.new (initlr : F) : ModelObj F := ⟨none, none, none, initlr⟩

section
variable [GoFloat F]

/-- `memory.go:83-138` `Load`: the corpus object when it returns, and how. Simplification: after an error in the co-occurrence loops `cooc` is nil instead of partly
filled (nothing reads it then). -/
def memLoadState (cfg : CorpusCfg) (p : Pass) (w : Option WithCooccurrence) : CorpusState F × Ctl :=
  thenDo (readWord p (fun word c => liftCtl c (memReadCb cfg word c)) CorpusState.init) fun c =>
  match w with
  | none => (c, .next)
  | some w => liftCtl c (Cooccurrence.new w.countType >>= fun co => memPairs c.idoc w.window co >>= fun co => .ok { c with cooc := some co })

/-- `fs.go:99-155` `Load`, likewise -/
def fsLoadState (cfg : CorpusCfg) (p1 p2 : Pass) (w : Option WithCooccurrence) : CorpusState F × Ctl :=
  thenDo (readWord p1 (fun word c => liftCtl c (fsReadCb cfg word c)) CorpusState.init) fun c =>
  match w with
  | none => (c, .next)
  | some w => liftCtl c (Cooccurrence.new w.countType >>= fun co =>
      ctlRes (readWordWithForwardContext p2 w.window (fsPairCb c.dic) co) >>= fun co => .ok { c with cooc := some co })

/-- `word2vec.go:75-81`, `glove.go:69-83`, `lexvec.go:74-88` -/
def loadState (inMemory : Bool) (cfg : CorpusCfg) (p1 p2 : Pass) (w : Option WithCooccurrence) : CorpusState F × Ctl :=
  if inMemory then memLoadState cfg p1 w else fsLoadState cfg p1 p2 w

/-- `m.Slice(row)[i]` where `m` may be nil -/
def optAt (m : Option (Matrix F)) (row : Int) (i : Nat) : Res F :=
  match m with
  | none => .panic .nilDeref
  | some m => m.getAt row i

/-- `word2vec.go:233-255` `WordVector(typ)` on an object; a nil `optimizer` is no `*negativeSampling` -/
def w2vObjVector (dim : Int) (x : ModelObj F) (typ : Word) : Res (Matrix F) :=
  match x.corpus with
  | none => .panic .nilDeref
  | some c =>
    match x.opt with
    | some (.ns ng) =>
      if typ = vecAgg then
        Matrix.newRes c.dic.len dim (fun row vec => fillRow dim (fun i => optAt x.param row i >>= fun a => ng.ctx.getAt row i >>= fun b => .ok (a +. b)) vec)
      else Matrix.newRes c.dic.len dim (fun row vec => fillRow dim (fun i => optAt x.param row i) vec)
    | _ => Matrix.newRes c.dic.len dim (fun row vec => fillRow dim (fun i => optAt x.param row i) vec)

/-- `glove.go:181-202`, `lexvec.go:260-282` `WordVector(typ)` on an object -/
def objVector (dim : Int) (x : ModelObj F) (typ : Word) : Res (Matrix F) :=
  match x.corpus with
  | none => .panic .nilDeref
  | some c =>
    if typ = vecAgg then Matrix.newRes c.dic.len dim (fun row vec => fillRow dim (fun i => optAt x.param row i) vec)
    else Matrix.newRes c.dic.len dim (fun row vec => fillRow dim (fun i =>
      optAt x.param row i >>= fun a => optAt x.param (row + c.dic.len : Int) i >>= fun b => .ok (a +. b)) vec)

/-- `word2vec.go:229-231`, `glove.go:177-179`, `lexvec.go:256-258` `Save(f, typ)` on an object: the text written to `f`; `wv` is `WordVector(typ)`.
Simplification: every write succeeds (else see C51). -/
def objSave (x : ModelObj F64) (wv : Res (Matrix F64)) (verbose : Bool) (logBatch : Int) : Res (List Char) :=
  match x.corpus with
  | none => .panic .nilDeref
  | some c => wv >>= fun m => saveText c.dic m verbose logBatch

/-- `glove.go:68-108`: `Train` up to `g.train()`, on an object: its fields then, and the result -/
def gloveSetupObj (lower : Word → Word) (r : σ → F × σ) (o : GloveOptions F) (p1 p2 : Pass) (s : σ) (x : ModelObj F) : ModelObj F × Res (GloveModel F × σ) :=
  let ld := loadState o.docInMemory (o.corpus lower) p1 p2 (some ⟨String.ofList o.countType, o.window⟩)
  let x := { x with corpus := some ld.1 }
  match ctlRes ld with
  | .err e => (x, .err e)
  | .panic q => (x, .panic q)
  | .ok c =>
    match randMatrix r (fun x => x /. GoFloat.ofRat (o.dim : ℚ)) ((c.dic.len : Int) * 2) (o.dim + 1) s with
    | .err e => (x, .err e)
    | .panic q => (x, .panic q)
    | .ok ps =>
      let x := { x with param := some ps.1 }
      (x,
        if o.solverType = "sgd".toList then .ok (⟨c, ps.1, none⟩, ps.2)
        else if o.solverType = "adagrad".toList then
          adaGradsq c.dic.len o.dim >>= fun g => .ok (⟨c, ps.1, some g⟩, ps.2)
        else .err .invalidSolver)

end

section
variable [GoMath F]

/-- `word2vec.go:74-123`: `Train` up to `w.train()` / `w.batchTrain()`, on an object -/
def w2vSetupObj (lower : Word → Word) (r : σ → F × σ) (o : W2VOptions F) (p1 p2 : Pass) (s : σ) (x : ModelObj F) : ModelObj F × Res (W2VModel F × σ) :=
  let ld := loadState o.docInMemory (o.corpus lower) p1 p2 none
  let x := { x with corpus := some ld.1 }
  match ctlRes ld with
  | .err e => (x, .err e)
  | .panic q => (x, .panic q)
  | .ok c =>
    match randMatrix r (initValue o.dim) c.dic.len o.dim s with
    | .err e => (x, .err e)
    | .panic q => (x, .panic q)
    | .ok ps =>
      let x := { x with param := some ps.1 }
      match subsamples c.dic o.subsampleThreshold >>= fun samples =>
          (if o.modelType = "skipgram".toList then newBuffers o.goroutines o.dim >>= fun _ => .ok true
           else if o.modelType = "cbow".toList then newBuffers o.goroutines o.dim >>= fun _ => .ok false
           else .err .invalidModel) >>= fun sg =>
          (if o.optimizerType = "ns".toList then
            randMatrix r (initValue o.dim) c.dic.len o.dim ps.2 >>= fun cs =>
            .ok (⟨c, ps.1, samples, sg, .ns ⟨cs.1, sigTable, o.negativeSampleSize⟩⟩, cs.2)
          else if o.optimizerType = "hs".toList then
            huffmanTree c.dic o.dim >>= fun t =>
            .ok (⟨c, ps.1, samples, sg, .hs ⟨sigTable, t.1, t.2, o.maxDepth⟩⟩, ps.2)
          else .err .invalidOptimizer : Res (W2VModel F × σ)) with
      | .err e => (x, .err e)
      | .panic q => (x, .panic q)
      | .ok M => ({ x with opt := some M.1.opt }, .ok M)

/-- `lexvec.go:73-101`, `117-120`, `148-151`: `Train` up to the loop over iterations, on an object -/
def lexSetupObj (lower : Word → Word) (enum : GoMap (BitVec 64) F → List (BitVec 64 × F)) (r : σ → F × σ) (o : LexvecOptions F) (p1 p2 : Pass) (s : σ)
    (x : ModelObj F) : ModelObj F × Res (LexModel F × σ) :=
  let ld := loadState o.docInMemory (o.corpus lower) p1 p2 (some ⟨countInc, o.window⟩)
  let x := { x with corpus := some ld.1 }
  match ctlRes ld with
  | .err e => (x, .err e)
  | .panic q => (x, .panic q)
  | .ok c =>
    match randMatrix r (initValue o.dim) ((c.dic.len : Int) * 2) o.dim s with
    | .err e => (x, .err e)
    | .panic q => (x, .panic q)
    | .ok ps =>
      let x := { x with param := some ps.1 }
      (x, subsamples c.dic o.subsampleThreshold >>= fun samples =>
        match c.cooc with
        | none => .panic .nilDeref
        | some co =>
          lexItems c.dic c.maxLen o.smooth (String.ofList o.relationType) (enum co.encodedMatrix) >>= fun items =>
          .ok (⟨c, ps.1, samples, items⟩, ps.2))

end

/-- What an observer left over from an earlier `Train` may do: loads and stores of `currentlr`. (`Train` does not wait for observers, `word2vec.go:155-156`, `lexvec.go:141-142`;
such an observer divides by the length of the corpus that the object has then.) -/
def Prog.Late : Prog F Unit → Prop
  | .ret _ => True
  | .load l k => l = .lr ∧ ∀ v, (k v).Late
  | .store l _ k => l = .lr ∧ k.Late
  | _ => False

/-- `word2vec.go:74-180` `Train` on an object: what an execution that ends leaves in the fields, and its result (a panic ends the process). `late` are the observers of
earlier calls that still run. -/
inductive W2VObjTrain [GoMath F] (env : MemEnv F) (lower : Word → Word) (r : σ → F × σ) (o : W2VOptions F) (late : List (Prog F Unit)) (x : ModelObj F) (p : Pass) (s : σ)
    (next : UInt64) : ModelObj F → Res Unit → Prop
  | setupErr (e : Err) (h : (w2vSetupObj lower r o p p s x).2 = .err e) : W2VObjTrain env lower r o late x p s next (w2vSetupObj lower r o p p s x).1 (.err e)
  | setupPanic (q : Panic) (h : (w2vSetupObj lower r o p p s x).2 = .panic q) : W2VObjTrain env lower r o late x p s next (w2vSetupObj lower r o p p s x).1 (.panic q)
  | slicePanic (M : W2VModel F) (s' : σ) (q : Panic) (h : (w2vSetupObj lower r o p p s x).2 = .ok (M, s'))
      (hd : workerDocs o.docInMemory (o.corpus lower) M.corpus p o.goroutines o.batchSize = .panic q) :
      W2VObjTrain env lower r o late x p s next (w2vSetupObj lower r o p p s x).1 (.panic q)
  | panics (M : W2VModel F) (s' : σ) (docs : List (List Nat)) (q : Panic) (h : (w2vSetupObj lower r o p p s x).2 = .ok (M, s'))
      (hd : workerDocs o.docInMemory (o.corpus lower) M.corpus p o.goroutines o.batchSize = .ok docs)
      (hi : Pool.ItersPanic env o.goroutines.toNat q ((M.mem o next).set .lr x.lr) late (List.replicate o.iter.toNat (w2vRound M o docs))) :
      W2VObjTrain env lower r o late x p s next (w2vSetupObj lower r o p p s x).1 (.panic q)
  | producerPanic (M : W2VModel F) (s' : σ) (b : BatchState) (q : Panic) (h : (w2vSetupObj lower r o p p s x).2 = .ok (M, s')) (hm : o.docInMemory = false) (hi : 1 ≤ o.iter)
      (hp : fsBatchWords (o.corpus lower) M.corpus.dic p o.batchSize = (b, .crash q)) :
      W2VObjTrain env lower r o late x p s next (w2vSetupObj lower r o p p s x).1 (.panic q)
  | done (M : W2VModel F) (s' : σ) (docs : List (List Nat)) (mem : Mem F) (h : (w2vSetupObj lower r o p p s x).2 = .ok (M, s'))
      (hp : o.docInMemory = true ∨ o.iter ≤ 0 ∨ (fsBatchWords (o.corpus lower) M.corpus.dic p o.batchSize).2 = .next)
      (hd : workerDocs o.docInMemory (o.corpus lower) M.corpus p o.goroutines o.batchSize = .ok docs)
      (hi : Pool.Iters env o.goroutines.toNat ((M.mem o next).set .lr x.lr) late (List.replicate o.iter.toNat (w2vRound M o docs)) mem) :
      W2VObjTrain env lower r o late x p s next
        { (w2vSetupObj lower r o p p s x).1 with param := some (M.after o mem).param, opt := some (M.after o mem).opt, lr := mem.cell .lr } (.ok ())

/-- `lexvec.go:73-171` `Train` on an object -/
inductive LexObjTrain [GoMath F] (env : MemEnv F) (lower : Word → Word) (enum : GoMap (BitVec 64) F → List (BitVec 64 × F)) (r : σ → F × σ) (o : LexvecOptions F)
    (late : List (Prog F Unit)) (x : ModelObj F) (p : Pass) (s : σ) (next : UInt64) : ModelObj F → Res Unit → Prop
  | setupErr (e : Err) (h : (lexSetupObj lower enum r o p p s x).2 = .err e) : LexObjTrain env lower enum r o late x p s next (lexSetupObj lower enum r o p p s x).1 (.err e)
  | setupPanic (q : Panic) (h : (lexSetupObj lower enum r o p p s x).2 = .panic q) :
      LexObjTrain env lower enum r o late x p s next (lexSetupObj lower enum r o p p s x).1 (.panic q)
  | slicePanic (M : LexModel F) (s' : σ) (q : Panic) (h : (lexSetupObj lower enum r o p p s x).2 = .ok (M, s'))
      (hd : workerDocs o.docInMemory (o.corpus lower) M.corpus p o.goroutines o.batchSize = .panic q) :
      LexObjTrain env lower enum r o late x p s next (lexSetupObj lower enum r o p p s x).1 (.panic q)
  | panics (M : LexModel F) (s' : σ) (docs : List (List Nat)) (q : Panic) (h : (lexSetupObj lower enum r o p p s x).2 = .ok (M, s'))
      (hd : workerDocs o.docInMemory (o.corpus lower) M.corpus p o.goroutines o.batchSize = .ok docs)
      (hi : Pool.ItersPanic env o.goroutines.toNat q ((M.mem o next).set .lr x.lr) late (List.replicate o.iter.toNat (lexRound M o docs))) (hc : o.docInMemory = true ∨ o.iter ≤ 0 ∨ 0 ≤ o.goroutines) :
      LexObjTrain env lower enum r o late x p s next (lexSetupObj lower enum r o p p s x).1 (.panic q)
  | chanPanic (M : LexModel F) (s' : σ) (h : (lexSetupObj lower enum r o p p s x).2 = .ok (M, s')) (hm : o.docInMemory = false) (hi : 1 ≤ o.iter) (hg : o.goroutines < 0) :
      LexObjTrain env lower enum r o late x p s next (lexSetupObj lower enum r o p p s x).1 (.panic .makeNegLen)
  | producerPanic (M : LexModel F) (s' : σ) (b : BatchState) (q : Panic) (h : (lexSetupObj lower enum r o p p s x).2 = .ok (M, s')) (hm : o.docInMemory = false)
      (hi : 1 ≤ o.iter) (hp : fsBatchWords (o.corpus lower) M.corpus.dic p o.batchSize = (b, .crash q)) (hc : 0 ≤ o.goroutines) :
      LexObjTrain env lower enum r o late x p s next (lexSetupObj lower enum r o p p s x).1 (.panic q)
  | done (M : LexModel F) (s' : σ) (docs : List (List Nat)) (mem : Mem F) (h : (lexSetupObj lower enum r o p p s x).2 = .ok (M, s'))
      (hp : o.docInMemory = true ∨ o.iter ≤ 0 ∨ (fsBatchWords (o.corpus lower) M.corpus.dic p o.batchSize).2 = .next)
      (hd : workerDocs o.docInMemory (o.corpus lower) M.corpus p o.goroutines o.batchSize = .ok docs)
      (hi : Pool.Iters env o.goroutines.toNat ((M.mem o next).set .lr x.lr) late (List.replicate o.iter.toNat (lexRound M o docs)) mem) (hc : o.docInMemory = true ∨ o.iter ≤ 0 ∨ 0 ≤ o.goroutines) :
      LexObjTrain env lower enum r o late x p s next { (lexSetupObj lower enum r o p p s x).1 with param := some (M.after o mem).param, lr := mem.cell .lr } (.ok ())

/-- `glove.go:68-135` `Train` on an object (its observers share nothing with later calls) -/
inductive GloveObjTrain [GoMath F] (env : MemEnv F) (lower : Word → Word) (enum : GoMap (BitVec 64) F → List (BitVec 64 × F)) (r : σ → F × σ) (o : GloveOptions F)
    (x : ModelObj F) (p : Pass) (s : σ) (next : UInt64) : ModelObj F → Res Unit → Prop
  | setupErr (e : Err) (h : (gloveSetupObj lower r o p p s x).2 = .err e) : GloveObjTrain env lower enum r o x p s next (gloveSetupObj lower r o p p s x).1 (.err e)
  | setupPanic (q : Panic) (h : (gloveSetupObj lower r o p p s x).2 = .panic q) : GloveObjTrain env lower enum r o x p s next (gloveSetupObj lower r o p p s x).1 (.panic q)
  | slicePanic (M : GloveModel F) (s' : σ) (q : Panic) (h : (gloveSetupObj lower r o p p s x).2 = .ok (M, s')) (hd : gloveSlices M o enum = .panic q) :
      GloveObjTrain env lower enum r o x p s next (gloveSetupObj lower r o p p s x).1 (.panic q)
  | panics (M : GloveModel F) (s' : σ) (slices : List (List (GItem F))) (q : Panic) (h : (gloveSetupObj lower r o p p s x).2 = .ok (M, s')) (hd : gloveSlices M o enum = .ok slices)
      (hi : Pool.ItersPanic env o.goroutines.toNat q (M.mem next) [] (List.replicate o.iter.toNat (gloveIter M o slices))) :
      GloveObjTrain env lower enum r o x p s next (gloveSetupObj lower r o p p s x).1 (.panic q)
  | done (M : GloveModel F) (s' : σ) (slices : List (List (GItem F))) (mem : Mem F) (h : (gloveSetupObj lower r o p p s x).2 = .ok (M, s')) (hd : gloveSlices M o enum = .ok slices)
      (hi : Pool.Iters env o.goroutines.toNat (M.mem next) [] (List.replicate o.iter.toNat (gloveIter M o slices)) mem) :
      GloveObjTrain env lower enum r o x p s next { (gloveSetupObj lower r o p p s x).1 with param := some (M.after o mem).param } (.ok ())

/-- Histories: `History train x0 calls x` says that the `Train` calls `calls` (newest first: what each call's reader delivers, and what it returned; none panicked) on the object
`x0` can leave it as `x` (`WordVector` and `Save` change no field). `train x p x' res` says that `Train` with a reader that delivers `p`, on the object `x`, can leave `x'`
and return `res`. -/
inductive History (train : ModelObj F → Pass → ModelObj F → Res Unit → Prop) (x0 : ModelObj F) : List (Pass × Res Unit) → ModelObj F → Prop
  | new : History train x0 [] x0
  | call (calls : List (Pass × Res Unit)) (x x' : ModelObj F) (p : Pass) (res : Res Unit) (h : History train x0 calls x) (ht : train x p x' res)
      (hp : ∀ q, res ≠ .panic q) : History train x0 ((p, res) :: calls) x'

end Wego
