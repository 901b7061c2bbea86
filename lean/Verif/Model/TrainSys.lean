import Verif.Model.TrainProg
import Verif.Model.Train

/-! # The training phase of `Train` as interleaved goroutines

From the model that the set-up built (`Verif/Model/Train.lean`) to the system of worker goroutines
(`Verif/Model/Prog.lean`), and back to the model that `WordVector` and `Save` read afterwards. -/

namespace Wego
variable {F : Type}

/-- `glove.go:110-135`: the items and their slices, one per goroutine; `enum` is the order in which Go enumerates the map -/
def gloveSlices [GoMath F] (M : GloveModel F) (o : GloveOptions F) (enum : GoMap (BitVec 64) F → List (BitVec 64 × F)) : Res (List (List (GItem F))) :=
  match M.corpus.cooc with
  | none => .panic .nilDeref
  | some co =>
    let items := gloveItems o.xmax o.alpha (enum co.encodedMatrix)
    indexPerThread o.goroutines items.length >>= fun v => parts items v o.goroutines.toNat

section
variable [GoFloat F]

/-- the value behind `m.Slice(r)[c]` (only used inside the bounds) -/
def Matrix.cellAt (m : Matrix F) (r c : Nat) : F :=
  match m.getAt r c with
  | .ok v => v
  | _ => fzero

/-- A matrix read from the shared memory. -/
def Mem.matrix (m : Mem F) (loc : Nat → Nat → Loc) (rows cols : Nat) : Matrix F :=
  { array := (List.range rows).flatMap (fun r => (List.range cols).map (fun c => m.cell (loc r c)))
    row := rows
    col := cols }

/-- the documents in the sends of `BatchWords` -/
def sentBatches (out : List ChanEv) : List (List Nat) :=
  out.filterMap (fun e => match e with
    | .send ids => some ids
    | .close => none)

/-- `word2vec.go:136-140,149-153`, `162-175`, `lexvec.go:122-138`, `153-168`: the documents given to the workers of one iteration.
In memory: the slices of the indexed document; file-backed: the batches of `BatchWords` over the pass `p`. -/
def workerDocs (inMemory : Bool) (cfg : CorpusCfg) (c : CorpusState F) (p : Pass) (goroutines batchSize : Int) : Res (List (List Nat)) :=
  if inMemory then
    memIndexedDoc cfg c >>= fun doc =>
    indexPerThread goroutines doc.length >>= fun v => parts doc v goroutines.toNat
  else .ok (sentBatches (fsBatchWords cfg c.dic p batchSize).1.out)

/-! ## word2vec -/

/-- what the workers share and never change -/
def W2VModel.shared (M : W2VModel F) (o : W2VOptions F) (table : List F) : W2VShared F :=
  { rows := M.corpus.dic.len, dim := o.dim.toNat, window := o.window, table := table, samples := M.samples }

/-- `len(n.Vector)` and `n.Code` of the nodes; `nodeset` has one node per word -/
def treeShape (h : HierSoftmax F) : TreeShape :=
  { vlen := fun n => ((h.arena[n]?.bind HNode.vector).getD []).length
    code := fun n => (h.arena[n]?.map HNode.code).getD 0
    words := h.nodeset.length }

/-- the optimizer the workers use -/
def W2VModel.kind (M : W2VModel F) : OptimKind :=
  match M.opt with
  | .ns o => .ns o.sampleSize
  | .hs h => .hs (treeShape h)

/-- the sigmoid table of the optimizer -/
def W2VModel.table (M : W2VModel F) : List F :=
  match M.opt with
  | .ns o => o.table
  | .hs h => h.table

/-- the shared memory when the training loop starts; `next` is whatever the generator variable holds -/
def W2VModel.mem (M : W2VModel F) (o : W2VOptions F) (next : UInt64) : Mem F :=
  { cell := fun l => match l with
      | .param r c => M.param.cellAt r c
      | .ctx r c => match M.opt with
        | .ns o => o.ctx.cellAt r c
        | .hs _ => fzero
      | .node n c => match M.opt with
        | .ns _ => fzero
        | .hs h => (((h.arena[n]?.bind HNode.vector).getD [])[c]?).getD fzero
      | .gradsq _ _ => fzero
      | .lr => o.initlr
    next := next }

/-- what `observe` reads; `corpus.Len()` is `maxLen` (`memory.go:79-81`, `fs.go:95-97`) -/
def W2VModel.lrCfg (M : W2VModel F) (o : W2VOptions F) : LrCfg F := ⟨o.initlr, o.minLR, o.updateLRBatch, M.corpus.maxLen⟩

/-- `word2vec.go:142-156`, `162-176`: the goroutines; for every iteration one observer and one worker per document -/
def W2VModel.sys (M : W2VModel F) (o : W2VOptions F) (next : UInt64) (iters : List (List (List Nat))) : Sys F :=
  let sh := M.shared o M.table
  { mem := M.mem o next
    threads := iters.flatMap fun docs =>
      observerP (M.lrCfg o) (docs.map List.length).sum :: docs.map (w2vWorkerP sh M.skipGram (M.kind.prog sh)) }

/-- `word2vec.go:142-156`, `162-176`: one iteration: the observer and the workers -/
def w2vRound (M : W2VModel F) (o : W2VOptions F) (docs : List (List Nat)) : Prog F Unit × List (Prog F Unit) :=
  (observerP (M.lrCfg o) (docs.map List.length).sum, docs.map (w2vWorkerP (M.shared o M.table) M.skipGram (M.kind.prog (M.shared o M.table))))

/-- The model after training: its matrices are what the shared memory holds. Simplification: the vectors of the
Huffman tree, which no other method reads, are left as they were. -/
def W2VModel.after (M : W2VModel F) (o : W2VOptions F) (m : Mem F) : W2VModel F :=
  { M with
    param := m.matrix .param M.corpus.dic.len o.dim.toNat
    opt := match M.opt with
      | .ns ng => .ns { ng with ctx := m.matrix .ctx M.corpus.dic.len o.dim.toNat }
      | .hs h => .hs h }

/-! ## LexVec -/

/-- what the workers share and never change -/
def LexModel.shared (M : LexModel F) (o : LexvecOptions F) : LexShared F :=
  { len := M.corpus.dic.len, dim := o.dim.toNat, window := o.window, negative := o.negativeSampleSize, items := M.items, samples := M.samples }

/-- the shared memory when the training loop starts -/
def LexModel.mem (M : LexModel F) (o : LexvecOptions F) (next : UInt64) : Mem F :=
  { cell := fun l => match l with
      | .param r c => M.param.cellAt r c
      | .lr => o.initlr
      | _ => fzero
    next := next }

/-- what `observe` reads -/
def LexModel.lrCfg (M : LexModel F) (o : LexvecOptions F) : LrCfg F := ⟨o.initlr, o.minLR, o.updateLRBatch, M.corpus.maxLen⟩

/-- `lexvec.go:128-141`, `153-168`: the goroutines; for every iteration one observer and one worker per document -/
def LexModel.sys (M : LexModel F) (o : LexvecOptions F) (next : UInt64) (iters : List (List (List Nat))) : Sys F :=
  { mem := M.mem o next
    threads := iters.flatMap fun docs =>
      observerP (M.lrCfg o) (docs.map List.length).sum :: docs.map (lexWorkerP (M.shared o)) }

/-- `lexvec.go:128-141`, `153-168`: one iteration: the observer and the workers -/
def lexRound (M : LexModel F) (o : LexvecOptions F) (docs : List (List Nat)) : Prog F Unit × List (Prog F Unit) :=
  (observerP (M.lrCfg o) (docs.map List.length).sum, docs.map (lexWorkerP (M.shared o)))

/-- The model after training. -/
def LexModel.after (M : LexModel F) (o : LexvecOptions F) (m : Mem F) : LexModel F :=
  { M with param := m.matrix .param (M.corpus.dic.len * 2) o.dim.toNat }

/-! ## GloVe -/

/-- the shared memory when the training loop starts -/
def GloveModel.mem (M : GloveModel F) (next : UInt64) : Mem F :=
  { cell := fun l => match l with
      | .param r c => M.param.cellAt r c
      | .gradsq r c => match M.gradsq with
        | some g => g.cellAt r c
        | none => fzero
      | _ => fzero
    next := next }

/-- the solver in use -/
def GloveModel.step (M : GloveModel F) (o : GloveOptions F) (l1 l2 : Int) (f coef : F) : Prog F Unit :=
  match M.gradsq with
  | none => sgdP o.initlr (M.corpus.dic.len * 2) o.dim.toNat l1 l2 f coef
  | some _ => adaP o.initlr (M.corpus.dic.len * 2) o.dim.toNat l1 l2 f coef

/-- `glove.go:117-132`: the worker goroutines of all iterations (the observer only prints) -/
def GloveModel.sys (M : GloveModel F) (o : GloveOptions F) (next : UInt64) (iters : List (List (List (GItem F)))) : Sys F :=
  { mem := M.mem next, threads := iters.flatMap fun slices => slices.map (gloveWorkerP (M.step o) M.corpus.dic.len) }

/-- The model after training. -/
def GloveModel.after (M : GloveModel F) (o : GloveOptions F) (m : Mem F) : GloveModel F :=
  { M with param := m.matrix .param (M.corpus.dic.len * 2) (o.dim.toNat + 1) }

end
end Wego
