import Verif.Model.Prog
import Verif.Model.Word2vec
import Verif.Model.Lexvec
import Verif.Model.Subsample
import Verif.Model.LearningRate

/-! # The training goroutines as programs of single loads and stores

The same functions as `Verif/Model/{Word2vec,Glove,Lexvec}.lean`, but every access to a shared variable is a step of
its own. Local variables (loop counters, `inner`, `g`, the buffers `tmp` and `agg` that a goroutine holds exclusively
after receiving them from `mod.ch`) are values. `x[i] += e` loads `x[i]`, evaluates `e`, stores. -/

namespace Wego
open Prog
variable {F : Type}

/-- a single load -/
def ld (l : Loc) : Prog F F := .load l .ret

/-- a single store -/
def st (l : Loc) (v : F) : Prog F Unit := .store l v (.ret ())

/-- `modelutil.go:26-29` `NextRandom(value)`: loads and stores `next`, then loads it again for the result -/
def nextRandomP (value : Int) : Prog F Int :=
  .getNext fun s => .setNext (rndStep s) (.getNext fun s' =>
    if uint64OfInt value = 0 then .panic .divByZero else .ret (int64OfUInt64 (s' % uint64OfInt value)))

/-- `matrix.go:47-50` `Slice(id)` of a matrix of `rows` rows and `dim` columns: the bounds check, and the row -/
def sliceP (rows dim : Nat) (id : Int) : Prog F Nat :=
  if 0 ≤ id * dim ∧ id * dim + dim ≤ (rows * dim : Nat) then .ret id.toNat else .panic .sliceBounds

/-- The vector given to an optimizer: a row of `w.param` (skip-gram) or a local buffer (CBOW). -/
inductive Src (F : Type) where
  | row (r : Nat)
  | buf (l : List F)

/-- `ctx[i]` -/
def Src.read (s : Src F) (i : Nat) : Prog F F :=
  match s with
  | .row r => ld (.param r i)
  | .buf l => ofRes (idx l i)

section
variable [GoFloat F]

/-- What the worker goroutines of word2vec read and never change. -/
structure W2VShared (F : Type) where
  /-- rows of `w.param` and of the context matrix: the number of words -/
  rows : Nat
  dim : Nat
  window : Int
  table : List F
  samples : List F

/-- `optimizer.optim(id, lr, ctx, tmp)`: returns the new `tmp` -/
abbrev OptimP (F : Type) := Int → F → Src F → List F → Prog F (List F)

/-- `optimizer.go:70-87`: one picked row -/
def nsPickP (sh : W2VShared F) (label picked : Int) (lr : F) (ctx : Src F) (tmp : List F) : Prog F (List F) :=
  sliceP sh.rows sh.dim picked >>= fun r =>
  forP sh.dim fzero (fun i inner =>
    ld (.ctx r i) >>= fun x => ctx.read i >>= fun y => .ret (inner +. x *. y)) >>= fun inner =>
  ofRes (nsCoef sh.table label lr inner) >>= fun g =>
  forP sh.dim tmp (fun i tmp =>
    ofRes (idx tmp i) >>= fun t => ld (.ctx r i) >>= fun x =>
    ofRes (setIdx tmp i (t +. g *. x)) >>= fun tmp =>
    ld (.ctx r i) >>= fun x => ctx.read i >>= fun y => st (.ctx r i) (x +. g *. y) >>= fun _ => .ret tmp)

/-- `optimizer.go:52-91` `negativeSampling.optim` (`n` counted from 0 instead of -1) -/
def nsOptimP (sh : W2VShared F) (sampleSize : Int) : OptimP F := fun id lr ctx tmp =>
  forP (sampleSize + 1).toNat tmp (fun n tmp =>
    if n = 0 then nsPickP sh 1 id lr ctx tmp
    else
      nextRandomP sh.rows >>= fun picked =>
      if id = picked then .ret tmp else nsPickP sh 0 picked lr ctx tmp)

/-- The nodes of the Huffman tree as far as no goroutine changes them. -/
structure TreeShape where
  /-- `len(p.Vector)`: 0 for words, `Dim` for inner nodes -/
  vlen : Nat → Nat
  code : Nat → Nat
  /-- `len(opt.nodeset)` -/
  words : Nat

/-- `optimizer.go:113-128`: the loop over the path -/
def hsLoopP (sh : W2VShared F) (t : TreeShape) (lr : F) (ctx : Src F) : List Nat → List F → Prog F (List F)
  | p :: q :: rest, tmp =>
    forP (t.vlen p) fzero (fun j inner =>
      ctx.read j >>= fun x => ld (.node p j) >>= fun y => .ret (inner +. x *. y)) >>= fun inner =>
    if (GoFloat.le inner (GoFloat.ofRat (-6)) || GoFloat.le (maxExp : F) inner) = true then .ret tmp
    else
      ofRes (sigmoidAt sh.table inner) >>= fun s =>
      let g := (GoFloat.ofRat 1 -. GoFloat.ofRat (t.code q : ℚ) -. s) *. lr
      forP (t.vlen p) tmp (fun j tmp =>
        ofRes (idx tmp j) >>= fun x => ld (.node p j) >>= fun y =>
        ofRes (setIdx tmp j (x +. g *. y)) >>= fun tmp =>
        ld (.node p j) >>= fun y => ctx.read j >>= fun x => st (.node p j) (y +. g *. x) >>= fun _ => .ret tmp) >>= fun tmp =>
      hsLoopP sh t lr ctx (q :: rest) tmp
  | _, tmp => .ret tmp

/-- `optimizer.go:107-129` `hierarchicalSoftmax.optim` -/
def hsOptimP (sh : W2VShared F) (t : TreeShape) : OptimP F := fun id lr ctx tmp =>
  if 0 ≤ id ∧ id < t.words then .path id.toNat (fun ns => hsLoopP sh t lr ctx ns tmp)
  else .panic .indexOutOfRange

/-- `model.go:60-67` and `133-140`: the loop over the context window -/
def windowLoopP {σ : Type} (window del pos : Int) (len : Nat) (s : σ) (body : Nat → σ → Prog F σ) : Prog F σ :=
  forP (window * 2 + 1 - del - del).toNat s (fun n s =>
    let a := del + n
    if a = window then .ret s
    else
      let c := pos - window + a
      if c < 0 ∨ c ≥ len then .ret s else body c.toNat s)

/-- `model.go:74-76`, `153-157`: `ctx[i] += tmp[i]` on row `r` of `w.param` -/
def addRowP (dim r : Nat) (tmp : List F) : Prog F Unit :=
  forP dim () (fun i _ => ld (.param r i) >>= fun x => ofRes (idx tmp i) >>= fun t => st (.param r i) (x +. t))

/-- `model.go:48-78` `skipGram.trainOne` with the buffer `tmp` -/
def skipGramP (sh : W2VShared F) (optim : OptimP F) (doc : List Nat) (pos : Nat) (lr : F) (tmp : List F) : Prog F (List F) :=
  nextRandomP sh.window >>= fun del =>
  windowLoopP sh.window del pos doc.length tmp (fun c tmp =>
    let tmp := tmp.map (fun _ => fzero)
    ofRes (idx doc c) >>= fun ctxID =>
    sliceP sh.rows sh.dim ctxID >>= fun r =>
    ofRes (idx doc pos) >>= fun id =>
    optim id lr (.row r) tmp >>= fun tmp =>
    addRowP sh.dim r tmp >>= fun _ => .ret tmp)

/-- `model.go:125-151` `dowith` with `aggregate` -/
def cbowAggregateP (sh : W2VShared F) (doc : List Nat) (pos : Nat) (agg : List F) : Prog F (List F) :=
  nextRandomP sh.window >>= fun del =>
  windowLoopP sh.window del pos doc.length agg (fun c agg =>
    ofRes (idx doc c) >>= fun ctxID =>
    sliceP sh.rows sh.dim ctxID >>= fun r =>
    forP sh.dim agg (fun i agg =>
      ofRes (idx agg i) >>= fun a => ld (.param r i) >>= fun x => ofRes (setIdx agg i (a +. x))))

/-- `model.go:125-145`, `153-157` `dowith` with `update` -/
def cbowUpdateP (sh : W2VShared F) (doc : List Nat) (pos : Nat) (tmp : List F) : Prog F Unit :=
  nextRandomP sh.window >>= fun del =>
  windowLoopP sh.window del pos doc.length () (fun c _ =>
    ofRes (idx doc c) >>= fun ctxID =>
    sliceP sh.rows sh.dim ctxID >>= fun r => addRowP sh.dim r tmp)

/-- `model.go:104-123` `cbow.trainOne` with the buffers `agg` and `tmp` -/
def cbowP (sh : W2VShared F) (optim : OptimP F) (doc : List Nat) (pos : Nat) (lr : F) (agg tmp : List F) :
    Prog F (List F × List F) :=
  cbowAggregateP sh doc pos (agg.map (fun _ => fzero)) >>= fun agg =>
  ofRes (idx doc pos) >>= fun id =>
  optim id lr (.buf agg) (tmp.map (fun _ => fzero)) >>= fun tmp =>
  cbowUpdateP sh doc pos tmp >>= fun _ => .ret (agg, tmp)

/-- `trainOne` of the model in use; the buffers come from `mod.ch` with `Dim` elements and are zeroed before use
(simplification: every call gets fresh ones). -/
def w2vTrainOneP (sh : W2VShared F) (skip : Bool) (optim : OptimP F) (doc : List Nat) (pos : Nat) (lr : F) : Prog F Unit :=
  if skip then skipGramP sh optim doc pos lr (List.replicate sh.dim fzero) >>= fun _ => .ret ()
  else cbowP sh optim doc pos lr (List.replicate sh.dim fzero) (List.replicate sh.dim fzero) >>= fun _ => .ret ()

/-- `subsample.go:45-52` `Trial(id)` -/
def trialP (samples : List F) (id : Nat) : Prog F Bool :=
  .rand fun u => ofRes (trial samples id u)

/-- `word2vec.go:182-205` `trainPerThread(doc, ...)` without the synchronisation -/
def w2vWorkerP (sh : W2VShared F) (skip : Bool) (optim : OptimP F) (doc : List Nat) : Prog F Unit :=
  forP doc.length () (fun pos _ =>
    ofRes (idx doc pos) >>= fun id =>
    trialP sh.samples id >>= fun ok =>
    if ok then ld .lr >>= fun lr => w2vTrainOneP sh skip optim doc pos lr else .ret ())

/-- `word2vec.go:207-227`, `lexvec.go:234-254` `observe` for the `n` words of one iteration; the output is not modelled -/
def observerP (cfg : LrCfg F) (n : Nat) : Prog F Unit :=
  forP n () (fun i _ =>
    ofRes (lrDue cfg (i + 1)) >>= fun due =>
    if due then ld .lr >>= fun lr => st .lr (newLr cfg (i + 1) lr) else .ret ())

/-- the optimizer in use -/
inductive OptimKind where
  | ns (sampleSize : Int)
  | hs (t : TreeShape)

/-- its `optim` -/
def OptimKind.prog (sh : W2VShared F) : OptimKind → OptimP F
  | .ns n => nsOptimP sh n
  | .hs t => hsOptimP sh t

/-! ## LexVec -/

/-- What the worker goroutines of LexVec read and never change. -/
structure LexShared (F : Type) where
  /-- number of words; `l.param` has twice as many rows -/
  len : Nat
  dim : Nat
  window : Int
  negative : Int
  items : GoMap (BitVec 64) F
  samples : List F

/-- `lexvec.go:220-232` `update(l1, l2, f)` on rows `rows` of `dim` values; `l.param.Slice(l)[i]` each time -/
def lexUpdateP (rows dim : Nat) (l1 l2 : Int) (f : F) : Prog F Unit :=
  forP dim fzero (fun i diff =>
    sliceP rows dim l1 >>= fun a => ld (.param a i) >>= fun x =>
    sliceP rows dim l2 >>= fun b => ld (.param b i) >>= fun y => .ret (diff +. x *. y)) >>= fun d =>
  ld .lr >>= fun lr =>
  let diff := (d -. f) *. lr
  forP dim () (fun i _ =>
    sliceP rows dim l2 >>= fun b => ld (.param b i) >>= fun y =>
    let t1 := diff *. y
    sliceP rows dim l1 >>= fun a => ld (.param a i) >>= fun x =>
    let t2 := diff *. x
    ld (.param a i) >>= fun x => st (.param a i) (x -. t1) >>= fun _ =>
    ld (.param b i) >>= fun y => st (.param b i) (y -. t2))

/-- `lexvec.go:199-218` `trainOne` -/
def lexTrainOneP (sh : LexShared F) (doc : List Nat) (pos : Nat) : Prog F Unit :=
  nextRandomP sh.window >>= fun del =>
  windowLoopP sh.window del pos doc.length () (fun c _ =>
    ofRes (idx doc pos) >>= fun a => ofRes (idx doc c) >>= fun b =>
    lexUpdateP (sh.len * 2) sh.dim a b (lexItem sh.items a b) >>= fun _ =>
    forP sh.negative.toNat () (fun _ _ =>
      nextRandomP sh.len >>= fun sample =>
      lexUpdateP (sh.len * 2) sh.dim a (sample + sh.len) (lexItem sh.items a sample.toNat)))

/-- `lexvec.go:173-197` `trainPerThread` without the synchronisation -/
def lexWorkerP (sh : LexShared F) (doc : List Nat) : Prog F Unit :=
  forP doc.length () (fun pos _ =>
    ofRes (idx doc pos) >>= fun id =>
    trialP sh.samples id >>= fun ok =>
    if ok then lexTrainOneP sh doc pos else .ret ())

/-! ## GloVe -/

/-- `solver.go:38-45`, `76-84`: the scaled error; `a`, `b` are the rows behind the slices `v1`, `v2` of `dim+1` values -/
def gloveDiffP (dim a b : Nat) (f coef initlr : F) : Prog F F :=
  forP dim fzero (fun i diff => ld (.param a i) >>= fun x => ld (.param b i) >>= fun y => .ret (diff +. x *. y)) >>= fun d =>
  ld (.param a dim) >>= fun b1 => ld (.param b dim) >>= fun b2 =>
  .ret ((d +. ((b1 +. b2) -. f)) *. (coef *. initlr))

/-- `x op= e` on one shared variable -/
def updP (l : Loc) (g : F → F) : Prog F Unit := ld l >>= fun x => st l (g x)

/-- `solver.go:38-53` `(*stochastic).trainOne` on `rows` rows of `dim+1` values -/
def sgdP (initlr : F) (rows dim : Nat) (l1 l2 : Int) (f coef : F) : Prog F Unit :=
  sliceP rows (dim + 1) l1 >>= fun a => sliceP rows (dim + 1) l2 >>= fun b =>
  gloveDiffP dim a b f coef initlr >>= fun diff =>
  forP dim () (fun i _ =>
    ld (.param b i) >>= fun y => ld (.param a i) >>= fun x =>
    let t1 := diff *. y
    let t2 := diff *. x
    updP (.param a i) (fun x => x -. t1) >>= fun _ => updP (.param b i) (fun y => y -. t2)) >>= fun _ =>
  updP (.param a dim) (fun x => x -. diff) >>= fun _ => updP (.param b dim) (fun y => y -. diff)

/-- `solver.go:76-100` `(*adaGrad).trainOne` -/
def adaP (initlr : F) (rows dim : Nat) (l1 l2 : Int) (f coef : F) : Prog F Unit :=
  sliceP rows (dim + 1) l1 >>= fun a => sliceP rows (dim + 1) l2 >>= fun b =>
  gloveDiffP dim a b f coef initlr >>= fun diff =>
  forP dim () (fun i _ =>
    ld (.param b i) >>= fun y => ld (.param a i) >>= fun x =>
    let t1 := diff *. y
    let t2 := diff *. x
    updP (.gradsq a i) (fun x => x +. t1 *. t1) >>= fun _ => updP (.gradsq b i) (fun x => x +. t2 *. t2) >>= fun _ =>
    ld (.gradsq a i) >>= fun g1 => ld (.gradsq b i) >>= fun g2 =>
    updP (.param a i) (fun x => x -. t1 /. GoFloat.sqrt g1) >>= fun _ =>
    updP (.param b i) (fun y => y -. t2 /. GoFloat.sqrt g2)) >>= fun _ =>
  ld (.gradsq a dim) >>= fun g1 => updP (.param a dim) (fun x => x -. diff /. GoFloat.sqrt g1) >>= fun _ =>
  ld (.gradsq b dim) >>= fun g2 => updP (.param b dim) (fun y => y -. diff /. GoFloat.sqrt g2) >>= fun _ =>
  let sq := diff *. diff
  updP (.gradsq a dim) (fun x => x +. sq) >>= fun _ => updP (.gradsq b dim) (fun x => x +. sq)

/-- `glove.go:137-160` `trainPerThread` without the synchronisation; `len` is the number of words, `step` the solver -/
def gloveWorkerP (step : Int → Int → F → F → Prog F Unit) (len : Nat) (items : List (GItem F)) : Prog F Unit :=
  forP items.length () (fun k _ =>
    ofRes (idx items k) >>= fun it =>
    step it.l1 (it.l2 + len) it.f it.coef >>= fun _ => step (it.l1 + len) it.l2 it.f it.coef)

end
end Wego
