import Verif.Model.Matrix
import Verif.Model.Modelutil
import Verif.Model.Sigmoid
import Verif.Model.Huffman

/-! # `pkg/model/word2vec/optimizer.go` and `pkg/model/word2vec/model.go`: one training step

The context vector (`ctx`: a row of the word matrix, or CBOW's `agg`), the buffer `tmp` and the optimizer's own
vectors are different arrays, so they are passed as values. All of them are allocated with `opts.Dim` elements;
simplification: a length mismatch (impossible through the API) is modelled as an index panic even where Go
would only panic on the shorter one. The buffers taken from `mod.ch` are arguments and results; blocking on the
channel is not modelled here. -/

namespace Wego
variable {F : Type} [GoFloat F]

/-- `optimizer.go:71-74`, `115-118`: `inner += x[i] * y[i]` from zero -/
def dotF (x y : List F) : F := (List.zip x y).foldl (fun acc p => acc +. p.1 *. p.2) fzero

/-- `y[i] += g * x[i]` for all `i` -/
def axpyF (g : F) (x y : List F) : List F := List.zipWith (fun y x => y +. g *. x) y x

/-- `y[i] += x[i]` for all `i` (`model.go:74-76`, `147-157`) -/
def addF (x y : List F) : List F := List.zipWith (fun y x => y +. x) y x

/-- What an optimizer call returns: the optimizer's state, the random generator, and `tmp`. -/
structure OptRes (O F : Type) where
  opt : O
  rnd : UInt64
  tmp : List F

/-- `optimizer.go:29-33` `negativeSampling` -/
structure NegSampling (F : Type) where
  ctx : Matrix F
  table : List F
  sampleSize : Int

/-- `optimizer.go:75-82`: the coefficient `g` -/
def nsCoef (table : List F) (label : Int) (lr inner : F) : Res F :=
  if GoFloat.le inner (GoFloat.ofRat (-6)) then .ok (GoFloat.ofRat (label : ℚ) *. lr)
  else if GoFloat.le (maxExp : F) inner then .ok (GoFloat.ofRat ((label - 1 : Int) : ℚ) *. lr)
  else sigmoidAt table inner >>= fun s => .ok ((GoFloat.ofRat (label : ℚ) -. s) *. lr)

/-- `optimizer.go:70-87`: the update for one picked row -/
def nsPick (table : List F) (label : Int) (picked : Int) (lr : F) (ctx : List F) (mat : Matrix F) (tmp : List F) :
    Res (Matrix F × List F) :=
  mat.getRow picked >>= fun rnd =>
  if rnd.length ≠ ctx.length ∨ tmp.length ≠ ctx.length then .panic .indexOutOfRange
  else
    nsCoef table label lr (dotF rnd ctx) >>= fun g =>
    mat.setRow picked (axpyF g ctx rnd) >>= fun mat' => .ok (mat', axpyF g rnd tmp)

/-- `optimizer.go:63-69`: iteration `n` (here counted from 0 instead of -1) -/
def nsIter (table : List F) (id : Int) (lr : F) (ctx : List F) (n : Nat)
    (st : Matrix F × UInt64 × List F) : Res (Matrix F × UInt64 × List F) :=
  if n = 0 then
    nsPick table 1 id lr ctx st.1 st.2.2 >>= fun r => .ok (r.1, st.2.1, r.2)
  else
    nextRandom st.2.1 st.1.row >>= fun d =>
    if id = d.2 then .ok (st.1, d.1, st.2.2)
    else nsPick table 0 d.2 lr ctx st.1 st.2.2 >>= fun r => .ok (r.1, d.1, r.2)

/-- `optimizer.go:52-91` `negativeSampling.optim` -/
def NegSampling.optim (o : NegSampling F) (rnd : UInt64) (id : Int) (lr : F) (ctx tmp : List F) :
    Res (OptRes (NegSampling F) F) :=
  forN (o.sampleSize + 1).toNat (o.ctx, rnd, tmp) (nsIter o.table id lr ctx) >>= fun st =>
  .ok { opt := { o with ctx := st.1 }, rnd := st.2.1, tmp := st.2.2 }

/-- `optimizer.go:93-97` `hierarchicalSoftmax`; `arena` holds the nodes, `nodeset` their indices. -/
structure HierSoftmax (F : Type) where
  table : List F
  arena : List (HNode F)
  nodeset : List Nat
  maxDepth : Int

/-- `optimizer.go:113-128`: the loop over the path from `path[i]` on (`return` ends it) -/
def hsLoop (table : List F) (lr : F) (ctx : List F) (path : List Nat) (arena : List (HNode F)) (tmp : List F) :
    Res (List (HNode F) × List F) :=
  match path with
  | p :: q :: path =>
    idx arena p >>= fun np =>
    idx arena q >>= fun nq =>
    let vec := np.vector.getD []
    if vec.length > ctx.length ∨ vec.length > tmp.length then .panic .indexOutOfRange
    else
      let inner := dotF ctx vec
      if (GoFloat.le inner (GoFloat.ofRat (-6)) || GoFloat.le (maxExp : F) inner) = true then .ok (arena, tmp)
      else
        sigmoidAt table inner >>= fun s =>
        let g := (GoFloat.ofRat 1 -. GoFloat.ofRat (nq.code : ℚ) -. s) *. lr
        let tmp := axpyF g vec (tmp.take vec.length) ++ tmp.drop vec.length
        let arena := arena.modify p (fun nd => { nd with vector := np.vector.map (axpyF g ctx) })
        hsLoop table lr ctx (q :: path) arena tmp
  | _ => .ok (arena, tmp)
termination_by path.length

/-- `optimizer.go:107-129` `hierarchicalSoftmax.optim` -/
def HierSoftmax.optim (o : HierSoftmax F) (rnd : UInt64) (id : Int) (lr : F) (ctx tmp : List F) :
    Res (OptRes (HierSoftmax F) F) :=
  idxI o.nodeset id >>= fun n =>
  match getPath o.arena n o.maxDepth with
  | none => .panic .hang
  | some r =>
    r >>= fun ap =>
    hsLoop o.table lr ctx ap.2 ap.1 tmp >>= fun at' =>
    .ok { opt := { o with arena := at'.1 }, rnd := rnd, tmp := at'.2 }

/-- An optimizer: `optim(id, lr, ctx, tmp)` on its state and the random generator. -/
abbrev Optim (O F : Type) := O → UInt64 → Int → F → List F → List F → Res (OptRes O F)

/-- `model.go:60-67` and `133-140`: the loop over the context window, `body` for each context position. -/
def windowLoop {σ : Type} (window del pos : Int) (len : Nat) (s : σ) (body : Nat → σ → Res σ) : Res σ :=
  forN (window * 2 + 1 - del - del).toNat s (fun n s =>
    let a := del + n
    if a = window then .ok s
    else
      let c := pos - window + a
      if c < 0 ∨ c ≥ len then .ok s else body c.toNat s)

/-- State of a training step: the word matrix, the optimizer, the random generator, the buffer(s). -/
structure StepSt (O F : Type) where
  param : Matrix F
  opt : O
  rnd : UInt64
  tmp : List F

section
variable {O : Type}

/-- `model.go:68-76`: skip-gram's work for context position `c` -/
def skipGramBody (optim : Optim O F) (doc : List Nat) (pos : Nat) (lr : F) (c : Nat) (st : StepSt O F) :
    Res (StepSt O F) :=
  let tmp := st.tmp.map (fun _ => fzero)
  idx doc c >>= fun ctxID =>
  st.param.getRow ctxID >>= fun ctx =>
  idx doc pos >>= fun id =>
  optim st.opt st.rnd id lr ctx tmp >>= fun r =>
  if ctx.length > r.tmp.length then .panic .indexOutOfRange
  else st.param.setRow ctxID (addF r.tmp ctx) >>= fun param =>
  .ok { param := param, opt := r.opt, rnd := r.rnd, tmp := r.tmp }

/-- `model.go:48-78` `skipGram.trainOne` -/
def skipGramOne (optim : Optim O F) (window : Int) (doc : List Nat) (pos : Nat) (lr : F) (st : StepSt O F) :
    Res (StepSt O F) :=
  nextRandom st.rnd window >>= fun d =>
  windowLoop window d.2 pos doc.length { st with rnd := d.1 } (skipGramBody optim doc pos lr)

/-- State of a CBOW step: also the buffer `agg`. -/
structure CbowSt (O F : Type) where
  param : Matrix F
  opt : O
  rnd : UInt64
  agg : List F
  tmp : List F

/-- `model.go:125-145` `dowith` with `aggregate` (147-151) -/
def cbowAggregate (window : Int) (doc : List Nat) (pos : Nat) (st : CbowSt O F) : Res (CbowSt O F) :=
  nextRandom st.rnd window >>= fun d =>
  windowLoop window d.2 pos doc.length { st with rnd := d.1 } (fun c st =>
    idx doc c >>= fun ctxID =>
    st.param.getRow ctxID >>= fun ctx =>
    if ctx.length > st.agg.length then .panic .indexOutOfRange
    else .ok { st with agg := addF ctx st.agg })

/-- `model.go:125-145` `dowith` with `update` (153-157) -/
def cbowUpdate (window : Int) (doc : List Nat) (pos : Nat) (st : CbowSt O F) : Res (CbowSt O F) :=
  nextRandom st.rnd window >>= fun d =>
  windowLoop window d.2 pos doc.length { st with rnd := d.1 } (fun c st =>
    idx doc c >>= fun ctxID =>
    st.param.getRow ctxID >>= fun ctx =>
    if ctx.length > st.tmp.length then .panic .indexOutOfRange
    else st.param.setRow ctxID (addF st.tmp ctx) >>= fun param => .ok { st with param := param })

/-- `model.go:104-123` `cbow.trainOne` -/
def cbowOne (optim : Optim O F) (window : Int) (doc : List Nat) (pos : Nat) (lr : F) (st : CbowSt O F) :
    Res (CbowSt O F) :=
  let st := { st with agg := st.agg.map (fun _ => fzero), tmp := st.tmp.map (fun _ => fzero) }
  cbowAggregate window doc pos st >>= fun st =>
  idx doc pos >>= fun id =>
  optim st.opt st.rnd id lr st.agg st.tmp >>= fun r =>
  cbowUpdate window doc pos { st with opt := r.opt, rnd := r.rnd, tmp := r.tmp }

end
end Wego
