import Verif.Model.Lexvec
import Verif.Model.Subsample
import Verif.Model.TrainProg

/-! # The training loops as sequential algorithms

`trainPerThread` with indivisible training steps (`lexTrainOne`, `skipGramOne`, `cbowOne`), one document after the other. The results of `rand.Float64()` and
the values of `currentlr` that the steps read are given as sequences (`rands`, `lrs`), used one after the other. -/

namespace Wego
variable {F : Type} [GoFloat F]

/-- `lexvec.go:188-193` for one document; `k` counts the random numbers used -/
def lexDoc (cfg : LexCfg F) (items : GoMap (BitVec 64) F) (samples : List F) (rands : Nat → F) (doc : List Nat) (s : LexState F × Nat) :
    Res (LexState F × Nat) :=
  forN doc.length s (fun pos s =>
    idx doc pos >>= fun id =>
    trial samples id (rands s.2) >>= fun ok =>
    if ok then lexTrainOne cfg items doc pos s.1 >>= fun s' => .ok (s', s.2 + 1) else .ok (s.1, s.2 + 1))

/-- one document after the other -/
def lexSeq (cfg : LexCfg F) (items : GoMap (BitVec 64) F) (samples : List F) (rands : Nat → F) (docs : List (List Nat)) (s : LexState F × Nat) :
    Res (LexState F × Nat) :=
  forEach docs s (lexDoc cfg items samples rands)

/-- State of word2vec's training loop: matrix, optimizer, generator, and how many random numbers / learning rates have been used. -/
structure W2VSeqSt (O F : Type) where
  param : Matrix F
  opt : O
  rnd : UInt64
  nrand : Nat
  nlr : Nat

section
variable {O : Type}

/-- `mod.trainOne(doc, pos, w.currentlr, ...)`: skip-gram or CBOW; the buffers have `dim` elements -/
def w2vOne (skip : Bool) (optim : Optim O F) (window : Int) (dim : Nat) (doc : List Nat) (pos : Nat) (lr : F) (s : W2VSeqSt O F) : Res (W2VSeqSt O F) :=
  let buf := List.replicate dim fzero
  if skip then skipGramOne optim window doc pos lr ⟨s.param, s.opt, s.rnd, buf⟩ >>= fun t => .ok { s with param := t.param, opt := t.opt, rnd := t.rnd }
  else cbowOne optim window doc pos lr ⟨s.param, s.opt, s.rnd, buf, buf⟩ >>= fun t => .ok { s with param := t.param, opt := t.opt, rnd := t.rnd }

/-- `word2vec.go:196-202` for one document -/
def w2vDoc (skip : Bool) (optim : Optim O F) (window : Int) (dim : Nat) (samples : List F) (rands lrs : Nat → F) (doc : List Nat) (s : W2VSeqSt O F) :
    Res (W2VSeqSt O F) :=
  forN doc.length s (fun pos s =>
    idx doc pos >>= fun id =>
    trial samples id (rands s.nrand) >>= fun ok =>
    if ok then w2vOne skip optim window dim doc pos (lrs s.nlr) { s with nrand := s.nrand + 1, nlr := s.nlr + 1 }
    else .ok { s with nrand := s.nrand + 1 })

/-- one document after the other -/
def w2vSeq (skip : Bool) (optim : Optim O F) (window : Int) (dim : Nat) (samples : List F) (rands lrs : Nat → F) (docs : List (List Nat)) (s : W2VSeqSt O F) :
    Res (W2VSeqSt O F) :=
  forEach docs s (w2vDoc skip optim window dim samples rands lrs)

end
end Wego
