import Verif.Go.Float
import Verif.Go.Res

/-! # The learning rate observers of word2vec and LexVec

`pkg/model/word2vec/word2vec.go:207-227`, `pkg/model/lexvec/lexvec.go:234-254` (the two functions are the same text
up to the receiver). One observer goroutine is started per iteration (`word2vec.go:143`, `164`); `train` closes its
channel but does not wait for it, so the observers of earlier iterations may still be between reading and writing
`currentlr` while later ones run. All observers share the field `currentlr`.

Simplification: one read and one write of `currentlr` are atomic (a `float64` word) and sequentially consistent; the
verbose output (`:218-222`) is not modelled. -/

namespace Wego
variable {F : Type} [GoFloat F]

/-- the options and the corpus length read by `observe`; `len` is `w.corpus.Len()` -/
structure LrCfg (F : Type) where
  initlr : F
  minLR : F
  updateLRBatch : Int
  len : Nat

/-- `word2vec.go:212-216`, `lexvec.go:239-243`: the value assigned to `currentlr` when `currentlr` was read as `lr` -/
def newLr (cfg : LrCfg F) (cnt : Nat) (lr : F) : F :=
  if GoFloat.lt lr cfg.minLR then cfg.minLR
  else cfg.initlr *. (GoFloat.ofRat 1 -. GoFloat.ofRat (cnt : ℚ) /. GoFloat.ofRat (cfg.len : ℚ))

/-- `word2vec.go:210-211`, `lexvec.go:237-238`: is `currentlr` updated at the `cnt`-th word?
`cnt%w.opts.UpdateLRBatch` panics for zero. -/
def lrDue (cfg : LrCfg F) (cnt : Nat) : Res Bool :=
  if cfg.updateLRBatch = 0 then .panic .divByZero else .ok ((cnt : Int).tmod cfg.updateLRBatch == 0)

/-- one turn of the loop `word2vec.go:209-223` when no other observer runs -/
def observeOne (cfg : LrCfg F) (cnt : Nat) (lr : F) : Res (Nat × F) :=
  lrDue cfg (cnt + 1) >>= fun due => .ok (cnt + 1, if due then newLr cfg (cnt + 1) lr else lr)

/-- `word2vec.go:207-227`: one observer alone, receiving `n` words -/
def observeAlone (cfg : LrCfg F) : Nat → Nat × F → Res (Nat × F)
  | 0, st => .ok st
  | n + 1, st => observeOne cfg st.1 st.2 >>= observeAlone cfg n

/-- All observers of a training run (numbered by iteration): their counters, and the value each has computed but not
yet stored. -/
structure LrState (F : Type) where
  lr : F
  cnt : Nat → Nat
  pend : Nat → Option F

/-- `word2vec.go:62-72`, `lexvec.go:61-71`: `currentlr: opts.Initlr`; every observer starts with `cnt = 0` -/
def LrState.init (cfg : LrCfg F) : LrState F := ⟨cfg.initlr, fun _ => 0, fun _ => none⟩

/-- One step of observer `o`. -/
inductive LrStep (cfg : LrCfg F) : LrState F → LrState F → Prop
  /-- a word that is no multiple of the batch -/
  | skip (s : LrState F) (o : Nat) (hp : s.pend o = none) (h : lrDue cfg (s.cnt o + 1) = .ok false) :
      LrStep cfg s { s with cnt := Function.update s.cnt o (s.cnt o + 1) }
  /-- `word2vec.go:211-215`: reads `currentlr` and computes the new value -/
  | read (s : LrState F) (o : Nat) (hp : s.pend o = none) (h : lrDue cfg (s.cnt o + 1) = .ok true) :
      LrStep cfg s { s with
        cnt := Function.update s.cnt o (s.cnt o + 1),
        pend := Function.update s.pend o (some (newLr cfg (s.cnt o + 1) s.lr)) }
  /-- `word2vec.go:213,215`: stores it -/
  | write (s : LrState F) (o : Nat) (v : F) (hp : s.pend o = some v) :
      LrStep cfg s { s with lr := v, pend := Function.update s.pend o none }

/-- any history of observer steps in which no observer counts more than `Len` words (each word of the indexed document
is counted once per iteration, C37, and the indexed document has at most `Len` words) -/
inductive LrRun (cfg : LrCfg F) : LrState F → Prop
  | init : LrRun cfg (LrState.init cfg)
  | step (s t : LrState F) (h : LrRun cfg s) (hs : LrStep cfg s t) (hc : ∀ o, t.cnt o ≤ cfg.len) : LrRun cfg t

end Wego
