import Mathlib.Data.List.Basic

/-! # One iteration of parallel training

`word2vec.go:161-180` (`batchTrain`, file-backed), `word2vec.go:135-159` (`train`, in memory),
`lexvec.go:147-171`, `lexvec.go:116-145`, `glove.go:110-135`, with their `trainPerThread` (`word2vec.go:182-205`,
`lexvec.go:173-197`, `glove.go:137-160`) and observers. All five iterations have the same goroutines: a producer of
batches, the main loop, one worker per batch, and the observer.

The unit of work (`α`) is one turn of the worker's loop: a position of the document with its word (word2vec, LexVec) or
an item (GloVe). Simplifications: `wg.Add(1)` and the `go` statement belong to the step that takes the batch (only the
main goroutine waits on `wg`, later); the body of the observer's loop (learning rate, output) belongs to the step
that receives; `Train`'s state (matrices) is not part of this system. Blocking operations are enabled only when Go
would let them proceed; a Go runtime panic sets `crashed`. -/

namespace Wego

/-- where a worker is (`word2vec.go:182-205`) -/
inductive WPc where
  /-- before `sem.Acquire` -/
  | waiting
  /-- holds a permit, at the head of the loop -/
  | running
  /-- inside `trainOne`, holding a buffer of `mod.ch` (`model.go:51-54`, `106-109`) -/
  | training
  /-- at `trained <- struct{}{}` -/
  | sending
  /-- after `wg.Done()`, before `sem.Release(1)` -/
  | releasing
  | finished
  deriving DecidableEq, Repr

/-- a worker: its slice, the loop index and where it is -/
structure Worker (α : Type) where
  batch : List α
  pos : Nat
  pc : WPc

/-- where the main goroutine is -/
inductive MPc where
  /-- `for doc := range in` / `for i := 0; i < Goroutines; i++` -/
  | loop
  /-- `wg.Wait()` -/
  | waiting
  /-- `close(trained)` -/
  | closing
  /-- the iteration is over -/
  | done
  deriving DecidableEq, Repr

/-- the shared state of one iteration -/
structure Iter (α : Type) where
  /-- batches the producer has not sent yet -/
  src : List (List α)
  /-- contents of the channel `in` -/
  buf : List (List α)
  inClosed : Bool
  main : MPc
  /-- counter of the wait group -/
  wg : Nat
  /-- free permits of the semaphore -/
  permits : Nat
  /-- buffers in `mod.ch` -/
  pool : Nat
  workers : List (Worker α)
  trainedClosed : Bool
  /-- the observer is still in its loop -/
  observing : Bool
  /-- words counted by the observer -/
  cnt : Nat
  /-- loop turns started, in order (ghost) -/
  log : List α
  crashed : Bool

namespace Iter
variable {α : Type}

/-- Start of an iteration of `batchTrain` (`word2vec.go:162-170`): the producer will send `batches`. `mod.ch` holds
`Goroutines` buffers (`model.go:38-41`, `93-99`), see the invariant for later iterations. -/
def initBatch (g : Nat) (batches : List (List α)) : Iter α :=
  { src := batches, buf := [], inClosed := false, main := .loop, wg := 0, permits := g, pool := g, workers := [],
    trainedClosed := false, observing := true, cnt := 0, log := [], crashed := false }

/-- Start of an iteration of `train` (`word2vec.go:142-147`): the main loop takes the slices from a fixed list. -/
def initMem (g : Nat) (slices : List (List α)) : Iter α :=
  { src := [], buf := slices, inClosed := true, main := .loop, wg := 0, permits := g, pool := g, workers := [],
    trainedClosed := false, observing := true, cnt := 0, log := [], crashed := false }

/-- One step of one goroutine. `g` is `Goroutines` (capacity of `in`, weight of the semaphore); `fails` says that
`BatchWords` returns an error after the batches in `src` instead of closing the channel (`fs.go:77-79`). -/
inductive Step (g : Nat) (fails : Bool) : Iter α → Iter α → Prop
  /-- `fs.go:73`, `82`: `ch <- ids` with room in the buffer -/
  | produce (s : Iter α) (b : List α) (bs : List (List α)) (hc : s.crashed = false) (h : s.src = b :: bs)
      (hr : s.buf.length < g) : Step g fails s { s with src := bs, buf := s.buf ++ [b] }
  /-- `fs.go:73`, `82` and `word2vec.go:171`: unbuffered channel (`g = 0`), main is receiving -/
  | handoff (s : Iter α) (b : List α) (bs : List (List α)) (hc : s.crashed = false) (h : s.src = b :: bs)
      (hb : s.buf = []) (hg : g = 0) (hm : s.main = .loop) :
      Step g fails s { s with src := bs, wg := s.wg + 1, workers := s.workers ++ [⟨b, 0, .waiting⟩] }
  /-- `fs.go:83` `close(ch)` -/
  | closeIn (s : Iter α) (hc : s.crashed = false) (h : s.src = []) (hf : fails = false) (hi : s.inClosed = false) :
      Step g fails s { s with inClosed := true }
  /-- `word2vec.go:171-174`: take a batch, `wg.Add(1)`, start a worker -/
  | take (s : Iter α) (b : List α) (bs : List (List α)) (hc : s.crashed = false) (h : s.buf = b :: bs)
      (hm : s.main = .loop) :
      Step g fails s { s with buf := bs, wg := s.wg + 1, workers := s.workers ++ [⟨b, 0, .waiting⟩] }
  /-- the loop ends: the channel is closed and empty -/
  | endLoop (s : Iter α) (hc : s.crashed = false) (h : s.buf = []) (hi : s.inClosed = true) (hm : s.main = .loop) :
      Step g fails s { s with main := .waiting }
  /-- `word2vec.go:176` `wg.Wait()` returns -/
  | waited (s : Iter α) (hc : s.crashed = false) (hm : s.main = .waiting) (hw : s.wg = 0) :
      Step g fails s { s with main := .closing }
  /-- `word2vec.go:177` `close(trained)` -/
  | closeTrained (s : Iter α) (hc : s.crashed = false) (hm : s.main = .closing) :
      Step g fails s { s with main := .done, trainedClosed := true }
  /-- `word2vec.go:193` `sem.Acquire` (weights above the size block for ever) -/
  | acquire (s : Iter α) (l r : List (Worker α)) (b : List α) (p : Nat) (hc : s.crashed = false)
      (h : s.workers = l ++ ⟨b, p, .waiting⟩ :: r) (hp : 0 < s.permits) :
      Step g fails s { s with workers := l ++ ⟨b, p, .running⟩ :: r, permits := s.permits - 1 }
  /-- `word2vec.go:198`: the subsampler rejects the word -/
  | skip (s : Iter α) (l r : List (Worker α)) (b : List α) (p : Nat) (x : α) (hc : s.crashed = false)
      (h : s.workers = l ++ ⟨b, p, .running⟩ :: r) (hx : b[p]? = some x) :
      Step g fails s { s with workers := l ++ ⟨b, p, .sending⟩ :: r, log := s.log ++ [x] }
  /-- `word2vec.go:199`, `model.go:51`: `trainOne` takes a buffer -/
  | train (s : Iter α) (l r : List (Worker α)) (b : List α) (p : Nat) (x : α) (hc : s.crashed = false)
      (h : s.workers = l ++ ⟨b, p, .running⟩ :: r) (hx : b[p]? = some x) (hp : 0 < s.pool) :
      Step g fails s { s with workers := l ++ ⟨b, p, .training⟩ :: r, log := s.log ++ [x], pool := s.pool - 1 }
  /-- `model.go:52-54`: `trainOne` gives the buffer back and returns -/
  | trained (s : Iter α) (l r : List (Worker α)) (b : List α) (p : Nat) (hc : s.crashed = false)
      (h : s.workers = l ++ ⟨b, p, .training⟩ :: r) (hp : s.pool < g) :
      Step g fails s { s with workers := l ++ ⟨b, p, .sending⟩ :: r, pool := s.pool + 1 }
  /-- `word2vec.go:201` and `209`: the observer receives -/
  | send (s : Iter α) (l r : List (Worker α)) (b : List α) (p : Nat) (hc : s.crashed = false)
      (h : s.workers = l ++ ⟨b, p, .sending⟩ :: r) (ht : s.trainedClosed = false) (ho : s.observing = true) :
      Step g fails s { s with workers := l ++ ⟨b, p + 1, .running⟩ :: r, cnt := s.cnt + 1 }
  /-- sending on the closed channel panics -/
  | sendClosed (s : Iter α) (l r : List (Worker α)) (b : List α) (p : Nat) (hc : s.crashed = false)
      (h : s.workers = l ++ ⟨b, p, .sending⟩ :: r) (ht : s.trainedClosed = true) :
      Step g fails s { s with crashed := true }
  /-- `word2vec.go:189` `wg.Done()` after the loop -/
  | done (s : Iter α) (l r : List (Worker α)) (b : List α) (p : Nat) (hc : s.crashed = false)
      (h : s.workers = l ++ ⟨b, p, .running⟩ :: r) (hx : b[p]? = none) (hw : 0 < s.wg) :
      Step g fails s { s with workers := l ++ ⟨b, p, .releasing⟩ :: r, wg := s.wg - 1 }
  /-- a negative wait group counter panics -/
  | doneNegative (s : Iter α) (l r : List (Worker α)) (b : List α) (p : Nat) (hc : s.crashed = false)
      (h : s.workers = l ++ ⟨b, p, .running⟩ :: r) (hx : b[p]? = none) (hw : s.wg = 0) :
      Step g fails s { s with crashed := true }
  /-- `word2vec.go:190` `sem.Release(1)` -/
  | release (s : Iter α) (l r : List (Worker α)) (b : List α) (p : Nat) (hc : s.crashed = false)
      (h : s.workers = l ++ ⟨b, p, .releasing⟩ :: r) (hp : s.permits < g) :
      Step g fails s { s with workers := l ++ ⟨b, p, .finished⟩ :: r, permits := s.permits + 1 }
  /-- releasing more than held panics -/
  | releaseTooMuch (s : Iter α) (l r : List (Worker α)) (b : List α) (p : Nat) (hc : s.crashed = false)
      (h : s.workers = l ++ ⟨b, p, .releasing⟩ :: r) (hp : g ≤ s.permits) :
      Step g fails s { s with crashed := true }
  /-- `word2vec.go:209`: the observer's loop ends on the closed channel -/
  | obsEnd (s : Iter α) (hc : s.crashed = false) (ht : s.trainedClosed = true) (ho : s.observing = true) :
      Step g fails s { s with observing := false }

/-- the states reachable from `s₀` -/
inductive Reach (g : Nat) (fails : Bool) (s₀ : Iter α) : Iter α → Prop
  | refl : Reach g fails s₀ s₀
  | step (s t : Iter α) (h : Reach g fails s₀ s) (hs : Step g fails s t) : Reach g fails s₀ t

/-- runs of exactly `n` steps -/
inductive Run (g : Nat) (fails : Bool) : Nat → Iter α → Iter α → Prop
  | nil (s : Iter α) : Run g fails 0 s s
  | cons (n : Nat) (s t u : Iter α) (hs : Step g fails s t) (h : Run g fails n t u) : Run g fails (n + 1) s u

end Iter
end Wego
