import Verif.Go.Res
import Verif.Model.Modelutil

/-! # Goroutines that share memory: programs of single loads and stores, and their interleavings

Training goroutines read and write the parameter matrices, the vectors of the Huffman tree, the generator variable
`next` and `currentlr` without locks. A goroutine is a `Prog`: a tree of single loads and stores of shared variables.
`Sys.Step` lets any goroutine make its next load or store; what a load may return is the parameter `MemEnv`, so that the
theorems cover sequential consistency (`MemEnv.sc`, a load returns the current value) and also weaker memory (a racing load
returns some other value). Synchronisation (channels, semaphore, wait group: `Verif/Model/Concurrency.lean`) only
removes interleavings, so it is left out here. Stores of `float64` values are single steps. -/

namespace Wego

/-- A shared float64 variable. -/
inductive Loc where
  /-- element of `w.param` (`word2vec.go:53`, `lexvec.go:53`, `glove.go:51`) -/
  | param (r c : Nat)
  /-- element of the context matrix of negative sampling (`optimizer.go:30`) -/
  | ctx (r c : Nat)
  /-- element of the vector of a node of the Huffman tree (`node.go:22`) -/
  | node (n c : Nat)
  /-- element of AdaGrad's `gradsq` (`solver.go:66`) -/
  | gradsq (r c : Nat)
  /-- `currentlr` -/
  | lr
  deriving DecidableEq, Repr

/-- The shared variables: the float64 ones and `next` (`modelutil.go:21`). -/
structure Mem (F : Type) where
  cell : Loc → F
  next : UInt64

/-- `*l = v` -/
def Mem.set {F : Type} (m : Mem F) (l : Loc) (v : F) : Mem F :=
  { m with cell := fun l' => if l' = l then v else m.cell l' }

/-- What one goroutine does until it returns. `rand` is `rand.Float64()`; `path` is `nodeset[id].GetPath(maxDepth)` (its own
shared variable, the cached slice, is in `Verif/Model/PathRace.lean`). -/
inductive Prog (F α : Type) : Type where
  | ret (a : α)
  | panic (p : Panic)
  | load (l : Loc) (k : F → Prog F α)
  | store (l : Loc) (v : F) (k : Prog F α)
  | getNext (k : UInt64 → Prog F α)
  | setNext (v : UInt64) (k : Prog F α)
  | rand (k : F → Prog F α)
  | path (id : Nat) (k : List Nat → Prog F α)

namespace Prog
variable {F α β σ : Type}

/-- sequencing -/
protected def bind (x : Prog F α) (f : α → Prog F β) : Prog F β :=
  match x with
  | ret a => f a
  | panic p => panic p
  | load l k => load l (fun v => (k v).bind f)
  | store l v k => store l v (k.bind f)
  | getNext k => getNext (fun v => (k v).bind f)
  | setNext v k => setNext v (k.bind f)
  | rand k => rand (fun v => (k v).bind f)
  | path id k => path id (fun v => (k v).bind f)

instance : Monad (Prog F) where
  pure := Prog.ret
  bind := Prog.bind

/-- a computation on local variables (which may panic); errors are not raised by training code -/
def ofRes (x : Res α) : Prog F α :=
  match x with
  | .ok a => ret a
  | .panic p => panic p
  | .err _ => panic .hang

/-- `for i := lo; i < lo+n; i++ { s = f i s }` -/
def forFromP (lo n : Nat) (s : σ) (f : Nat → σ → Prog F σ) : Prog F σ :=
  match n with
  | 0 => ret s
  | n + 1 => f lo s >>= fun s' => forFromP (lo + 1) n s' f

/-- `for i := 0; i < n; i++ { s = f i s }` -/
def forP (n : Nat) (s : σ) (f : Nat → σ → Prog F σ) : Prog F σ := forFromP 0 n s f

end Prog

/-- What loads may return. -/
structure MemEnv (F : Type) where
  cell : Mem F → Loc → F → Prop
  next : Mem F → UInt64 → Prop
  /-- what `rand.Float64()` may return -/
  rand : F → Prop
  /-- what `GetPath` may return for the word `id` -/
  path : Nat → List Nat → Prop

/-- The shared memory and the goroutines. -/
structure Sys (F : Type) where
  mem : Mem F
  threads : List (Prog F Unit)

namespace Sys
variable {F : Type}

/-- one goroutine makes its next load or store -/
inductive Step (env : MemEnv F) : Sys F → Sys F → Prop
  | load (m : Mem F) (l r : List (Prog F Unit)) (x : Loc) (k : F → Prog F Unit) (v : F) (h : env.cell m x v) :
      Step env ⟨m, l ++ .load x k :: r⟩ ⟨m, l ++ k v :: r⟩
  | store (m : Mem F) (l r : List (Prog F Unit)) (x : Loc) (v : F) (k : Prog F Unit) :
      Step env ⟨m, l ++ .store x v k :: r⟩ ⟨m.set x v, l ++ k :: r⟩
  | getNext (m : Mem F) (l r : List (Prog F Unit)) (k : UInt64 → Prog F Unit) (v : UInt64) (h : env.next m v) :
      Step env ⟨m, l ++ .getNext k :: r⟩ ⟨m, l ++ k v :: r⟩
  | setNext (m : Mem F) (l r : List (Prog F Unit)) (v : UInt64) (k : Prog F Unit) :
      Step env ⟨m, l ++ .setNext v k :: r⟩ ⟨{ m with next := v }, l ++ k :: r⟩
  | rand (m : Mem F) (l r : List (Prog F Unit)) (k : F → Prog F Unit) (v : F) (h : env.rand v) :
      Step env ⟨m, l ++ .rand k :: r⟩ ⟨m, l ++ k v :: r⟩
  | path (m : Mem F) (l r : List (Prog F Unit)) (id : Nat) (k : List Nat → Prog F Unit) (p : List Nat) (h : env.path id p) :
      Step env ⟨m, l ++ .path id k :: r⟩ ⟨m, l ++ k p :: r⟩

/-- the states reachable by some schedule -/
inductive Reach (env : MemEnv F) (s₀ : Sys F) : Sys F → Prop
  | refl : Reach env s₀ s₀
  | step (s t : Sys F) (h : Reach env s₀ s) (hs : Step env s t) : Reach env s₀ t

/-- some goroutine has panicked (which ends the process) -/
def Crashed (s : Sys F) : Prop := ∃ p, Prog.panic p ∈ s.threads

/-- every goroutine has returned -/
def Done (s : Sys F) : Prop := ∀ t ∈ s.threads, t = Prog.ret ()

/-- Iterations separated by `wg.Wait()` (`glove.go:117-133`): the goroutines `ts` of an iteration all return before those of the next one
start. From memory `m`, the memory at the end can be the last argument. -/
inductive Rounds (env : MemEnv F) : Mem F → List (List (Prog F Unit)) → Mem F → Prop
  | nil (m : Mem F) : Rounds env m [] m
  | cons (m m' : Mem F) (ts : List (Prog F Unit)) (rest : List (List (Prog F Unit))) (s : Sys F)
      (h : Reach env ⟨m, ts⟩ s) (hd : s.Done) (hr : Rounds env s.mem rest m') : Rounds env m (ts :: rest) m'

end Sys

/-- The goroutines of a training loop with the semaphore (`word2vec.go:182-205`, `lexvec.go:173-197`): `obs` are the observers, `wait` the workers
that have not yet acquired it, `run` those that hold it. -/
structure Pool (F : Type) where
  mem : Mem F
  obs : List (Prog F Unit)
  wait : List (Prog F Unit)
  run : List (Prog F Unit)

namespace Pool
variable {F : Type}

/-- `sem.Acquire` (a worker may start while fewer than `g` hold the semaphore), one load or store of a worker or of an observer, and
`wg.Done(); sem.Release(1)` of a worker that has finished its document (merged into one step) -/
inductive Step (env : MemEnv F) (g : Nat) : Pool F → Pool F → Prop
  | acquire (m : Mem F) (obs l r run : List (Prog F Unit)) (x : Prog F Unit) (h : run.length < g) :
      Step env g ⟨m, obs, l ++ x :: r, run⟩ ⟨m, obs, l ++ r, x :: run⟩
  | work (m m' : Mem F) (obs wait run run' : List (Prog F Unit)) (h : Sys.Step env ⟨m, run⟩ ⟨m', run'⟩) :
      Step env g ⟨m, obs, wait, run⟩ ⟨m', obs, wait, run'⟩
  | observe (m m' : Mem F) (obs obs' wait run : List (Prog F Unit)) (h : Sys.Step env ⟨m, obs⟩ ⟨m', obs'⟩) :
      Step env g ⟨m, obs, wait, run⟩ ⟨m', obs', wait, run⟩
  | release (m : Mem F) (obs wait l r : List (Prog F Unit)) :
      Step env g ⟨m, obs, wait, l ++ .ret () :: r⟩ ⟨m, obs, wait, l ++ r⟩

/-- the states reachable by some schedule -/
inductive Reach (env : MemEnv F) (g : Nat) (s₀ : Pool F) : Pool F → Prop
  | refl : Reach env g s₀ s₀
  | step (s t : Pool F) (h : Reach env g s₀ s) (hs : Step env g s t) : Reach env g s₀ t

/-- `word2vec.go:142-157`, `162-178`, `lexvec.go:128-143`, `153-169`: the iterations. Each starts an observer and the workers and waits for the workers
(`wg.Wait()`); observers are not waited for: `obs` are those of earlier iterations. The last argument is the memory when the last iteration ends. -/
inductive Iters (env : MemEnv F) (g : Nat) : Mem F → List (Prog F Unit) → List (Prog F Unit × List (Prog F Unit)) → Mem F → Prop
  | nil (m : Mem F) (obs : List (Prog F Unit)) : Iters env g m obs [] m
  | cons (m m' m'' : Mem F) (obs obs' : List (Prog F Unit)) (ob : Prog F Unit) (ws : List (Prog F Unit)) (rest : List (Prog F Unit × List (Prog F Unit)))
      (h : Reach env g ⟨m, ob :: obs, ws, []⟩ ⟨m', obs', [], []⟩) (hr : Iters env g m' obs' rest m'') : Iters env g m obs ((ob, ws) :: rest) m''

end Pool

/-- Sequential consistency. -/
def MemEnv.sc {F : Type} (rand : F → Prop) (path : Nat → List Nat → Prop) : MemEnv F where
  cell m l v := v = m.cell l
  next m v := v = m.next
  rand := rand
  path := path

/-- What a goroutine gets from outside: the results of `rand.Float64()`, and the values its loads of `currentlr` return (observer goroutines
change that variable at any time). -/
structure Ora (F : Type) where
  rand : Nat → F
  lr : Nat → F

/-- the first random number has been used -/
def Ora.dropRand {F : Type} (o : Ora F) : Ora F := { o with rand := fun n => o.rand (n + 1) }

/-- the first learning rate has been used -/
def Ora.dropLr {F : Type} (o : Ora F) : Ora F := { o with lr := fun n => o.lr (n + 1) }

/-- A goroutine that runs alone (except for observers): every load returns the current value, loads of `currentlr` return `o.lr 0`, `o.lr 1`, ...;
`path` is the result of `GetPath`. Returns the result, the memory and the rest of the input. -/
def Prog.run {F α : Type} (path : Nat → List Nat) : Prog F α → Mem F → Ora F → Res (α × Mem F × Ora F)
  | .ret a, m, o => .ok (a, m, o)
  | .panic p, _, _ => .panic p
  | .load l k, m, o => if l = .lr then (k (o.lr 0)).run path m o.dropLr else (k (m.cell l)).run path m o
  | .store l v k, m, o => k.run path (m.set l v) o
  | .getNext k, m, o => (k m.next).run path m o
  | .setNext v k, m, o => k.run path { m with next := v } o
  | .rand k, m, o => (k (o.rand 0)).run path m o.dropRand
  | .path id k, m, o => (k (path id)).run path m o

end Wego
