import Verif.Model.Huffman

/-! # Concurrent `GetPath` calls on one node (`pkg/corpus/dictionary/node/node.go:26-43`)

The statements of `GetPath` as atomic steps on the shared `cache` field of one node; `up` is the chain
of nodes from the node itself to the root, which no goroutine changes. Simplifications: memory is
sequentially consistent, a slice header is read or written in one step, and `re` (the reversal) is one
step. Real executions have at least these interleavings. -/

namespace Wego

/-- program counters of one call -/
inductive PathPc where
  /-- `node.go:27` about to test `n.cache == nil` -/
  | test
  /-- `node.go:33` about to assign `make([]*Node, 0)` -/
  | alloc
  /-- `node.go:34-35` about to read `n.cache` for `append`, `k` nodes done -/
  | load (k : Nat)
  /-- `node.go:35` about to assign the appended slice -/
  | store (k : Nat) (c : List Nat)
  /-- `node.go:37` about to reverse -/
  | rev
  /-- `node.go:39-42` about to return -/
  | ret
  /-- returned this slice -/
  | done (r : List Nat)
  deriving DecidableEq, Repr

/-- The shared cache and the callers (their program counter and requested depth). -/
structure PathState where
  cache : Option (List Nat)
  callers : List (PathPc × Nat)
  deriving DecidableEq, Repr

/-- One step of one call (`node.go:26-43`); depth is not negative. -/
def pathStep1 (up : List Nat) (cache : Option (List Nat)) (depth : Nat) : PathPc → Option (List Nat) × PathPc
  | .test => (cache, if cache = none then .alloc else .ret)
  | .alloc => (some [], .load 0)
  | .load k =>
    match up[k]? with
    | none => (cache, .rev)
    | some _ => (cache, .store k (cache.getD []))
  | .store k c => (some (c ++ [up.getD k 0]), .load (k + 1))
  | .rev => (cache.map List.reverse, .ret)
  | .ret => (cache, .done ((cache.getD []).take depth))
  | .done r => (cache, .done r)

/-- Caller number `t` takes a step. -/
def pathStep (up : List Nat) (s : PathState) (t : Nat) : PathState :=
  match s.callers[t]? with
  | none => s
  | some (pc, depth) =>
    let r := pathStep1 up s.cache depth pc
    { cache := r.1, callers := s.callers.set t (r.2, depth) }

/-- Run a schedule (the caller that moves at each step). -/
def pathRun (up : List Nat) (s : PathState) (sched : List Nat) : PathState := sched.foldl (pathStep up) s

/-- Callers with the given depths, all before their first statement. -/
def pathStart (cache : Option (List Nat)) (depths : List Nat) : PathState :=
  { cache := cache, callers := depths.map (fun d => (.test, d)) }

end Wego
