import Verif.Go.Res
import Verif.Go.F64

/-! # `pkg/model/modelutil/modelutil.go` -/

namespace Wego

/-- `modelutil.go:21-23`: the package variable `next`. -/
def rndInit : UInt64 := 1

/-- `modelutil.go:27`: `next = next*uint64(25214903917) + 11` (wraps around). -/
def rndStep (s : UInt64) : UInt64 := s * 25214903917 + 11

/-- the conversion `int(x)` of a `uint64` (two's complement) -/
def int64OfUInt64 (x : UInt64) : Int := if x.toNat < 2 ^ 63 then (x.toNat : Int) else (x.toNat : Int) - 2 ^ 64

/-- the conversion `uint64(v)` of an `int` -/
def uint64OfInt (v : Int) : UInt64 := UInt64.ofNat (v % 2 ^ 64).toNat

/-- `modelutil.go:26-29` `NextRandom(value)`: the new generator state and the result. -/
def nextRandom (s : UInt64) (value : Int) : Res (UInt64 × Int) :=
  let s := rndStep s
  if uint64OfInt value = 0 then .panic .divByZero
  else .ok (s, int64OfUInt64 (s % uint64OfInt value))

/-- `modelutil.go:38`: `int(math.Trunc(float64(k)))` for a non-negative `k`; the conversion to float64
rounds, `int` truncates. -/
def truncFloat (k : Nat) : Int := GoFloat.toInt (GoFloat.ofRat (k : ℚ) : F64)

/-- `modelutil.go:32-41` `IndexPerThread(threadSize, dataSize)` (`dataSize` is a length, so not negative). -/
def indexPerThread (threadSize : Int) (dataSize : Nat) : Res (List Int) :=
  if threadSize + 1 < 0 then .panic .makeNegLen
  else
    let t := threadSize.toNat
    let v : List Int := List.replicate (threadSize + 1).toNat 0
    setIdx v 0 0 >>= fun v =>
    setIdx v t dataSize >>= fun v =>
    forFrom 1 (t - 1) v (fun i v =>
      idx v (i - 1) >>= fun p => setIdx v i (p + truncFloat ((dataSize + i) / t)))

/-- `word2vec.go:149-153`, `lexvec.go:134-138`, `glove.go:124-128`: the slices `l[v[i]:v[i+1]]` handed to the workers
`i < t`; panics exactly like the Go index and slice expressions. -/
def parts {α : Type} (l : List α) (v : List Int) (t : Nat) : Res (List (List α)) :=
  forN t [] (fun i acc =>
    idx v i >>= fun a => idx v (i + 1) >>= fun b =>
    if 0 ≤ a ∧ a ≤ b ∧ b ≤ l.length then .ok (acc ++ [(l.take b.toNat).drop a.toNat])
    else .panic .sliceBounds)

end Wego
