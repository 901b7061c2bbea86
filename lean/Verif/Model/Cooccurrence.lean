import Verif.Go.Res
import Verif.Go.Map
import Verif.Go.Float

/-! # `pkg/corpus/cooccurrence` and `pkg/corpus/cooccurrence/encode` -/

namespace Wego

/-- `encode.go:29-31` `encode`: `l1 | (l2 << 32)` on `uint64`. -/
def encode (l1 l2 : BitVec 64) : BitVec 64 := l1 ||| (l2 <<< 32)

/-- `encode.go:21-27` `EncodeBigram` -/
def encodeBigram (l1 l2 : BitVec 64) : BitVec 64 :=
  if l1 < l2 then encode l1 l2 else encode l2 l1

/-- `encode.go:34-37` `DecodeBigram` -/
def decodeBigram (pid : BitVec 64) : BitVec 64 × BitVec 64 :=
  let f := pid >>> 32
  (pid - (f <<< 32), f)

/-- `cooccurrence.go:26-31`: count types are strings. -/
def countInc : String := "inc"
def countProx : String := "prox"

/-- `cooccurrence.go:37-41` -/
structure Cooccurrence (F : Type) where
  typ : String
  ma : GoMap (BitVec 64) F

namespace Cooccurrence
variable {F : Type} [GoFloat F]

/-- `cooccurrence.go:43-52` `New` -/
def new (typ : String) : Res (Cooccurrence F) :=
  if typ ≠ countInc ∧ typ ≠ countProx then .err .invalidCountType
  else .ok { typ := typ, ma := GoMap.empty }

/-- `cooccurrence.go:54-56` `EncodedMatrix` -/
def encodedMatrix (c : Cooccurrence F) : GoMap (BitVec 64) F := c.ma

/-- `cooccurrence.go:73`: `c.ma[enc] += val` (a missing entry reads as 0). -/
def addAt (m : GoMap (BitVec 64) F) (enc : BitVec 64) (val : F) : GoMap (BitVec 64) F :=
  m.set enc (((m.get? enc).getD fzero) +. val)

/-- `cooccurrence.go:58-75` `Add`. Ids are dictionary ids, hence natural numbers;
`uint64(id)` is `BitVec.ofNat 64 id`. -/
def add (c : Cooccurrence F) (left right : Nat) : Res (Cooccurrence F) :=
  let enc := encodeBigram (BitVec.ofNat 64 left) (BitVec.ofNat 64 right)
  if c.typ = countInc then
    .ok { c with ma := addAt c.ma enc (GoFloat.ofRat 1) }
  else if c.typ = countProx then
    let div : Int := (left : Int) - (right : Int)
    if div = 0 then .err .divideByZero
    else .ok { c with ma := addAt c.ma enc (GoFloat.ofRat 1 /. GoFloat.abs (GoFloat.ofRat (div : ℚ))) }
  else .err .invalidCountType

end Cooccurrence
end Wego
