import Verif.Go.Res
import Verif.Go.Float

/-! # `pkg/model/modelutil/matrix/matrix.go` -/

namespace Wego

/-- `matrix.go:17-21` `type Matrix` -/
structure Matrix (F : Type) where
  array : List F
  row : Int
  col : Int
  deriving DecidableEq, Repr

namespace Matrix
variable {F : Type}

/-- `matrix.go:35-37` `startIndex` -/
def startIndex (m : Matrix F) (id : Int) : Int := id * m.col

/-- `matrix.go:47-50` `Slice(id)`: offset of the view `m.array[start : start+m.col]`; its length is
`col`. Panics like the Go slice expression. -/
def slice (m : Matrix F) (id : Int) : Res Nat :=
  let start := m.startIndex id
  if 0 ≤ start ∧ start ≤ start + m.col ∧ start + m.col ≤ m.array.length then .ok start.toNat
  else .panic .sliceBounds

/-- The elements seen through `Slice(id)`. -/
def getRow (m : Matrix F) (id : Int) : Res (List F) :=
  m.slice id >>= fun off => .ok ((m.array.drop off).take m.col.toNat)

/-- Overwrite all elements seen through `Slice(id)` (a loop of `m.Slice(id)[j] = vals[j]`). -/
def setRow (m : Matrix F) (id : Int) (vals : List F) : Res (Matrix F) :=
  m.slice id >>= fun off =>
  .ok { m with array := m.array.take off ++ vals ++ m.array.drop (off + vals.length) }

/-- `m.Slice(id)[j]` -/
def getAt (m : Matrix F) (id : Int) (j : Nat) : Res F :=
  m.slice id >>= fun off => if j < m.col.toNat then idx m.array (off + j) else .panic .indexOutOfRange

/-- `m.Slice(id)[j] = v` -/
def setAt (m : Matrix F) (id : Int) (j : Nat) (v : F) : Res (Matrix F) :=
  m.slice id >>= fun off =>
  if j < m.col.toNat then setIdx m.array (off + j) v >>= fun a => .ok { m with array := a }
  else .panic .indexOutOfRange

variable [GoFloat F] {σ : Type}

/-- `matrix.go:23-33` `New(row, col, fn)`; `fn` overwrites the slice it is given and may use and change
captured variables `σ` (here: the random generator). -/
def new (row col : Int) (fn : Nat → List F → σ → List F × σ) (s : σ) : Res (Matrix F × σ) :=
  if row * col < 0 then .panic .makeNegLen
  else
    let mat : Matrix F := { array := List.replicate (row * col).toNat fzero, row := row, col := col }
    forN row.toNat (mat, s) (fun i (mat, s) =>
      mat.getRow i >>= fun vec =>
      let r := fn i vec s
      mat.setRow i r.1 >>= fun mat => .ok (mat, r.2))

end Matrix
end Wego
