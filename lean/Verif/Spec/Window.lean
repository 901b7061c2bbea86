import Mathlib.Algebra.Order.Ring.Int
import Mathlib.Algebra.Order.Group.Abs

/-! # The context window of a position -/

namespace Wego.Spec

/-- The positions of a document of length `len` at distance between 1 and `radius` from `pos`, in increasing order. -/
def contextPositions (radius : Int) (pos len : Nat) : List Nat :=
  (List.range len).filter (fun c => decide (c ≠ pos ∧ |(c : Int) - pos| ≤ radius))

end Wego.Spec
