import Verif.Model.Prog

/-! # Data races

Two goroutines race when both are about to access the same shared variable and at least one of them writes: nothing orders the two accesses. (In the Go memory model, too, two adjacent
conflicting accesses of an execution are not ordered by happens-before.) -/

namespace Wego.Spec
open Wego
variable {F : Type}

/-- a shared variable: a float64 one or the generator variable `next` -/
inductive Var where
  | cell (l : Loc)
  | next
  deriving DecidableEq

/-- the shared variable the goroutine accesses next, and whether it writes it -/
def access : Prog F Unit → Option (Var × Bool)
  | .load l _ => some (.cell l, false)
  | .store l _ _ => some (.cell l, true)
  | .getNext _ => some (.next, false)
  | .setNext _ _ => some (.next, true)
  | _ => none

/-- two different goroutines of the list race on the variable `v` -/
def Race (ps : List (Prog F Unit)) (v : Var) : Prop :=
  ∃ (l m r : List (Prog F Unit)) (x y : Prog F Unit) (a b : Bool), ps = l ++ x :: (m ++ y :: r) ∧ access x = some (v, a) ∧ access y = some (v, b) ∧ (a = true ∨ b = true)

/-- the goroutine accesses no shared variable but `currentlr` -/
def OnlyRate {α : Type} : Prog F α → Prop
  | .ret _ => True
  | .panic _ => True
  | .load l k => l = .lr ∧ ∀ v, OnlyRate (k v)
  | .store l _ k => l = .lr ∧ OnlyRate k
  | .getNext _ => False
  | .setNext _ _ => False
  | .rand _ => False
  | .path _ _ => False

end Wego.Spec
