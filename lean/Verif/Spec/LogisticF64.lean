import Verif.Proofs.F64Err

/-! # Logistic-regression steps in float64 arithmetic

The same steps as in `Verif/Spec/Logistic.lean`, with every operation rounded to float64. -/

namespace Wego.Spec
open Wego

/-- scalar product, accumulated from the left, starting at 0 -/
def dot64 : F64 → List F64 → List F64 → F64
  | acc, a :: x, b :: y => dot64 (F64.add acc (F64.mul a b)) x y
  | acc, _, _ => acc

/-- `y + g * x`, coordinate by coordinate -/
def axpy64 (g : F64) : List F64 → List F64 → List F64
  | b :: y, a :: x => F64.add b (F64.mul g a) :: axpy64 g y x
  | _, _ => []

/-- 0 -/
def zero64 : F64 := F64.round 0

/-- `p` is the probability of score `x`: between 0 and 1; within 0.004 of the logistic function for a finite score, and
0 or 1 for an infinite one. -/
def Prob (x p : F64) : Prop :=
  F64.IsFin p ∧ 0 ≤ F64.toReal p ∧ F64.toReal p ≤ 1 ∧
  match x with
  | .nan => False
  | .inf true => F64.toReal p = 0
  | .inf false => F64.toReal p = 1
  | .fin s n h => |F64.toReal p - 1 / (1 + Real.exp (-(F64.toReal (.fin s n h))))| ≤ 0.004

/-- The output vectors (one per index) and the gradient accumulated for the input vector. -/
structure LogState64 where
  rows : Nat → List F64
  grad : List F64

/-- One step for input `ctx`, output row `k` and `label`: `g = (label - p) * lr`; the row becomes `row + g * ctx`, the
gradient `grad + g * row(old)`; other rows stay. -/
def LogStep64 (lr : F64) (ctx : List F64) (k : Nat) (label : Int) (s s' : LogState64) : Prop :=
  ∃ p : F64, Prob (dot64 zero64 (s.rows k) ctx) p ∧
    s'.rows k = axpy64 (F64.mul (F64.sub (F64.round label) p) lr) (s.rows k) ctx ∧
    (∀ j, j ≠ k → s'.rows j = s.rows j) ∧
    s'.grad = axpy64 (F64.mul (F64.sub (F64.round label) p) lr) s.grad (s.rows k)

/-- A sequence of steps, for the listed rows and labels in order. -/
inductive LogRun64 (lr : F64) (ctx : List F64) : List (Nat × Int) → LogState64 → LogState64 → Prop where
  | nil (s : LogState64) : LogRun64 lr ctx [] s s
  | cons {k : Nat} {label : Int} {rest : List (Nat × Int)} {s s' s'' : LogState64} :
      LogStep64 lr ctx k label s s' → LogRun64 lr ctx rest s' s'' → LogRun64 lr ctx ((k, label) :: rest) s s''

end Wego.Spec
