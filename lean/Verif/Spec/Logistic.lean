import Mathlib.Analysis.SpecialFunctions.Exp
import Mathlib.Algebra.BigOperators.Group.List.Basic

/-! # Logistic-regression steps on real vectors -/

namespace Wego.Spec

/-- scalar product -/
def dot (x y : List ℝ) : ℝ := (List.zipWith (· * ·) x y).sum

/-- `y + a * x` -/
def axpy (a : ℝ) (x y : List ℝ) : List ℝ := List.zipWith (fun y x => y + a * x) y x

/-- The output vectors (one per index) and the gradient accumulated for the input vector. -/
structure LogState where
  rows : Nat → List ℝ
  grad : List ℝ

/-- One step of logistic regression for input `ctx`, output row `k` and `label` (1 or 0): with `p` the
probability the logistic function gives for `row . ctx` (up to an error of 0.003), the row moves by
`(label - p) * lr * ctx`, the gradient by `(label - p) * lr * row(old)`; other rows stay. -/
def LogStep (lr : ℝ) (ctx : List ℝ) (k : Nat) (label : ℝ) (s s' : LogState) : Prop :=
  ∃ p : ℝ, 0 ≤ p ∧ p ≤ 1 ∧ |p - 1 / (1 + Real.exp (-(dot (s.rows k) ctx)))| ≤ 0.003 ∧
    s'.rows k = axpy ((label - p) * lr) ctx (s.rows k) ∧
    (∀ j, j ≠ k → s'.rows j = s.rows j) ∧
    s'.grad = axpy ((label - p) * lr) (s.rows k) s.grad

/-- A sequence of steps, for the listed rows and labels in order. -/
inductive LogRun (lr : ℝ) (ctx : List ℝ) : List (Nat × ℝ) → LogState → LogState → Prop where
  | nil (s : LogState) : LogRun lr ctx [] s s
  | cons {k : Nat} {label : ℝ} {rest : List (Nat × ℝ)} {s s' s'' : LogState} :
      LogStep lr ctx k label s s' → LogRun lr ctx rest s' s'' → LogRun lr ctx ((k, label) :: rest) s s''

end Wego.Spec
