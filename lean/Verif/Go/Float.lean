import Mathlib.Analysis.SpecialFunctions.Pow.Real
import Mathlib.Analysis.SpecialFunctions.Log.Basic
import Mathlib.Analysis.SpecialFunctions.Sqrt

/-!
# The float64 operations used by the code

The numeric code of wego is modelled once, over the interface `GoFloat F` (and `GoMath F` where
`math.Exp/Log/Pow` occur).  Two instances exist: `ℝ` (below; exact arithmetic) and `F64`
(`Verif/Go/F64.lean`; IEEE-754 binary64).
-/

namespace Wego

/-- Operations on Go `float64`. Comparisons are Boolean as in Go (all false on NaN). -/
class GoFloat (F : Type) where
  /-- a numeric constant, or the conversion `float64(n)` of an integer -/
  ofRat : ℚ → F
  add : F → F → F
  sub : F → F → F
  mul : F → F → F
  div : F → F → F
  /-- `math.Sqrt` -/
  sqrt : F → F
  /-- `math.Abs` -/
  abs : F → F
  /-- `x < y` -/
  lt : F → F → Bool
  /-- `x <= y` -/
  le : F → F → Bool
  /-- `x == y` -/
  eq : F → F → Bool
  /-- the conversion `int(x)` (truncation) -/
  toInt : F → Int

/-- Transcendental functions of package `math`. -/
class GoMath (F : Type) extends GoFloat F where
  exp : F → F
  log : F → F
  pow : F → F → F

infixl:65 " +. " => GoFloat.add
infixl:65 " -. " => GoFloat.sub
infixl:70 " *. " => GoFloat.mul
infixl:70 " /. " => GoFloat.div

/-- The zero value of `float64`. -/
def fzero {F : Type} [GoFloat F] : F := GoFloat.ofRat 0

/-- `x` is not NaN. -/
def IsNum {F : Type} [GoFloat F] (x : F) : Prop := GoFloat.eq x x = true

/-- What the theorems about ordering need from float comparisons; holds for `ℝ` and for `F64`
(NaN included). -/
class LawfulCmp (F : Type) [GoFloat F] : Prop where
  zero_num : IsNum (fzero : F)
  lt_num : ∀ x y : F, GoFloat.lt x y = true → IsNum x ∧ IsNum y
  le_total : ∀ x y : F, IsNum x → IsNum y → GoFloat.le x y = true ∨ GoFloat.le y x = true
  le_trans : ∀ x y z : F, GoFloat.le x y = true → GoFloat.le y z = true → GoFloat.le x z = true
  lt_iff : ∀ x y : F, IsNum x → IsNum y → (GoFloat.lt x y = true ↔ GoFloat.le y x = false)

/-- Exact arithmetic. `toInt` truncates toward zero. -/
noncomputable instance : GoMath ℝ where
  ofRat q := (q : ℝ)
  add x y := x + y
  sub x y := x - y
  mul x y := x * y
  div x y := x / y
  sqrt := Real.sqrt
  abs x := |x|
  lt x y := decide (x < y)
  le x y := decide (x ≤ y)
  eq x y := decide (x = y)
  toInt x := if 0 ≤ x then ⌊x⌋ else ⌈x⌉
  exp := Real.exp
  log := Real.log
  pow x y := x ^ y

section real
variable (x y : ℝ) (q : ℚ)
@[simp] theorem real_ofRat : (GoFloat.ofRat q : ℝ) = (q : ℝ) := rfl
@[simp] theorem real_add : x +. y = x + y := rfl
@[simp] theorem real_sub : x -. y = x - y := rfl
@[simp] theorem real_mul : x *. y = x * y := rfl
@[simp] theorem real_div : x /. y = x / y := rfl
@[simp] theorem real_sqrt : GoFloat.sqrt x = Real.sqrt x := rfl
@[simp] theorem real_abs : GoFloat.abs x = |x| := rfl
@[simp] theorem real_lt : GoFloat.lt x y = decide (x < y) := rfl
@[simp] theorem real_le : GoFloat.le x y = decide (x ≤ y) := rfl
@[simp] theorem real_eq : GoFloat.eq x y = decide (x = y) := rfl
@[simp] theorem real_toInt : GoFloat.toInt x = if 0 ≤ x then ⌊x⌋ else ⌈x⌉ := rfl
@[simp] theorem real_exp : GoMath.exp x = Real.exp x := rfl
@[simp] theorem real_log : GoMath.log x = Real.log x := rfl
@[simp] theorem real_pow : GoMath.pow x y = x ^ y := rfl
@[simp] theorem real_fzero : (fzero : ℝ) = 0 := by simp [fzero]
@[simp] theorem real_isNum : IsNum x := by simp [IsNum]
end real

instance : LawfulCmp ℝ where
  zero_num := by simp
  lt_num := by simp
  le_total := by intro x y _ _; simpa using le_total x y
  le_trans := by intro x y z; simpa using le_trans
  lt_iff := by intro x y _ _; simp

end Wego
