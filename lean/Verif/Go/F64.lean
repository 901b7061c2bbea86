import Mathlib.Data.Rat.Floor
import Mathlib.Data.Nat.Sqrt
import Verif.Go.Float

/-!
# IEEE-754 binary64

A finite double is a sign and a magnitude `n · 2^-1074` where the natural number `n` has at most
53 significant bits (`ulp n ∣ n`) and is below `2^2098`.  Operations compute the exact rational
result and round it to nearest, ties to even; overflow gives an infinity; NaN propagates.
NaN payloads are not modelled (Go code cannot see them here).
-/

namespace Wego

/-- Spacing of doubles around magnitude `n` (in units of `2^-1074`). -/
def ulp (n : Nat) : Nat := 2 ^ (Nat.log2 n - 52)

/-- Magnitudes (in units of `2^-1074`) from here on overflow. -/
@[irreducible] def ovf : Nat := 2 ^ 2098

/-- Number of units in 1. -/
@[irreducible] def one1 : Nat := 2 ^ 1074

/-- `n · 2^-1074` is a finite double. -/
def IsRep (n : Nat) : Prop := ulp n ∣ n ∧ n < ovf

instance (n : Nat) : Decidable (IsRep n) := by unfold IsRep; infer_instance

/-- float64 -/
inductive F64 where
  | nan
  | inf (neg : Bool)
  | fin (neg : Bool) (n : Nat) (h : IsRep n)
  deriving DecidableEq

/-- Nearest natural number to `a / b`, ties to even. -/
def rne (a b : Nat) : Nat :=
  let q := a / b
  let r := a % b
  if 2 * r < b then q else if b < 2 * r then q + 1 else q + q % 2

/-- `a / b` (in units) rounded to 53 significant bits. -/
def roundMag (a b : Nat) : Nat :=
  let u := ulp (a / b)
  rne a (b * u) * u

/-- `sqrt a` rounded to 53 significant bits. -/
def roundSqrtMag (a : Nat) : Nat :=
  let u := ulp (Nat.sqrt a)
  let q := Nat.sqrt (a / (u * u))
  let t := (2 * q + 1) * u
  (if 4 * a < t * t then q else if t * t < 4 * a then q + 1 else q + q % 2) * u

namespace F64

/-- A rounded magnitude, or infinity on overflow. -/
def ofMag (neg : Bool) (n : Nat) : F64 := if h : IsRep n then .fin neg n h else .inf neg

/-- Round a rational number; `zneg` is the sign of the result when `q = 0`. -/
def round (q : ℚ) (zneg : Bool := false) : F64 :=
  ofMag (decide (q < 0) || (decide (q = 0) && zneg)) (roundMag (q.num.natAbs * one1) q.den)

/-- The exact value of a finite double (0 for the others). -/
def toRat : F64 → ℚ
  | .nan => 0
  | .inf _ => 0
  | .fin neg n _ => (if neg then -1 else 1) * ((n : ℚ) / (one1 : ℚ))

def neg : F64 → F64
  | .nan => .nan
  | .inf s => .inf !s
  | .fin s n h => .fin (!s) n h

def zero (s : Bool) : F64 := .fin s 0 ⟨by simp, by unfold ovf; exact Nat.two_pow_pos _⟩

def add : F64 → F64 → F64
  | .nan, _ => .nan
  | _, .nan => .nan
  | .inf a, .inf b => if a = b then .inf a else .nan
  | .inf a, _ => .inf a
  | _, .inf b => .inf b
  | .fin s n h, .fin t m k => round (toRat (.fin s n h) + toRat (.fin t m k)) (s && t)

def sub (x y : F64) : F64 := add x (neg y)

def mul : F64 → F64 → F64
  | .nan, _ => .nan
  | _, .nan => .nan
  | .inf a, .inf b => .inf (xor a b)
  | .inf a, .fin s n _ => if n = 0 then .nan else .inf (xor a s)
  | .fin s n _, .inf b => if n = 0 then .nan else .inf (xor s b)
  | .fin s n h, .fin t m k => round (toRat (.fin s n h) * toRat (.fin t m k)) (xor s t)

def div : F64 → F64 → F64
  | .nan, _ => .nan
  | _, .nan => .nan
  | .inf _, .inf _ => .nan
  | .inf a, .fin s _ _ => .inf (xor a s)
  | .fin s _ _, .inf b => zero (xor s b)
  | .fin s n h, .fin t m k =>
    if m = 0 then (if n = 0 then .nan else .inf (xor s t))
    else round (toRat (.fin s n h) / toRat (.fin t m k)) (xor s t)

def sqrt : F64 → F64
  | .nan => .nan
  | .inf s => if s then .nan else .inf false
  | .fin s n h => if n = 0 then .fin s n h else if s then .nan else ofMag false (roundSqrtMag (n * one1))

def abs : F64 → F64
  | .nan => .nan
  | .inf _ => .inf false
  | .fin _ n h => .fin false n h

/-- Position on the number line (infinities beyond all finite values); `none` for NaN. -/
def key : F64 → Option Int
  | .nan => none
  | .inf s => some (if s then -(ovf : Int) else (ovf : Int))
  | .fin s n _ => some (if s then -(n : Int) else n)

def cmp (r : Int → Int → Bool) (x y : F64) : Bool :=
  match key x, key y with
  | some a, some b => r a b
  | _, _ => false

/-- `int(x)`: truncation toward zero; NaN and values outside int64 give the smallest int64
(what amd64 does; the language leaves it open). -/
def toInt : F64 → Int
  | .fin s n _ =>
    let v : Int := if s then -((n / one1 : Nat) : Int) else ((n / one1 : Nat) : Int)
    if -(2 ^ 63 : Int) ≤ v ∧ v < 2 ^ 63 then v else -(2 ^ 63 : Int)
  | _ => -(2 ^ 63 : Int)

end F64

instance : GoFloat F64 where
  ofRat q := F64.round q
  add := F64.add
  sub := F64.sub
  mul := F64.mul
  div := F64.div
  sqrt := F64.sqrt
  abs := F64.abs
  lt := F64.cmp (fun a b => decide (a < b))
  le := F64.cmp (fun a b => decide (a ≤ b))
  eq := F64.cmp (fun a b => decide (a = b))
  toInt := F64.toInt

end Wego
