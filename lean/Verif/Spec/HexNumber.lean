import Verif.Spec.SavedFile

/-! # Hexadecimal numbers, and underscores between digits (the Go syntax of floating-point literals) -/

namespace Wego.Spec

/-- `0`-`9`, `a`-`f`, `A`-`F` -/
def IsHexDigit (c : Char) : Prop :=
  ('0'.toNat ≤ c.toNat ∧ c.toNat ≤ '9'.toNat) ∨ ('a'.toNat ≤ c.toNat ∧ c.toNat ≤ 'f'.toNat) ∨ ('A'.toNat ≤ c.toNat ∧ c.toNat ≤ 'F'.toNat)

def hexDigitValue (c : Char) : Nat :=
  if c.toNat ≤ '9'.toNat then c.toNat - '0'.toNat else if c.toNat ≤ 'F'.toNat then c.toNat - 'A'.toNat + 10 else c.toNat - 'a'.toNat + 10

/-- the number written by hexadecimal digits, most significant first -/
def hexValue : List Char → Nat
  | [] => 0
  | c :: cs => hexDigitValue c * 16 ^ cs.length + hexValue cs

/-- `w` is spelled like a hexadecimal number `[+-]0xHHH.HHHp[+-]DDD`: sign bit `s`; the hexadecimal digits before and after the
point, `ip` and `fp`; whether the exponent is negative; the digits `ds` of the exponent, a power of two -/
def IsHexForm (w : List Char) (s : Bool) (ip fp : List Char) (neg : Bool) (ds : List Char) : Prop :=
  ∃ (sign man ex : List Char) (x c : Char), w = sign ++ '0' :: x :: (man ++ c :: (ex ++ ds)) ∧
    ((sign = [] ∧ s = false) ∨ (sign = ['+'] ∧ s = false) ∨ (sign = ['-'] ∧ s = true)) ∧ (x = 'x' ∨ x = 'X') ∧
    (∀ d ∈ ip ++ fp, IsHexDigit d) ∧ ip ++ fp ≠ [] ∧ ((man = ip ∧ fp = []) ∨ man = ip ++ '.' :: fp) ∧ (c = 'p' ∨ c = 'P') ∧
    ((ex = [] ∧ neg = false) ∨ (ex = ['+'] ∧ neg = false) ∨ (ex = ['-'] ∧ neg = true)) ∧ AllDigits ds ∧ ds ≠ []

/-- `w` is a hexadecimal number with sign bit `s` and absolute value `q`, exponent below 10000 -/
def IsHexNumber (w : List Char) (s : Bool) (q : ℚ) : Prop :=
  ∃ ip fp neg ds, IsHexForm w s ip fp neg ds ∧ digitsValue ds < 10000 ∧
    q = (hexValue (ip ++ fp) : ℚ) / 16 ^ fp.length * (if neg then 1 / 2 ^ digitsValue ds else 2 ^ digitsValue ds)

/-- `w` begins like a hexadecimal number -/
def HexBegins (w : List Char) : Prop :=
  ∃ sign x v, w = sign ++ '0' :: x :: v ∧ (sign = [] ∨ sign = ['+'] ∨ sign = ['-']) ∧ (x = 'x' ∨ x = 'X')

/-- a digit of the number `w`: hexadecimal if `w` begins with `0x` -/
def DigitIn (w : List Char) (c : Char) : Prop := ('0'.toNat ≤ c.toNat ∧ c.toNat ≤ '9'.toNat) ∨ (HexBegins w ∧ IsHexDigit c)

/-- Every underscore of `w` stands between two digits, or between the prefix `0x` and a digit. -/
def Separators (w : List Char) : Prop :=
  ∀ a b, w = a ++ '_' :: b → (∃ d, b.head? = some d ∧ DigitIn w d) ∧
    ((∃ d, a.getLast? = some d ∧ DigitIn w d) ∨
     ∃ sign x, a = sign ++ ['0', x] ∧ (sign = [] ∨ sign = ['+'] ∨ sign = ['-']) ∧ (x = 'x' ∨ x = 'X'))

end Wego.Spec
