import Verif.Go.F64
import Verif.Go.Text

/-! # Specification vocabulary: decimal text of doubles, files of word vectors

Nothing here refers to the model of the code. -/

namespace Wego.Spec

/-- `ds` consists of ASCII digits. -/
def AllDigits (ds : List Char) : Prop := ∀ c ∈ ds, '0'.toNat ≤ c.toNat ∧ c.toNat ≤ '9'.toNat

/-- The number written by a digit string. -/
def digitsValue : List Char → Nat
  | [] => 0
  | c :: cs => (c.toNat - '0'.toNat) * 10 ^ cs.length + digitsValue cs

/-- `N / 10^6` is the six-decimal rounding of `v` (ties to even). -/
def NearestMillionth (v : ℚ) (N : Nat) : Prop :=
  |(N : ℚ) / 10 ^ 6 - v| ≤ 1 / 2 / 10 ^ 6 ∧ (|(N : ℚ) / 10 ^ 6 - v| = 1 / 2 / 10 ^ 6 → N % 2 = 0)

/-- `t` is `x` written with six decimals: sign, integer digits without leading zeros, a dot, six digits. -/
def IsSixDecimals : F64 → List Char → Prop
  | .nan, t => t = ['N', 'a', 'N']
  | .inf false, t => t = ['+', 'I', 'n', 'f']
  | .inf true, t => t = ['-', 'I', 'n', 'f']
  | .fin s n h, t => ∃ ip fp : List Char,
      t = (if s then ['-'] else []) ++ ip ++ ['.'] ++ fp ∧
      AllDigits ip ∧ AllDigits fp ∧ fp.length = 6 ∧
      ip ≠ [] ∧ (ip.head? = some '0' → ip = ['0']) ∧
      NearestMillionth |F64.toRat (.fin s n h)| (digitsValue (ip ++ fp))

/-- `IsSavedFile words rows text`: one line per word: the word, a space, and the values with six decimals,
each followed by a space. -/
inductive IsSavedFile : List Word → List (List F64) → List Char → Prop
  | nil : IsSavedFile [] [] []
  | cons (w : Word) (row : List F64) (vals : List (List Char)) (words : List Word) (rows : List (List F64))
      (rest : List Char) :
      List.Forall₂ IsSixDecimals row vals → IsSavedFile words rows rest →
      IsSavedFile (w :: words) (row :: rows)
        (w ++ [' '] ++ (vals.map (fun t => t ++ [' '])).flatten ++ ['\n'] ++ rest)

/-- `y` is what reading back the six decimals of `x` must give: the same NaN or infinity, or a double with the
sign bit of `x` that is nearest to the six-decimal rounding of `x`. -/
def ReadsBack : F64 → F64 → Prop
  | .nan, y => y = .nan
  | .inf s, y => y = .inf s
  | .fin s n h, y => ∃ (m : Nat) (k : IsRep m) (N : Nat), y = .fin s m k ∧
      NearestMillionth |F64.toRat (.fin s n h)| N ∧
      ∀ (m' : Nat) (k' : IsRep m'), |(|F64.toRat y| - (N : ℚ) / 10 ^ 6)| ≤
        |(|F64.toRat (.fin s m' k')| - (N : ℚ) / 10 ^ 6)|

end Wego.Spec

namespace Wego.Spec

/-- `RawLines text lines`: `lines` are the lines of `text` without their newlines; a last line need not end with
a newline. -/
inductive RawLines : List Char → List (List Char) → Prop
  | nil : RawLines [] []
  | last (l : List Char) : l ≠ [] → '\n' ∉ l → RawLines l [l]
  | cons (l rest : List Char) (ls : List (List Char)) : '\n' ∉ l → RawLines rest ls →
      RawLines (l ++ '\n' :: rest) (l :: ls)

/-- A carriage return at the end of a line is not part of it. -/
def stripCR (l : List Char) : List Char := if l.getLast? = some '\r' then l.dropLast else l

end Wego.Spec

namespace Wego.Spec

/-- The decimal numbers `a` and `b`, written without sign and with six decimals (or `+Inf`), satisfy `b <= a`. -/
def PrintedAtLeast (a b : List Char) : Prop :=
  a = ['+', 'I', 'n', 'f'] ∨ ∃ ip fp ip' fp' : List Char, a = ip ++ ['.'] ++ fp ∧ b = ip' ++ ['.'] ++ fp' ∧
    AllDigits ip ∧ AllDigits fp ∧ AllDigits ip' ∧ AllDigits fp' ∧ fp.length = 6 ∧ fp'.length = 6 ∧
    digitsValue (ip' ++ fp') ≤ digitsValue (ip ++ fp)

end Wego.Spec

namespace Wego.Spec

/-- `w` is a plain decimal number, with sign bit `s` and absolute value `q`: an optional sign, digits, and possibly a dot and
more digits; at least one digit. -/
def IsPlainNumber (w : List Char) (s : Bool) (q : ℚ) : Prop :=
  ∃ sign ip fp : List Char, ((sign = [] ∧ s = false) ∨ (sign = ['+'] ∧ s = false) ∨ (sign = ['-'] ∧ s = true)) ∧
    AllDigits ip ∧ AllDigits fp ∧ ip ++ fp ≠ [] ∧
    ((w = sign ++ ip ∧ fp = []) ∨ w = sign ++ ip ++ '.' :: fp) ∧
    q = (digitsValue (ip ++ fp) : ℚ) / 10 ^ fp.length

end Wego.Spec
