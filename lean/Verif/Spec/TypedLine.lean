import Verif.Go.ParseExpr

/-! # Lines typed at the console: words, `+`, `-` and blanks -/

namespace Wego.Spec
open Wego

/-- a letter in the sense of Go: ASCII letters, the underscore, and what Unicode calls a letter -/
def IsLetter (S : GoSyntax) (c : Char) : Prop :=
  ('a' ≤ c ∧ c ≤ 'z') ∨ ('A' ≤ c ∧ c ≤ 'Z') ∨ c = '_' ∨ (128 ≤ c.toNat ∧ S.letter c = true)

/-- a digit in the sense of Go -/
def IsDigit (S : GoSyntax) (c : Char) : Prop := ('0' ≤ c ∧ c ≤ '9') ∨ (128 ≤ c.toNat ∧ S.digit c = true)

/-- The 25 reserved words of Go. -/
def Reserved (w : Word) : Prop :=
  String.ofList w ∈ ["break", "default", "func", "interface", "select", "case", "defer", "go", "map", "struct", "chan", "else", "goto",
    "package", "switch", "const", "fallthrough", "if", "range", "type", "continue", "for", "import", "return", "var"]

/-- `w` has the form of a Go identifier: a letter, then letters and digits -/
def WordLike (S : GoSyntax) (w : Word) : Prop :=
  ∃ c r, w = c :: r ∧ IsLetter S c ∧ ∀ d ∈ r, IsLetter S d ∨ IsDigit S d

/-- only spaces and tabs -/
def Blanks (w : Word) : Prop := ∀ c ∈ w, c = ' ' ∨ c = '\t'

/-- A word with blanks before and after it. -/
structure Typed where
  before : Word
  word : Word
  after : Word

/-- it is an identifier, not reserved, between blanks -/
def Typed.OK (S : GoSyntax) (t : Typed) : Prop :=
  Blanks t.before ∧ Blanks t.after ∧ WordLike S t.word ∧ ¬ Reserved t.word

/-- as it is typed -/
def Typed.text (t : Typed) : Word := t.before ++ t.word ++ t.after

/-- the operator as it is typed -/
def signChar (minus : Bool) : Char := if minus then '-' else '+'

/-- The line `t₀ ± t₁ ± ... ± tₙ`; a pair is (minus sign?, next word). -/
def lineOf (t : Typed) (rest : List (Bool × Typed)) : Word :=
  t.text ++ rest.flatMap (fun p => signChar p.1 :: p.2.text)

end Wego.Spec
