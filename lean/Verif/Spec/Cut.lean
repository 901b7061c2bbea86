import Verif.Go.Text

/-! # Cutting arbitrary bytes into words and lines -/

namespace Wego.Spec
open Wego

/-- the UTF-8 encoding of white space -/
def SpaceBytes (b : List UInt8) : Prop := ∃ c : Char, isSpace c = true ∧ b = String.utf8EncodeChar c

/-- only encoded white space -/
def OnlySpace (b : List UInt8) : Prop := ∃ sp : List Char, (∀ c ∈ sp, isSpace c = true) ∧ b = sp.flatMap String.utf8EncodeChar

/-- encoded white space occurs nowhere -/
def NoSpaceIn (b : List UInt8) : Prop := ∀ a s z, SpaceBytes s → b ≠ a ++ s ++ z

/-- `ts` are the words of the bytes `B`: the non-empty pieces between encoded white space. With `long` they are only the
words before the first one that does not fit, together with the white space after it, into 65536 bytes (a last word: that
has 65536 bytes or more). -/
def CutWords : List UInt8 → List (List UInt8) → (long : Bool) → Prop
  | B, [], false => OnlySpace B
  | B, [], true => ∃ sp w rest, B = sp ++ w ++ rest ∧ OnlySpace sp ∧ NoSpaceIn w ∧
      ((rest = [] ∧ 65536 ≤ w.length) ∨ ∃ s z, rest = s ++ z ∧ SpaceBytes s ∧ 65536 < w.length + s.length)
  | B, t :: ts, long => ∃ sp rest, B = sp ++ t ++ rest ∧ OnlySpace sp ∧ t ≠ [] ∧ NoSpaceIn t ∧
      ((rest = [] ∧ t.length < 65536 ∧ CutWords [] ts long) ∨
        ∃ s z, rest = s ++ z ∧ SpaceBytes s ∧ t.length + s.length ≤ 65536 ∧ CutWords z ts long)

/-- a line without the carriage return at its end -/
def WithoutCR (l t : List UInt8) : Prop := l = t ++ [13] ∨ (l = t ∧ ∀ t', l ≠ t' ++ [13])

/-- `ts` are the lines of the bytes `B`; with `long` only those before the first that has, without its newline, 65536 bytes
or more. -/
def CutLines : List UInt8 → List (List UInt8) → (long : Bool) → Prop
  | B, [], false => B = []
  | B, [], true => ∃ l rest, B = l ++ rest ∧ (rest = [] ∨ ∃ z, rest = 10 :: z) ∧ 10 ∉ l ∧ 65536 ≤ l.length
  | B, t :: ts, long => ∃ l, WithoutCR l t ∧ 10 ∉ l ∧ l.length < 65536 ∧
      ((B = l ∧ l ≠ [] ∧ CutLines [] ts long) ∨ ∃ z, B = l ++ 10 :: z ∧ CutLines z ts long)

end Wego.Spec
