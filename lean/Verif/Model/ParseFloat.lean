import Verif.Model.Vector

/-! # `strconv.ParseFloat`: exponents and the special values

A value for the parameter `other` of `parseFloat` (`Model/Vector`), so that `parseFloat (goNumber rest)` is
`strconv.ParseFloat(w, 64)` as `embedding.go:118` calls it, except for hexadecimal numbers and underscores, which are left to
`rest`. Library code (trusted base). -/

namespace Wego

/-- `strconv/atof.go`: the digits of an exponent; once it has reached 10000 further digits are ignored -/
def expVal (ds : List Char) : Nat := ds.foldl (fun e c => if e < 10000 then e * 10 + (c.toNat - 48) else e) 0

/-- `e` or `E` -/
def isExp (c : Char) : Bool := c == 'e' || c == 'E'

/-- A decimal number with an exponent: sign, digits as a number, number of decimals; whether the exponent is negative, the
exponent. -/
def parseSci (w : List Char) : Option ((Bool × Nat × Nat) × Bool × Nat) :=
  match w.dropWhile (fun c => !isExp c) with
  | [] => none
  | _ :: x =>
    if (splitSign x).2.isEmpty || !(splitSign x).2.all isDig then none
    else (parsePlain (w.takeWhile (fun c => !isExp c))).map (fun p => (p, (splitSign x).1, expVal (splitSign x).2))

/-- `strconv` `lower` on ASCII letters -/
def asciiLower (c : Char) : Char := if 65 ≤ c.toNat ∧ c.toNat ≤ 90 then Char.ofNat (c.toNat + 32) else c

/-- `strconv/atof.go` `special`: `nan`, and `inf`, `infinity` with an optional sign, in any case -/
def parseSpecial (w : List Char) : Option F64 :=
  let l := w.map asciiLower
  if l = ['n', 'a', 'n'] then some .nan
  else if (splitSign l).2 = ['i', 'n', 'f'] ∨ (splitSign l).2 = ['i', 'n', 'f', 'i', 'n', 'i', 't', 'y'] then some (.inf (splitSign l).1)
  else none

/-- `strconv/atof.go` `readFloat`: after an optional sign, the prefix `0x` or `0X` of a hexadecimal number -/
def hexPrefix (w : List Char) : Bool :=
  match (splitSign w).2 with
  | '0' :: 'x' :: _ => true
  | '0' :: 'X' :: _ => true
  | _ => false

/-- `strconv.ParseFloat` on what `parseFloat` leaves open; `rest`: hexadecimal numbers and underscores. An overflow is an
error (`none`). -/
def goNumber (rest : Word → Option F64) (w : Word) : Option F64 :=
  match parseSpecial w with
  | some x => some x
  | none =>
    match parseSci w with
    | some ((s, m, k), neg, e) =>
      let n := if neg then roundMag (m * one1) (10 ^ k * 10 ^ e) else roundMag (m * 10 ^ e * one1) (10 ^ k)
      if h : IsRep n then some (.fin s n h) else none
    | none => if hexPrefix w || w.contains '_' then rest w else none

end Wego
