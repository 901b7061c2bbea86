import Verif.Model.ParseFloat

/-! # `strconv.ParseFloat`: hexadecimal numbers and underscores

A value for the parameter `rest` of `goNumber` (`Model/ParseFloat`): with it `goFloat` is `strconv.ParseFloat(w, 64)` as
`embedding.go:118` calls it, on every string, with nothing left open. Library code (trusted base). -/

namespace Wego

/-- a hexadecimal digit, either case (`strconv/atof.go` `readFloat`, `base == 16`) -/
def isHexDig (c : Char) : Bool := isDig c || (decide (97 ≤ (asciiLower c).toNat) && decide ((asciiLower c).toNat ≤ 102))

/-- its value: `c - '0'`, or `lower(c) - 'a' + 10` -/
def hexDig (c : Char) : Nat := if isDig c then c.toNat - 48 else (asciiLower c).toNat - 97 + 10

/-- digits to number; the sixteen digits Go keeps and the sticky bit `trunc` give the same rounding as all digits -/
def hexVal (ds : List Char) : Nat := ds.foldl (fun a c => a * 16 + hexDig c) 0

/-- `p` or `P` -/
def isPow (c : Char) : Bool := c == 'p' || c == 'P'

/-- the digits of a hexadecimal number, with at most one point: as a number, and how many come after the point -/
def parseHexMan (r : List Char) : Option (Nat × Nat) :=
  let ip := r.takeWhile isHexDig
  match r.dropWhile isHexDig with
  | [] => if ip = [] then none else some (hexVal ip, 0)
  | '.' :: fp => if fp.all isHexDig && !(ip ++ fp).isEmpty then some (hexVal (ip ++ fp), fp.length) else none
  | _ => none

/-- `readFloat` on a hexadecimal number; the exponent must be there -/
def parseHex (w : List Char) : Option ((Bool × Nat × Nat) × Bool × Nat) :=
  if hexPrefix w then
    let r := (splitSign w).2.drop 2
    match r.dropWhile (fun c => !isPow c) with
    | [] => none
    | _ :: e =>
      if (splitSign e).2.isEmpty || !(splitSign e).2.all isDig then none
      else (parseHexMan (r.takeWhile (fun c => !isPow c))).map (fun p => (((splitSign w).1, p), (splitSign e).1, expVal (splitSign e).2))
  else none

/-- `strconv/atof.go` `atofHex`: the nearest double, ties to even; an overflow is an error -/
def hexNumber (w : Word) : Option F64 :=
  match parseHex w with
  | some ((s, m, k), neg, e) =>
    let n := if neg then roundMag (m * one1) (16 ^ k * 2 ^ e) else roundMag (m * 2 ^ e * one1) (16 ^ k)
    if h : IsRep n then some (.fin s n h) else none
  | none => none

/-- `strconv/atoi.go` `underscoreOK`, the loop; `saw` is the last character seen: `^` beginning, `0` digit, `_` underscore,
`!` none of these -/
def underscoreScan (hex : Bool) : Char → List Char → Bool
  | saw, [] => saw != '_'
  | saw, c :: cs =>
    if isDig c || (hex && isHexDig c) then underscoreScan hex '0' cs
    else if c = '_' then (if saw != '0' then false else underscoreScan hex '_' cs)
    else if saw = '_' then false
    else underscoreScan hex '!' cs

/-- `strconv/atoi.go` `underscoreOK`. Simplified: the prefixes `0b` and `0o` are not looked for; no string that begins with
them is a floating-point number. -/
def underscoreOK (w : List Char) : Bool :=
  if hexPrefix w then underscoreScan true '0' ((splitSign w).2.drop 2) else underscoreScan false '^' (splitSign w).2

/-- what `goNumber` leaves open. `readFloat` skips underscores while it reads and calls `underscoreOK` at the end. -/
def goRest (w : Word) : Option F64 :=
  if w.contains '_' then
    if underscoreOK w then parseFloat (goNumber hexNumber) (w.filter (fun c => c != '_')) else none
  else hexNumber w

/-- `strconv.ParseFloat(w, 64)` on every string; `none` is an error -/
def goFloat (w : Word) : Option F64 := parseFloat (goNumber goRest) w

end Wego
