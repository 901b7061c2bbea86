import Verif.Go.F64
import Verif.Model.Matrix
import Verif.Model.Dictionary
import Verif.Model.Embedding

/-! # `pkg/model/modelutil/vector/vector.go` (`Save`) and `pkg/embedding/embedding.go` (`Load`)

`fmt`'s `%f`, `strconv.ParseFloat` and `bufio.Writer` are library code (trusted base): their documented
behaviour is written out here. -/

namespace Wego

/-- the decimal digit `d < 10` -/
def digitChar (d : Nat) : Char := Char.ofNat (48 + d)

/-- decimal digits of a natural number, without leading zeros -/
def natDigits (n : Nat) : List Char :=
  if n < 10 then [digitChar n] else natDigits (n / 10) ++ [digitChar (n % 10)]
termination_by n

/-- the last `k` decimal digits, with leading zeros -/
def fixDigits : Nat → Nat → List Char
  | 0, _ => []
  | k + 1, n => fixDigits k (n / 10) ++ [digitChar (n % 10)]

/-- the text of `N / 10^6` with six decimals -/
def sixDec (N : Nat) : List Char := natDigits (N / 1000000) ++ '.' :: fixDigits 6 N

/-- `fmt` verb `%f` on a float64: six decimals, correctly rounded (ties to even), a minus sign exactly
when the sign bit is set, `NaN`, `+Inf`, `-Inf`. -/
def fmtF : F64 → List Char
  | .nan => ['N', 'a', 'N']
  | .inf s => if s then ['-', 'I', 'n', 'f'] else ['+', 'I', 'n', 'f']
  | .fin s n _ => (if s then ['-'] else []) ++ sixDec (rne (n * 1000000) one1)

/-- `vector.go:50-55`, `57-61`: one iteration of the loop of `Save` (`buf` is the `bytes.Buffer`); when
verbose, `i%logBatch` is computed. -/
def saveWord (dic : Dictionary) (mat : Matrix F64) (verbose : Bool) (logBatch : Int) (i : Nat) (buf : List Char) :
    Res (List Char) :=
  dic.word i >>= fun w =>
  forN mat.col.toNat (buf ++ w.getD [] ++ [' '])
    (fun j buf => mat.getAt i j >>= fun x => .ok (buf ++ fmtF x ++ [' '])) >>= fun buf =>
  if verbose = true ∧ logBatch = 0 then .panic .divByZero else .ok (buf ++ ['\n'])

/-- `vector.go:42-62`: the length check and the text built in `buf` -/
def saveText (dic : Dictionary) (mat : Matrix F64) (verbose : Bool) (logBatch : Int) : Res (List Char) :=
  if (dic.len : Int) ≠ mat.row then .err .lenMismatch
  else forN dic.len [] (saveWord dic mat verbose logBatch)

/-- UTF-8 encoding -/
def utf8 (l : List Char) : List UInt8 := l.flatMap String.utf8EncodeChar

/-- An `io.Writer` with internal state `σ`: `Write` takes some of the bytes, may return an error. -/
structure Sink (σ : Type) where
  write : σ → List UInt8 → σ × Nat × Bool

/-- What `bufio.Writer` (buffer of 4096 bytes) hands to the underlying writer: full buffers and, at `Flush`, the
rest. If the underlying writer is an `io.StringWriter` (newer Go), a long string goes there in one piece. -/
def bufChunks (fuel : Nat) (b : List UInt8) : List (List UInt8) :=
  match fuel with
  | 0 => [b]
  | fuel + 1 => if b = [] then [] else if b.length ≤ 4096 then [b] else b.take 4096 :: bufChunks fuel (b.drop 4096)

/-- Hand over the chunks; after an error or a short write `bufio.Writer` writes nothing more. Returns the
writer's state, the bytes it took, and whether there was an error. -/
def sendChunks {σ : Type} (f : Sink σ) : List (List UInt8) → σ → σ × List UInt8 × Bool
  | [], s => (s, [], false)
  | c :: cs, s =>
    let r := f.write s c
    if r.2.2 = true ∨ r.2.1 < c.length then (r.1, c.take r.2.1, true)
    else
      let q := sendChunks f cs r.1
      (q.1, c ++ q.2.1, q.2.2)

/-- `vector.go:41-68` `Save`. The results of `writer.WriteString` and of the deferred `Flush` are dropped, and
`nil` is returned. `direct`: the writer is an `io.StringWriter` (used when the string is longer than the buffer).
Result: the writer's state and the bytes it took. -/
def save {σ : Type} (f : Sink σ) (direct : Bool) (dic : Dictionary) (mat : Matrix F64) (verbose : Bool)
    (logBatch : Int) (s : σ) : Res (σ × List UInt8) :=
  saveText dic mat verbose logBatch >>= fun text =>
  let b := utf8 text
  let r := sendChunks f (if direct = true ∧ 4096 < b.length then [b] else bufChunks b.length b) s
  .ok (r.1, r.2.1)

/-- value of a digit string -/
def decVal (ds : List Char) : Nat := ds.foldl (fun a c => a * 10 + (c.toNat - 48)) 0

/-- `0`-`9` -/
def isDig (c : Char) : Bool := 48 ≤ c.toNat && c.toNat ≤ 57

/-- an optional sign -/
def splitSign : List Char → Bool × List Char
  | '-' :: r => (true, r)
  | '+' :: r => (false, r)
  | r => (false, r)

/-- Plain decimal numbers `[+-]ddd[.ddd]` (at least one digit): sign, digits as a number, number of decimals. -/
def parsePlain (w : List Char) : Option (Bool × Nat × Nat) :=
  let (s, r) := splitSign w
  let ip := r.takeWhile isDig
  match r.dropWhile isDig with
  | [] => if ip = [] then none else some (s, decVal ip, 0)
  | '.' :: fp => if fp.all isDig && !(ip ++ fp).isEmpty then some (s, decVal (ip ++ fp), fp.length) else none
  | _ => none

/-- `strconv.ParseFloat(w, 64)`; `none` is an error (syntax, or overflow). The nearest double, ties to even.
Forms other than plain decimals and `NaN`, `+Inf`, `-Inf` (exponents, hexadecimal, other spellings of the
special values) are left to the parameter `other`. -/
def parseFloat (other : Word → Option F64) (w : Word) : Option F64 :=
  if w = ['N', 'a', 'N'] then some .nan
  else if w = ['+', 'I', 'n', 'f'] then some (.inf false)
  else if w = ['-', 'I', 'n', 'f'] then some (.inf true)
  else
    match parsePlain w with
    | some (s, m, k) =>
      let n := roundMag (m * one1) (10 ^ k)
      if h : IsRep n then some (.fin s n h) else none
    | none => other w

/-- `embedding.go:117-124`: the loop over the vector elements -/
def parseVec (other : Word → Option F64) : List Word → Res (List F64)
  | [] => .ok []
  | w :: ws =>
    match parseFloat other w with
    | none => .err .parseFloat
    | some x => parseVec other ws >>= fun xs => .ok (x :: xs)

/-- `embedding.go:108-131` `parseLine` -/
def parseLine (other : Word → Option F64) (line : List Char) : Res (Embedding F64) :=
  match fields line with
  | w :: v :: vs =>
    parseVec other (v :: vs) >>= fun vec =>
    .ok { word := w, dim := ((v :: vs).length : Int), vector := vec, norm := norm vec }
  | _ => .err .tooFewFields

/-- `embedding.go:90-101` and the callback `75-81`: what happens with one line -/
def loadLine (other : Word → Option F64) (line : List Char) (embs : List (Embedding F64)) :
    Res (List (Embedding F64)) :=
  if line.head? = some ' ' then .ok embs
  else
    parseLine other line >>= fun e =>
    e.validate >>= fun _ => .ok (embs ++ [e])

/-- `embedding.go:73-106` `Load`, `parse` -/
def load (other : Word → Option F64) (p : Pass) : Res (List (Embedding F64)) :=
  let r := scanLines p
  forEach r.toks [] (loadLine other) >>= fun embs =>
  match r.err with
  | some e => .err e
  | none => .ok embs

end Wego
