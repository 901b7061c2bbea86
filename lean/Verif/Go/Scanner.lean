import Verif.Go.Text

/-!
# `bufio.Scanner` over bytes

The reading functions of wego (`pkg/corpus/cpsutil/cpsutil.go:24-44`, `pkg/embedding/embedding.go:82-101`) read through
`bufio.Scanner`. `Go/Text` describes what such a scanner delivers for a whole text. This file follows the code of
`bufio/scan.go` and `unicode/utf8` instead: a buffer that is filled by reads of arbitrary sizes, grown by doubling up to 64 KiB,
and cut by a split function that only sees the bytes read so far. `Props/Scanner` proves that the two agree.
-/

namespace Wego.Scan

abbrev Bytes := List UInt8

/-- `utf8.RuneError`. -/
def runeError : Nat := 0xFFFD

/-- The table `first` of `unicode/utf8`: for a first byte of a multi-byte sequence, its size and the range of the second byte. -/
def leadInfo (p0 : Nat) : Option (Nat × Nat × Nat) :=
  if 0xC2 ≤ p0 ∧ p0 ≤ 0xDF then some (2, 0x80, 0xBF)
  else if p0 = 0xE0 then some (3, 0xA0, 0xBF)
  else if 0xE1 ≤ p0 ∧ p0 ≤ 0xEC then some (3, 0x80, 0xBF)
  else if p0 = 0xED then some (3, 0x80, 0x9F)
  else if 0xEE ≤ p0 ∧ p0 ≤ 0xEF then some (3, 0x80, 0xBF)
  else if p0 = 0xF0 then some (4, 0x90, 0xBF)
  else if 0xF1 ≤ p0 ∧ p0 ≤ 0xF3 then some (4, 0x80, 0xBF)
  else if p0 = 0xF4 then some (4, 0x80, 0x8F)
  else none

/-- A continuation byte (`locb <= b <= hicb`). -/
def isCont (b : UInt8) : Bool := 0x80 ≤ b.toNat && b.toNat ≤ 0xBF

/-- `utf8.DecodeRune`: the first rune and its width; `RuneError` with width 1 for invalid or incomplete encodings. -/
def decodeRune (p : Bytes) : Nat × Nat :=
  match p with
  | [] => (runeError, 0)
  | p0 :: rest =>
    if p0.toNat < 0x80 then (p0.toNat, 1)
    else match leadInfo p0.toNat with
      | none => (runeError, 1)
      | some (sz, lo, hi) =>
        if p.length < sz then (runeError, 1)
        else match rest with
          | [] => (runeError, 1)
          | b1 :: rest =>
            if b1.toNat < lo ∨ hi < b1.toNat then (runeError, 1)
            else if sz ≤ 2 then (p0.toNat % 32 * 64 + b1.toNat % 64, 2)
            else match rest with
              | [] => (runeError, 1)
              | b2 :: rest =>
                if isCont b2 = false then (runeError, 1)
                else if sz ≤ 3 then (p0.toNat % 16 * 4096 + b1.toNat % 64 * 64 + b2.toNat % 64, 3)
                else match rest with
                  | [] => (runeError, 1)
                  | b3 :: _ =>
                    if isCont b3 = false then (runeError, 1)
                    else (p0.toNat % 8 * 262144 + b1.toNat % 64 * 4096 + b2.toNat % 64 * 64 + b3.toNat % 64, 4)

/-- `bufio.isSpace`. -/
def isSpaceRune (r : Nat) : Bool :=
  if r ≤ 0xFF then r == 0x20 || r == 9 || r == 10 || r == 11 || r == 12 || r == 13 || r == 0x85 || r == 0xA0
  else if 0x2000 ≤ r ∧ r ≤ 0x200A then true
  else r == 0x1680 || r == 0x2028 || r == 0x2029 || r == 0x202F || r == 0x205F || r == 0x3000

theorem decodeRune_width (p : Bytes) (h : p ≠ []) : 1 ≤ (decodeRune p).2 ∧ (decodeRune p).2 ≤ p.length := by
  cases p with
  | nil => exact absurd rfl h
  | cons p0 rest =>
    unfold decodeRune
    repeat' split
    all_goals simp_all <;> omega

/-- First loop of `bufio.ScanWords`: the offset of the first rune that is no space. -/
def skipLen (data : Bytes) : Nat :=
  if h : data = [] then 0
  else
    let d := decodeRune data
    if isSpaceRune d.1 then d.2 + skipLen (data.drop d.2) else 0
termination_by data.length
decreasing_by
  have := decodeRune_width data h
  simp only [List.length_drop]; omega

/-- Second loop of `bufio.ScanWords`: the offset and width of the first space. -/
def findSpace (data : Bytes) : Option (Nat × Nat) :=
  if h : data = [] then none
  else
    let d := decodeRune data
    if isSpaceRune d.1 then some (0, d.2)
    else (findSpace (data.drop d.2)).map (fun x => (d.2 + x.1, x.2))
termination_by data.length
decreasing_by
  have := decodeRune_width data h
  simp only [List.length_drop]; omega

/-- A `bufio.SplitFunc` that never fails: the bytes to skip, and the token, if one is complete. -/
abbrev SplitFn := Bytes → Bool → Nat × Option Bytes

/-- `bufio.ScanWords`. -/
def splitWords : SplitFn := fun data atEOF =>
  let start := skipLen data
  match findSpace (data.drop start) with
  | some (i, width) => (start + i + width, some ((data.drop start).take i))
  | none => if atEOF ∧ start < data.length then (data.length, some (data.drop start)) else (start, none)

/-- `bytes.IndexByte(data, '\n')`. -/
def indexNewline (data : Bytes) : Option Nat := data.findIdx? (· == 10)

/-- `dropCR` of `bufio`. -/
def dropCRBytes (data : Bytes) : Bytes := if data.getLast? = some 13 then data.dropLast else data

/-- `bufio.ScanLines`. -/
def splitLines : SplitFn := fun data atEOF =>
  if atEOF ∧ data = [] then (0, none)
  else match indexNewline data with
    | some i => (i + 1, some (dropCRBytes (data.take i)))
    | none => if atEOF then (data.length, some (dropCRBytes data)) else (0, none)

/-- What stops a scanner: `io.EOF`, the reader's error, `bufio.ErrTooLong`, `io.ErrNoProgress`. -/
inductive Stop
  | eof | readErr | tooLong | noProgress
  deriving DecidableEq, Repr

/-- `Scanner.Err` (nil for `io.EOF`). -/
def Stop.err : Stop → Option Err
  | .eof => none
  | .readErr => some .readErr
  | .tooLong => some .tokenTooLong
  | .noProgress => some .readErr

/-- An `io.Reader`: the bytes still to come, the numbers of bytes the next reads are willing to deliver (0: an empty read; after the list is
used up: as much as fits), whether it fails in the end instead of reporting `io.EOF`, and whether it reports the end (or the error)
already together with the last bytes (`eager`), as `io.Reader` allows, instead of in a read of its own. -/
structure Reader where
  rest : Bytes
  sizes : List Nat
  fails : Bool
  eager : Bool

/-- How many bytes the next `Read` into a buffer of `room` bytes asks for. -/
def Reader.wants (r : Reader) (room : Nat) : Nat :=
  match r.sizes with
  | [] => room
  | n :: _ => min n room

/-- `Read` into a buffer of `room` bytes. -/
def Reader.read (r : Reader) (room : Nat) : Bytes × Option Stop × Reader :=
  let final : Stop := if r.fails then .readErr else .eof
  if r.rest = [] then ([], some final, r)
  else
    let n := r.wants room
    (r.rest.take n, if r.eager ∧ r.rest.drop n = [] then some final else none, { r with rest := r.rest.drop n, sizes := r.sizes.tail })

/-- `bufio.Scanner`: `buf[start:end]`, `start`, `len(buf)`, `err` and the reader (`end = start + len(data)`; the bytes outside
`start:end` are never looked at). -/
structure St where
  data : Bytes
  start : Nat
  cap : Nat
  err : Option Stop
  rd : Reader

/-- `bufio.NewScanner(r)`: no buffer yet. -/
def St.new (r : Reader) : St := ⟨[], 0, 0, none, r⟩

/-- The reading loop of `Scan`: at most 101 reads, until one delivers bytes or an error. `fuel` is `101 - loop`. -/
def St.readLoop (s : St) : Nat → St
  | 0 => { s with err := some .noProgress }
  | fuel + 1 =>
    match s.rd.read (s.cap - (s.start + s.data.length)) with
    | (bs, some e, rd) => { s with data := s.data ++ bs, err := some e, rd := rd }
    | (bs, none, rd) =>
      if bs ≠ [] then { s with data := s.data ++ bs, rd := rd }
      else St.readLoop { s with data := s.data ++ bs, rd := rd } fuel

/-- `startBufSize`. -/
def startBuf : Nat := 4096

/-- The part of the loop body of `Scan` that makes room and reads. -/
def St.fill (s : St) : St ⊕ Stop :=
  let s := if 0 < s.start ∧ (s.start + s.data.length = s.cap ∨ s.cap / 2 < s.start) then { s with start := 0 } else s
  if s.start + s.data.length = s.cap then
    if maxTok ≤ s.cap then .inr .tooLong
    else
      let newSize := if s.cap * 2 = 0 then startBuf else s.cap * 2
      .inl (St.readLoop { s with start := 0, cap := min newSize maxTok } 101)
  else .inl (St.readLoop s 101)

/-- What one round of the loop of `Scan` does: it delivers a token, goes on, or ends the scan. -/
inductive Round
  | token (t : Bytes) (s : St)
  | again (s : St)
  | stop (e : Stop)

/-- One round of the loop of `Scan` (`bufio/scan.go`, `func (s *Scanner) Scan() bool`). -/
def St.round (split : SplitFn) (s : St) : Round :=
  let (adv, tok) := if 0 < s.data.length ∨ s.err.isSome then split s.data s.err.isSome else (0, none)
  let s := { s with data := s.data.drop adv, start := s.start + adv }
  match tok with
  | some t => .token t s
  | none => match s.err with
    | some e => .stop e
    | none => match s.fill with
      | .inl s => .again s
      | .inr e => .stop e

/-- `for s.Scan() { ... s.Text() ... }; s.Err()`: the tokens the loop sees, and the scanner's final state. -/
inductive Yields (split : SplitFn) : St → List Bytes → Stop → Prop
  | token {s s' t ts e} : s.round split = .token t s' → Yields split s' ts e → Yields split s (t :: ts) e
  | again {s s' ts e} : s.round split = .again s' → Yields split s' ts e → Yields split s ts e
  | stop {s e} : s.round split = .stop e → Yields split s [] e

end Wego.Scan
