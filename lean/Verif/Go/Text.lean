import Verif.Go.Res

/-!
# Text: white space, UTF-8 sizes, `bufio.Scanner`

Documents are lists of Unicode scalar values (`Char`), i.e. valid UTF-8 files.  Sizes that Go
measures in bytes are UTF-8 sizes.  `bufio.Scanner` is library code (trusted base); its observable
behaviour with the default buffer (proved in `Props/Scanner` of a byte-level model) is: the tokens in order, then end of input, `ErrTooLong`
when a token does not fit in the 64 KiB buffer, or the reader's own error.
-/

namespace Wego

/-- A Go string, as its sequence of runes. -/
abbrev Word := List Char

/-- White space, as in `bufio.isSpace` and `unicode.IsSpace` (the same set of runes). -/
def isSpace (c : Char) : Bool :=
  let n := c.toNat
  (9 ≤ n && n ≤ 13) || n == 0x20 || n == 0x85 || n == 0xA0 || n == 0x1680 ||
  (0x2000 ≤ n && n ≤ 0x200A) || n == 0x2028 || n == 0x2029 || n == 0x202F || n == 0x205F || n == 0x3000

/-- Number of bytes of the UTF-8 encoding. -/
def utf8Len (w : Word) : Nat := (w.map Char.utf8Size).sum

/-- `bufio.MaxScanTokenSize`: the largest buffer. `ErrTooLong` is reported as soon as a full buffer
holds no complete token; a word is complete when the separator after it, or the end of the input, has
been seen, so a word and its separator must fit in the buffer, and a last word must be strictly
shorter. -/
def maxTok : Nat := 65536

/-- Outcome of scanning a whole input: the tokens delivered, then the scanner's error, if any. -/
structure ScanOut where
  toks : List Word
  err : Option Err
  deriving DecidableEq, Repr

/-- `bufio.Scanner` with `bufio.ScanWords` over `text`; `cur` is the word being read. -/
def scanWordsAux : List Char → Word → ScanOut
  | [], cur =>
    if cur = [] then ⟨[], none⟩
    else if utf8Len cur < maxTok then ⟨[cur], none⟩ else ⟨[], some .tokenTooLong⟩
  | c :: cs, cur =>
    if isSpace c then
      if cur = [] then scanWordsAux cs []
      else if utf8Len cur + c.utf8Size ≤ maxTok then
        let r := scanWordsAux cs []
        ⟨cur :: r.toks, r.err⟩
      else ⟨[], some .tokenTooLong⟩
    else scanWordsAux cs (cur ++ [c])

/-- One reading pass over an `io.ReadSeeker` after `Seek(0,0)`: the bytes delivered, and whether
the reader then fails with an error other than `io.EOF`. -/
structure Pass where
  text : List Char
  fails : Bool := false
  deriving DecidableEq, Repr

/-- All results of a `ScanWords` scanner over one pass.  On a read error the scanner still delivers
the words read so far (the last one possibly cut) and then reports the error. -/
def scanWords (p : Pass) : ScanOut :=
  let r := scanWordsAux p.text []
  match r.err with
  | some e => ⟨r.toks, some e⟩
  | none => ⟨r.toks, if p.fails then some .readErr else none⟩

/-- `bufio.Scanner` with the default `bufio.ScanLines`: lines without their `\n`, and without one
trailing `\r`; a last line without `\n` is delivered unless it is empty. `cur` is the line being read. -/
def dropCR (l : List Char) : List Char :=
  if l.getLast? = some '\r' then l.dropLast else l

/-- See `dropCR`. The size limit applies to the line including a trailing `\r`, excluding `\n`. -/
def scanLinesAux : List Char → List Char → ScanOut
  | [], cur =>
    if cur = [] then ⟨[], none⟩
    else if utf8Len cur < maxTok then ⟨[dropCR cur], none⟩ else ⟨[], some .tokenTooLong⟩
  | c :: cs, cur =>
    if c = '\n' then
      if utf8Len cur < maxTok then
        let r := scanLinesAux cs []
        ⟨dropCR cur :: r.toks, r.err⟩
      else ⟨[], some .tokenTooLong⟩
    else scanLinesAux cs (cur ++ [c])

/-- All results of a line scanner over one pass. -/
def scanLines (p : Pass) : ScanOut :=
  let r := scanLinesAux p.text []
  match r.err with
  | some e => ⟨r.toks, some e⟩
  | none => ⟨r.toks, if p.fails then some .readErr else none⟩

/-- `strings.Fields`: the maximal runs of non-space runes. -/
def fieldsAux : List Char → Word → List Word
  | [], cur => if cur = [] then [] else [cur]
  | c :: cs, cur =>
    if isSpace c then (if cur = [] then fieldsAux cs [] else cur :: fieldsAux cs [])
    else fieldsAux cs (cur ++ [c])

def fields (l : List Char) : List Word := fieldsAux l []

end Wego
