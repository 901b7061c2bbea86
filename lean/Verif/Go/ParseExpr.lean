import Verif.Model.Console

/-! # `go/parser.ParseExpr` on what is normally typed at the console

Library code (trusted base): `go/scanner` and `go/parser` on lines made of identifiers, decimal integers, `+`, `-` and
blanks. Everything else (other operators, parentheses, quotes, comments, other number syntax, keywords next to other
tokens) is left to the parameter `other`. -/

namespace Wego

/-- What is not written out here of Go's scanner and parser. -/
structure GoSyntax where
  /-- `unicode.IsLetter`, used for runes from 0x80 on -/
  letter : Char → Bool
  /-- `unicode.IsDigit`, used for runes from 0x80 on -/
  digit : Char → Bool
  /-- `ParseExpr` on the lines that are not modelled -/
  other : Word → Option Expr

/-- `go/scanner` `isLetter` -/
def GoSyntax.isLetter (S : GoSyntax) (c : Char) : Bool :=
  (97 ≤ c.toNat && c.toNat ≤ 122) || (65 ≤ c.toNat && c.toNat ≤ 90) || c.toNat == 95 || (128 ≤ c.toNat && S.letter c)

/-- an ASCII digit -/
def asciiDigit (c : Char) : Bool := 48 ≤ c.toNat && c.toNat ≤ 57

/-- `go/scanner` `isDigit` -/
def GoSyntax.isDigit (S : GoSyntax) (c : Char) : Bool := asciiDigit c || (128 ≤ c.toNat && S.digit c)

/-- `go/token`: the keywords of Go -/
def goKeywords : List Word :=
  ["break", "case", "chan", "const", "continue", "default", "defer", "else", "fallthrough", "for", "func", "go", "goto", "if",
    "import", "interface", "map", "package", "range", "return", "select", "struct", "switch", "type", "var"].map String.toList

/-- tokens -/
inductive Tok where
  | ident (w : Word)
  | keyword
  | int
  | plus
  | minus
  | inc
  | dec
  deriving DecidableEq

/-- The token spelled by a run of letters and digits; `none`: not modelled (a number followed by letters, octal, ...). -/
def GoSyntax.classify (S : GoSyntax) (w : Word) : Option Tok :=
  match w with
  | [] => none
  | c :: r =>
    if S.isLetter c then some (if w ∈ goKeywords then .keyword else .ident w)
    else if w.all asciiDigit && (c != '0' || r.isEmpty) then some .int
    else none

/-- white space inside a line -/
def lineBlank (c : Char) : Bool := c == ' ' || c == '\t' || c == '\r'

/-- finish the run `cur`, then `rest` -/
def GoSyntax.emit (S : GoSyntax) (cur : Word) (rest : Option (List Tok)) : Option (List Tok) :=
  match cur with
  | [] => rest
  | c :: r =>
    match S.classify (c :: r), rest with
    | some t, some ts => some (t :: ts)
    | _, _ => none

/-- `go/scanner`: the tokens of a line; `cur` is the run of letters and digits being read. `none`: not modelled. `++` and
`--` are single tokens (longest match). -/
def GoSyntax.lex (S : GoSyntax) : List Char → Word → Option (List Tok)
  | [], cur => S.emit cur (some [])
  | [c], cur =>
    if S.isLetter c || S.isDigit c then S.emit (cur ++ [c]) (some [])
    else if lineBlank c then S.emit cur (some [])
    else if c = '+' then S.emit cur (some [.plus])
    else if c = '-' then S.emit cur (some [.minus])
    else none
  | c :: d :: cs, cur =>
    if S.isLetter c || S.isDigit c then GoSyntax.lex S (d :: cs) (cur ++ [c])
    else if lineBlank c then S.emit cur (GoSyntax.lex S (d :: cs) [])
    else if c = '+' then
      if d = '+' then S.emit cur ((GoSyntax.lex S cs []).map (.inc :: ·)) else S.emit cur ((GoSyntax.lex S (d :: cs) []).map (.plus :: ·))
    else if c = '-' then
      if d = '-' then S.emit cur ((GoSyntax.lex S cs []).map (.dec :: ·)) else S.emit cur ((GoSyntax.lex S (d :: cs) []).map (.minus :: ·))
    else none

/-- Where the parser is: before an operand (with the left operand and operator, if any, and whether a unary sign has been
read), or after an expression. -/
inductive PState where
  | operand (left : Option (Expr × Op)) (unary : Bool)
  | after (x : Expr)

/-- the expression with its right operand -/
def mkBinary (left : Option (Expr × Op)) (y : Expr) : Expr :=
  match left with
  | none => y
  | some (x, op) => .binary x op y

/-- `go/parser` `parseBinaryExpr`, `parseUnaryExpr`, `parseOperand` and the check for the end of the line in `ParseExpr`.
`+` and `-` are left-associative. `none` is a syntax error. -/
def parseToks : PState → List Tok → Option Expr
  | .operand _ _, [] => none
  | .after x, [] => some x
  | .operand l u, .ident w :: r => parseToks (.after (mkBinary l (if u then .other else .ident w))) r
  | .operand l _, .int :: r => parseToks (.after (mkBinary l .other)) r
  | .operand l _, .plus :: r => parseToks (.operand l true) r
  | .operand l _, .minus :: r => parseToks (.operand l true) r
  | .operand _ _, _ :: _ => none
  | .after x, .plus :: r => parseToks (.operand (some (x, .add)) false) r
  | .after x, .minus :: r => parseToks (.operand (some (x, .sub)) false) r
  | .after _, _ :: _ => none

/-- `go/parser.ParseExpr(line)`; `none` is an error. A keyword alone is a syntax error. -/
def GoSyntax.parseExpr (S : GoSyntax) (line : Word) : Option Expr :=
  match S.lex line [] with
  | none => S.other line
  | some toks =>
    if toks = [.keyword] then none
    else if .keyword ∈ toks then S.other line
    else parseToks (.operand none false) toks

end Wego
