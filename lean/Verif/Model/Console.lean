import Verif.Model.Search

/-! # `pkg/search/console/console.go` and `op.go` -/

namespace Wego
variable {F : Type}

/-- `go/token`: the operators that matter -/
inductive Op where
  | add
  | sub
  | other
  deriving DecidableEq, Repr

/-- `go/ast.Expr`: identifiers, binary expressions, and everything else (literals, calls, parentheses, ...). -/
inductive Expr where
  | ident (name : Word)
  | binary (x : Expr) (op : Op) (y : Expr)
  | other
  deriving DecidableEq, Repr

/-- `console.go:35-38` `searchcursor` -/
structure Cursor (F : Type) where
  w1 : Word
  w2 : Word
  vector : List F
  deriving DecidableEq

/-- `console.go:40-45` `Console` (without the terminal). -/
structure Console (F : Type) where
  searcher : Searcher F
  cursor : Cursor F
  dim : Int
  k : Int

/-- What a line prints. -/
inductive Out (F : Type) where
  /-- `console.go:101,112`: "failed to search with ..." -/
  | searchFailed
  /-- `neighbors.Describe()` -/
  | table (ns : List (Neighbor F))
  deriving DecidableEq

variable [GoFloat F]

/-- `make([]float64, dim)`; a negative `dim` would panic. -/
def zeros (dim : Int) : List F := List.replicate dim.toNat fzero

/-- `console.go:47-62` `New` -/
def Console.new (searcher : Searcher F) (k : Int) : Res (Console F) :=
  match searcher.items with
  | [] => .err .noItems
  | it :: _ =>
    if it.dim < 0 then .panic .makeNegLen
    else .ok { searcher := searcher, cursor := { w1 := [], w2 := [], vector := zeros it.dim }, dim := it.dim, k := k }

/-- `op.go:23-32` `elementWise` -/
def elementWise (v1 v2 : List F) (op : F → F → F) : Res (List F) :=
  if v1.length ≠ v2.length then .err .vecLenMismatch else .ok (List.zipWith op v1 v2)

/-- `console.go:164-173` `arithmetic` with `op.go:34-52` -/
def arithmetic (v1 : List F) (op : Op) (v2 : List F) : Res (List F) :=
  match op with
  | .add => elementWise v1 v2 (fun x y => x +. y)
  | .sub => elementWise v1 v2 (fun x y => x -. y)
  | .other => .err .invalidOperator

/-- `console.go:151-161`: the part of `evalAsEmbedding` after the recursive call -/
def lookupIdent (items : List (Embedding F)) (expr : Expr) : Res (Embedding F) :=
  match expr with
  | .ident name =>
    match Embedding.find items name with
    | none => .err .wordNotFound
    | some e => e.validate >>= fun _ => .ok e
  | _ => .err .failedToParse

/-- `console.go:121-145`: `evalExpr` and `evalBinaryExpr`, with `evalAsEmbedding` (147-162) inlined at its two
call sites (first `evalExpr`, then `lookupIdent`). Returns the cursor and the error. -/
def evalExpr (items : List (Embedding F)) (expr : Expr) (c : Cursor F) : Cursor F × Res Unit :=
  match expr with
  | .ident _ => (c, .ok ())
  | .other => (c, .err .invalidExprType)
  | .binary x op y =>
    -- xi, err := c.evalAsEmbedding(expr.X)
    let rx := evalExpr items x c
    match rx.2 >>= fun _ => lookupIdent items x with
    | .err e => (rx.1, .err e)
    | .panic p => (rx.1, .panic p)
    | .ok xi =>
      -- yi, err := c.evalAsEmbedding(expr.Y)
      let ry := evalExpr items y rx.1
      match ry.2 >>= fun _ => lookupIdent items y with
      | .err _ => (ry.1, .ok ())
      | .panic p => (ry.1, .panic p)
      | .ok yi =>
        match arithmetic xi.vector op yi.vector with
        | .ok v => ({ w1 := xi.word, w2 := yi.word, vector := v }, .ok ())
        | .err e => ({ w1 := xi.word, w2 := yi.word, vector := [] }, .err e)
        | .panic p => ({ w1 := xi.word, w2 := yi.word, vector := [] }, .panic p)

/-- How a line ended and what it printed. -/
structure EvalResult (F : Type) where
  out : List (Out F)
  res : Res Unit
  deriving DecidableEq

/-- `console.go:96-118` `eval` after parsing. -/
def Console.evalBody (c : Console F) (expr : Expr) : EvalResult F :=
  match expr with
  | .ident name =>
    match c.searcher.searchInternal name c.k with
    | .ok ns => { out := [.table ns], res := .ok () }
    | .err _ => { out := [.searchFailed, .table []], res := .ok () }
    | .panic p => { out := [], res := .panic p }
  | .binary x op y =>
    let r := evalExpr c.searcher.items (.binary x op y) c.cursor
    match r.2 with
    | .err e => { out := [], res := .err e }
    | .panic p => { out := [], res := .panic p }
    | .ok () =>
      match c.searcher.search { word := [], dim := 0, vector := r.1.vector, norm := norm r.1.vector } c.k
          [r.1.w1, r.1.w2] with
      | .ok ns => { out := [.table ns], res := .ok () }
      | .err _ => { out := [.searchFailed, .table []], res := .ok () }
      | .panic p => { out := [], res := .panic p }
  | .other => { out := [], res := .err .invalidExprType }

/-- The cursor while `eval` runs `evalBody` (only a binary expression changes it). -/
def Console.cursorAfter (c : Console F) (expr : Expr) : Cursor F :=
  match expr with
  | .binary x op y => (evalExpr c.searcher.items (.binary x op y) c.cursor).1
  | _ => c.cursor

/-- `console.go:84-119` `eval`. `parse` is `go/parser.ParseExpr` (`none`: an error).
The deferred function resets the cursor at every exit. -/
def Console.eval (parse : Word → Option Expr) (c : Console F) (l : Word) : Console F × EvalResult F :=
  let reset (cur : Cursor F) : Cursor F := { cur with w1 := [], w2 := [], vector := zeros c.dim }
  match parse l with
  | none => ({ c with cursor := reset c.cursor }, { out := [], res := .err .parseExpr })
  | some expr => ({ c with cursor := reset (c.cursorAfter expr) }, c.evalBody expr)

/-- State of `Run`. -/
inductive RunSt (F : Type) where
  | running (c : Console F)
  | returned
  | panicked (p : Panic)

/-- What `Prompt` returned: the line, and whether there was an error (end of input, Ctrl-C, ...; then the line is
whatever the library returned with it, normally `""`). -/
structure Prompted where
  line : Word
  failed : Bool

/-- What `Run` prints. -/
inductive Shown (F : Type) where
  /-- `console.go:69`: `error: ...`, the prompt failed -/
  | promptErr
  /-- printed while the line was evaluated -/
  | out (o : Out F)
  /-- `console.go:78`: the error of `eval` -/
  | evalErr (e : Err)

/-- `console.go:66-81`: one turn of the loop, for what `Prompt` returns; an error of `Prompt` is only printed. -/
def runTurn (parse : Word → Option Expr) (p : Prompted) (st : RunSt F) : RunSt F :=
  match st with
  | .running c =>
    if p.line = "exit".toList then .returned
    else if p.line = [] then .running c
    else
      match (c.eval parse p.line).2.res with
      | .panic p => .panicked p
      | _ => .running (c.eval parse p.line).1
  | s => s

/-- `console.go:66-81`: what one turn prints. -/
def turnOut (parse : Word → Option Expr) (p : Prompted) (st : RunSt F) : List (Shown F) :=
  match st with
  | .running c =>
    (if p.failed then [.promptErr] else []) ++
    (if p.line = "exit".toList then []
    else if p.line = [] then []
    else
      (c.eval parse p.line).2.out.map .out ++
      match (c.eval parse p.line).2.res with
      | .err e => [.evalErr e]
      | _ => [])
  | _ => []

/-- `console.go:64-82` `Run` after `n` turns on an endless stream of prompt results. -/
def runTurns (parse : Word → Option Expr) (prompt : Nat → Prompted) (c : Console F) : Nat → RunSt F
  | 0 => .running c
  | n + 1 => runTurn parse (prompt n) (runTurns parse prompt c n)

/-- what `Run` has printed after `n` turns -/
def runOut (parse : Word → Option Expr) (prompt : Nat → Prompted) (c : Console F) : Nat → List (Shown F)
  | 0 => []
  | n + 1 => runOut parse prompt c n ++ turnOut parse (prompt n) (runTurns parse prompt c n)

end Wego
