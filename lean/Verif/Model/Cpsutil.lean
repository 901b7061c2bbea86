import Verif.Model.Dictionary

/-! # `pkg/corpus/cpsutil/cpsutil.go` (and the identical filters of `pkg/corpus/filter`) -/

namespace Wego

/-- Sequential composition: continue only after `next`. -/
def thenDo {σ : Type} (r : σ × Ctl) (k : σ → σ × Ctl) : σ × Ctl :=
  match r with
  | (s, .next) => k s
  | r => r

/-- `for _, a := range l { if err := fn(a); err != nil { return err } }` -/
def callEach {α σ : Type} (fn : α → σ → σ × Ctl) : List α → σ → σ × Ctl
  | [], s => (s, .next)
  | a :: l, s => thenDo (fn a s) (callEach fn l)

/-- The end of a reading function: `scanner.Err()` unless the callback already stopped it. -/
def scanEnd {σ : Type} (e : Option Err) (s : σ) : σ × Ctl :=
  match e with
  | none => (s, .next)
  | some e => (s, .fail e)

/-- `cpsutil.go:30-44` `ReadWord` -/
def readWord {σ : Type} (p : Pass) (fn : Word → σ → σ × Ctl) (s : σ) : σ × Ctl :=
  let sc := scanWords p
  thenDo (callEach fn sc.toks s) (scanEnd sc.err)

/-- `cpsutil.go:53-60` `postFn` -/
def postFn {σ : Type} (fn : Word → Word → σ → σ × Ctl) (axis : Word) (ws : List Word) (s : σ) : σ × Ctl :=
  callEach (fn axis) ws s

/-- `cpsutil.go:67-72`: fill `ws[0..]` from the scanner, as many words as it still has (at most `n`);
returns the filled slice and the remaining tokens. -/
def fillWs (n : Nat) (ws : List Word) (toks : List Word) : List Word × List Word :=
  let got := toks.take n
  (got ++ ws.drop got.length, toks.drop n)

/-- `cpsutil.go:61-84` the main loop followed by the final `postFn` (`85-87`); `toks` are the tokens
the scanner still has to deliver.  Each round consumes a token or leaves the loop. -/
def fwdLoop {σ : Type} (n : Nat) (fn : Word → Word → σ → σ × Ctl)
    (axis : Word) (ws : List Word) (toks : List Word) (s : σ) : σ × Ctl :=
  if axis = [] then
    match toks with
    | [] => postFn fn axis ws s                       -- !scanner.Scan(): break, then line 85
    | a :: toks =>
      let axis := a
      let r := fillWs n ws toks
      thenDo (postFn fn axis r.1 s) (fwdLoop n fn axis r.1 r.2)
  else
    match ws with
    | [] => (s, .crash .indexOutOfRange)              -- ws[0] on an empty slice
    | w0 :: ws =>
      let axis := w0
      match toks with
      | [] => postFn fn axis ws s                     -- !scanner.Scan(): break, then line 85
      | t :: toks =>
        let ws := ws ++ [t]
        thenDo (postFn fn axis ws s) (fwdLoop n fn axis ws toks)
termination_by toks.length
decreasing_by
  all_goals simp_wf
  all_goals simp [fillWs]
  all_goals omega

/-- `cpsutil.go:46-94` `ReadWordWithForwardContext`.
Simplification: when one of the first `n+1` words is over-long, the real code calls `Scan` again after
it has reported the error, which delivers the first 64 KiB of that word as one more word before the
error is returned; here the scanner delivers nothing more.  The error returned is the same unless the
callback itself fails. -/
def readWordWithForwardContext {σ : Type} (p : Pass) (n : Int)
    (fn : Word → Word → σ → σ × Ctl) (s : σ) : σ × Ctl :=
  if n < 0 then (s, .crash .makeNegLen)               -- make([]string, n)
  else
    let sc := scanWords p
    thenDo (fwdLoop n.toNat fn [] (List.replicate n.toNat []) sc.toks s) (scanEnd sc.err)

/-- `cpsutil.go:106` `FilterFn` (may panic through `IDFreq`). -/
abbrev FilterFn := Nat → Dictionary → Res Bool

/-- `cpsutil.go:108-112` `MaxCount` (also `filter/options.go:47-51`). `&&` short-circuits. -/
def maxCount (v : Int) : FilterFn := fun id dic =>
  if 0 < v then dic.idFreq id >>= fun f => .ok (decide (v < (f : Int))) else .ok false

/-- `cpsutil.go:114-118` `MinCount` (also `filter/options.go:53-57`). -/
def minCount (v : Int) : FilterFn := fun id dic =>
  if 0 ≤ v then dic.idFreq id >>= fun f => .ok (decide ((f : Int) < v)) else .ok false

/-- `cpsutil.go:96-104` `Filters.Any` (`b || fn(...)` short-circuits). -/
def filtersAny (fs : List FilterFn) (id : Nat) (dic : Dictionary) : Res Bool :=
  forEach fs false (fun fn b => if b then .ok true else fn id dic)

end Wego
