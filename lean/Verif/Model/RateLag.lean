import Verif.Model.LearningRate

/-! # Workers and the observer of one iteration, seen from `currentlr`

`word2vec.go:182-205` with `207-227`, `lexvec.go:173-197` with `234-254`. At most `g` workers are inside the loop (`sem`, C37). For each word a worker first reads `currentlr` (as the argument of
`trainOne`, `word2vec.go:199`; inside `update`, `lexvec.go:221`) or skips the word, then sends on the unbuffered channel `trained`; the observer receives, then reads `currentlr`, then stores it. Only
these operations are steps here; which worker makes them is left open. Simplifications: one observer (the first iteration, or a later one whose predecessor has returned), a
LexVec step reads `currentlr` once (it reads it once per update). -/

namespace Wego
variable {F : Type} [GoFloat F]

/-- where the observer is (`word2vec.go:209-216`) -/
inductive ObsPc (F : Type) where
  /-- at `range trained` -/
  | idle
  /-- has received, before the test of `cnt` -/
  | got
  /-- has computed the new rate, before the store -/
  | pend (v : F)

/-- State of the iteration. -/
structure LagState (F : Type) where
  lr : F
  /-- words started, i.e. at or past the read of `currentlr` or skipped by the subsampler -/
  started : Nat
  /-- words sent on `trained`; also the observer's `cnt` -/
  sent : Nat
  obs : ObsPc F
  /-- the rate used for each started word, `none` for a skipped word (ghost) -/
  used : List (Option F)

/-- start of an iteration with the rate `r0` -/
def LagState.init (r0 : F) : LagState F := ⟨r0, 0, 0, .idle, []⟩

/-- One step of a worker or of the observer. -/
inductive LagStep (cfg : LrCfg F) (g : Nat) : LagState F → LagState F → Prop
  /-- `word2vec.go:198-199`: a worker inside the loop reads the rate for its next word -/
  | read (s : LagState F) (h : s.started < s.sent + g) : LagStep cfg g s { s with started := s.started + 1, used := s.used ++ [some s.lr] }
  /-- `word2vec.go:198`: the subsampler drops the word -/
  | skip (s : LagState F) (h : s.started < s.sent + g) : LagStep cfg g s { s with started := s.started + 1, used := s.used ++ [none] }
  /-- `word2vec.go:201` with `209-210`: send and receive on the unbuffered channel, `cnt++` -/
  | send (s : LagState F) (h : s.sent < s.started) (ho : s.obs = .idle) : LagStep cfg g s { s with sent := s.sent + 1, obs := .got }
  /-- `word2vec.go:211`: no update is due -/
  | noUpdate (s : LagState F) (ho : s.obs = .got) (h : lrDue cfg s.sent = .ok false) : LagStep cfg g s { s with obs := .idle }
  /-- `word2vec.go:211-215`: an update is due: reads `currentlr` and computes the new value -/
  | compute (s : LagState F) (ho : s.obs = .got) (h : lrDue cfg s.sent = .ok true) : LagStep cfg g s { s with obs := .pend (newLr cfg s.sent s.lr) }
  /-- `word2vec.go:213,215`: stores it -/
  | store (s : LagState F) (v : F) (ho : s.obs = .pend v) : LagStep cfg g s { s with lr := v, obs := .idle }

/-- any schedule -/
inductive LagRun (cfg : LrCfg F) (g : Nat) (r0 : F) : LagState F → Prop
  | init : LagRun cfg g r0 (LagState.init r0)
  | step (s t : LagState F) (h : LagRun cfg g r0 s) (hs : LagStep cfg g s t) : LagRun cfg g r0 t

end Wego
