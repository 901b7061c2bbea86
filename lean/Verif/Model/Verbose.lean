import Verif.Model.Train
import Verif.Model.LearningRate

/-! # Verbose output

`pkg/util/verbose/verbose.go` and the calls of `verbose.Do` in the corpora (`memory.go`, `fs.go`), in `makeItems` (`glove/item.go`, `lexvec/item.go`) and in the
observers. The functions of `Verif/Model/{Corpus,Glove,Lexvec,LearningRate}.lean` leave the output out; here they are once more, with it. A log is the list of lines
printed so far; elapsed times are left out of the lines. -/

namespace Wego
variable {F : Type}

/-- a progress line: what is counted, and the number printed (`"read %d words"`, `"read %d tuples"`, `"build %d items"`, `"trained %d words"`, `"trained %d items"`) -/
inductive LogLine where
  | words (n : Nat)
  | tuples (n : Nat)
  | items (n : Nat)
  | trained (n : Nat)
  deriving DecidableEq, Repr

/-- `verbose.go:27-31` `Do` -/
def verboseDo (flag : Bool) (fn : List LogLine → Res (List LogLine)) (log : List LogLine) : Res (List LogLine) := if flag then fn log else .ok log

/-- `verbose.Do(func() { if n%logBatch == 0 { fmt.Printf(...) } })`: `memory.go:94-98`, `125-129`, `fs.go:108-112`, `140-144`, `glove/item.go:49-53`,
`lexvec/item.go:44-48`, `word2vec.go:218-222`, `lexvec.go:245-249`. Go's `%` panics for a zero divisor. -/
def logTick (flag : Bool) (logBatch : Int) (mk : Nat → LogLine) (n : Nat) (log : List LogLine) : Res (List LogLine) :=
  verboseDo flag (fun log => if logBatch = 0 then .panic .divByZero else .ok (if (n : Int).tmod logBatch = 0 then log ++ [mk n] else log)) log

/-- `verbose.Do(func() { fmt.Printf(...) })` with the final count: `memory.go:104-106`, `132-134`, `fs.go:118-120`, `149-151`, `glove/item.go:55-57`, `lexvec/item.go:50-52` -/
def logEnd (flag : Bool) (line : LogLine) (log : List LogLine) : List LogLine := if flag then log ++ [line] else log

section
variable [GoFloat F]

/-- `memory.go:85-100` with its output -/
def memReadCbV (cfg : CorpusCfg) (flag : Bool) (logBatch : Int) (w : Word) (c : CorpusState F × List LogLine) : Res (CorpusState F × List LogLine) :=
  memReadCb cfg w c.1 >>= fun c' => logTick flag logBatch .words c'.maxLen c.2 >>= fun log => .ok (c', log)

/-- `memory.go:119-131` with its output; the state also has `cursor` -/
def memPairsV (idoc : List Nat) (window : Int) (flag : Bool) (logBatch : Int) (st : Cooccurrence F × Nat × List LogLine) : Res (Cooccurrence F × Nat × List LogLine) :=
  forN idoc.length st (fun i st =>
    forFrom (i+1) (min idoc.length (i + window.toNat + 1) - (i+1)) st (fun j st =>
      idx idoc i >>= fun a => idx idoc j >>= fun b => st.1.add a b >>= fun co =>
      logTick flag logBatch .tuples (st.2.1 + 1) st.2.2 >>= fun log => .ok (co, st.2.1 + 1, log)))

/-- `memory.go:83-138` `Load` with its output -/
def memLoadV (cfg : CorpusCfg) (p : Pass) (w : Option WithCooccurrence) (flag : Bool) (logBatch : Int) : Res (CorpusState F × List LogLine) :=
  ctlRes (readWord p (fun word c => liftCtl c (memReadCbV cfg flag logBatch word c)) (CorpusState.init, [])) >>= fun c =>
  let log := logEnd flag (.words c.1.maxLen) c.2
  match w with
  | none => .ok (c.1, log)
  | some w =>
    Cooccurrence.new w.countType >>= fun co =>
    memPairsV c.1.idoc w.window flag logBatch (co, 0, log) >>= fun st =>
    .ok ({ c.1 with cooc := some st.1 }, logEnd flag (.tuples st.2.1) st.2.2)

/-- `fs.go:101-114` with its output -/
def fsReadCbV (cfg : CorpusCfg) (flag : Bool) (logBatch : Int) (w : Word) (c : CorpusState F × List LogLine) : Res (CorpusState F × List LogLine) :=
  fsReadCb cfg w c.1 >>= fun c' => logTick flag logBatch .words c'.maxLen c.2 >>= fun log => .ok (c', log)

/-- `fs.go:133-146` with its output; the state also has `cursor` -/
def fsPairCbV (dic : Dictionary) (flag : Bool) (logBatch : Int) (w1 w2 : Word) (st : Cooccurrence F × Nat × List LogLine) : (Cooccurrence F × Nat × List LogLine) × Ctl :=
  liftCtl st (st.1.add (dic.idOrZero w1) (dic.idOrZero w2) >>= fun co =>
    logTick flag logBatch .tuples (st.2.1 + 1) st.2.2 >>= fun log => .ok (co, st.2.1 + 1, log))

/-- `fs.go:99-155` `Load` with its output -/
def fsLoadV (cfg : CorpusCfg) (p1 p2 : Pass) (w : Option WithCooccurrence) (flag : Bool) (logBatch : Int) : Res (CorpusState F × List LogLine) :=
  ctlRes (readWord p1 (fun word c => liftCtl c (fsReadCbV cfg flag logBatch word c)) (CorpusState.init, [])) >>= fun c =>
  let log := logEnd flag (.words c.1.maxLen) c.2
  match w with
  | none => .ok (c.1, log)
  | some w =>
    Cooccurrence.new w.countType >>= fun co =>
    ctlRes (readWordWithForwardContext p2 w.window (fsPairCbV c.1.dic flag logBatch) (co, 0, log)) >>= fun st =>
    .ok ({ c.1 with cooc := some st.1 }, logEnd flag (.tuples st.2.1) st.2.2)

/-- `word2vec.go:75-83`, `glove.go:69-85`, `lexvec.go:74-90` with the output; `logBatch` is `LogBatch` for word2vec and GloVe and `BatchSize` for LexVec (`lexvec.go:85`). -/
def loadCorpusV (inMemory : Bool) (cfg : CorpusCfg) (p1 p2 : Pass) (w : Option WithCooccurrence) (flag : Bool) (logBatch : Int) : Res (CorpusState F × List LogLine) :=
  if inMemory then memLoadV cfg p1 w flag logBatch else fsLoadV cfg p1 p2 w flag logBatch

/-- `word2vec.go:209-226`, `lexvec.go:236-253`: one observer alone, receiving `n` words, with its output -/
def observeV (cfg : LrCfg F) (flag : Bool) (logBatch : Int) : Nat → Nat × F × List LogLine → Res (Nat × F × List LogLine)
  | 0, st => .ok (st.1, st.2.1, logEnd flag (.trained st.1) st.2.2)
  | n + 1, st => observeOne cfg st.1 st.2.1 >>= fun r => logTick flag logBatch .trained r.1 st.2.2 >>= fun log => observeV cfg flag logBatch n (r.1, r.2, log)

/-- `glove.go:162-176` `observe`: counts inside `verbose.Do` -/
def gloveObserveV (flag : Bool) (logBatch : Int) : Nat → Nat × List LogLine → Res (Nat × List LogLine)
  | 0, st => .ok (st.1, logEnd flag (.trained st.1) st.2)
  | n + 1, st =>
    let cnt := if flag then st.1 + 1 else st.1
    logTick flag logBatch .trained cnt st.2 >>= fun log => gloveObserveV flag logBatch n (cnt, log)

end

section
variable [GoMath F]

/-- `glove/item.go:32-59` `makeItems` with its output; `acc` is `res[:idx]`. -/
def gloveItemsV (xmax : Int) (alpha : F) (em : List (BitVec 64 × F)) (flag : Bool) (logBatch : Int) (log : List LogLine) : Res (List (GItem F) × List LogLine) :=
  forEach em (([] : List (GItem F)), log) (fun e st =>
    let acc := st.1 ++ [gloveItem xmax alpha e]
    logTick flag logBatch .items acc.length st.2 >>= fun log => .ok (acc, log)) >>= fun st =>
  .ok (st.1, logEnd flag (.items st.1.length) st.2)

/-- `lexvec/item.go:27-54` `makeItems` with its output; the state also has `idx`. -/
def lexItemsV (dic : Dictionary) (total : Nat) (smooth : F) (typ : String) (em : List (BitVec 64 × F)) (flag : Bool) (logBatch : Int) (log : List LogLine) :
    Res (GoMap (BitVec 64) F × List LogLine) :=
  let logTotal := GoMath.log (GoMath.pow (GoFloat.ofRat (total : ℚ)) smooth)
  forEach em ((GoMap.empty : GoMap (BitVec 64) F), 0, log) (fun e st =>
    let u := decodeBigram e.1
    calculateRelation dic smooth typ u.1.toInt u.2.toInt e.2 logTotal >>= fun v =>
    logTick flag logBatch .items (st.2.1 + 1) st.2.2 >>= fun log => .ok (st.1.set e.1 v, st.2.1 + 1, log)) >>= fun st =>
  .ok (st.1, logEnd flag (.items st.2.1) st.2.2)

end
end Wego
