import Verif.Model.Cpsutil
import Verif.Model.Cooccurrence

/-! # `pkg/corpus/memory/memory.go` and `pkg/corpus/fs/fs.go`

Progress output (`verbose.Do`) is not modelled. -/

namespace Wego

/-- Options of both corpora (`memory.New`, `fs.New`); `lower` stands for `strings.ToLower`
and is an arbitrary function. -/
structure CorpusCfg where
  toLower : Bool
  lower : Word → Word
  maxCount : Int
  minCount : Int

/-- `memory.go:86-88`, `fs.go:61-63,102-104`: `if c.toLower { word = strings.ToLower(word) }` -/
def CorpusCfg.norm (c : CorpusCfg) (w : Word) : Word := if c.toLower then c.lower w else w

/-- `memory.go:49-52`, `fs.go:47-50` -/
def CorpusCfg.filters (c : CorpusCfg) : List FilterFn := [Wego.maxCount c.maxCount, Wego.minCount c.minCount]

/-- `corpus.go:32-35` `WithCooccurrence` -/
structure WithCooccurrence where
  countType : String
  window : Int
  deriving DecidableEq, Repr

/-- The mutable part of a corpus (both implementations; `idoc` is used by the in-memory one only). -/
structure CorpusState (F : Type) where
  dic : Dictionary
  cooc : Option (Cooccurrence F)
  maxLen : Nat
  idoc : List Nat

def CorpusState.init {F : Type} : CorpusState F := { dic := .new, cooc := none, maxLen := 0, idoc := [] }

/-- Turn the end of a reading function into a `Res`. -/
def ctlRes {σ : Type} (r : σ × Ctl) : Res σ :=
  match r with
  | (s, .next) => .ok s
  | (_, .fail e) => .err e
  | (_, .crash p) => .panic p

/-- Run a `Res` computation inside a callback. -/
def liftCtl {σ : Type} (s : σ) (r : Res σ) : σ × Ctl :=
  match r with
  | .ok s' => (s', .next)
  | .err e => (s, .fail e)
  | .panic p => (s, .crash p)

section
variable {F : Type} [GoFloat F]

/-- `memory.go:119-131`: the pair loops over `idoc`. The inner loop
`for j := i+1; j < len(idoc) && j <= i+window; j++` makes `min len (i+window+1) - (i+1)` rounds
(none for a negative window). -/
def memPairs (idoc : List Nat) (window : Int) (co : Cooccurrence F) : Res (Cooccurrence F) :=
  forN idoc.length co (fun i co =>
    forFrom (i+1) (min idoc.length (i + window.toNat + 1) - (i+1)) co (fun j co =>
      idx idoc i >>= fun a => idx idoc j >>= fun b => co.add a b))

/-- `memory.go:85-100` callback of the reading pass. -/
def memReadCb (cfg : CorpusCfg) (w : Word) (c : CorpusState F) : Res (CorpusState F) :=
  let w := cfg.norm w
  c.dic.add [w] >>= fun dic =>
  .ok { c with dic := dic, maxLen := c.maxLen + 1, idoc := c.idoc ++ [dic.idOrZero w] }

/-- `memory.go:83-138` `Load` on a freshly created corpus. -/
def memLoad (cfg : CorpusCfg) (p : Pass) (w : Option WithCooccurrence) : Res (CorpusState F) :=
  ctlRes (readWord p (fun word c => liftCtl c (memReadCb cfg word c)) CorpusState.init) >>= fun c =>
  match w with
  | none => .ok c
  | some w =>
    Cooccurrence.new w.countType >>= fun co =>
    memPairs c.idoc w.window co >>= fun co =>
    .ok { c with cooc := some co }

/-- `memory.go:56-65` `IndexedDoc` -/
def memIndexedDoc (cfg : CorpusCfg) (c : CorpusState F) : Res (List Nat) :=
  forEach c.idoc [] (fun id res =>
    filtersAny cfg.filters id c.dic >>= fun b => .ok (if b then res else res ++ [id]))

/-- `fs.go:101-114` callback of the reading pass. -/
def fsReadCb (cfg : CorpusCfg) (w : Word) (c : CorpusState F) : Res (CorpusState F) :=
  c.dic.add [cfg.norm w] >>= fun dic => .ok { c with dic := dic, maxLen := c.maxLen + 1 }

/-- `fs.go:133-146` callback of the forward-context pass: the words are looked up as they are in
the file (no lower-casing), an unknown word counts as id 0. -/
def fsPairCb (dic : Dictionary) (w1 w2 : Word) (co : Cooccurrence F) : Cooccurrence F × Ctl :=
  liftCtl co (co.add (dic.idOrZero w1) (dic.idOrZero w2))

/-- `fs.go:99-155` `Load` on a freshly created corpus; `p1`, `p2` are the two reading passes. -/
def fsLoad (cfg : CorpusCfg) (p1 p2 : Pass) (w : Option WithCooccurrence) : Res (CorpusState F) :=
  ctlRes (readWord p1 (fun word c => liftCtl c (fsReadCb cfg word c)) CorpusState.init) >>= fun c =>
  match w with
  | none => .ok c
  | some w =>
    Cooccurrence.new w.countType >>= fun co =>
    ctlRes (readWordWithForwardContext p2 w.window (fsPairCb c.dic) co) >>= fun co =>
    .ok { c with cooc := some co }

/-- What `BatchWords` does on its channel. -/
inductive ChanEv where
  | send (batch : List Nat)
  | close
  deriving DecidableEq, Repr

/-- State of `fs.go:58-85` `BatchWords`: the channel operations made so far and the batch being
filled (`ids[:cursor]`). -/
structure BatchState where
  out : List ChanEv
  ids : List Nat
  deriving DecidableEq, Repr

/-- `fs.go:60-77` callback of `BatchWords`. `ids` has length `batchSize`, so writing at
`cursor = batchSize` panics (only possible when `batchSize = 0`). -/
def batchCb (cfg : CorpusCfg) (dic : Dictionary) (batchSize : Nat) (w : Word) (b : BatchState) : Res BatchState :=
  let id := dic.idOrZero (cfg.norm w)
  filtersAny cfg.filters id dic >>= fun drop =>
  if drop then .ok b
  else if b.ids.length < batchSize then
    let ids := b.ids ++ [id]
    if ids.length = batchSize then .ok { out := b.out ++ [.send ids], ids := [] }
    else .ok { b with ids := ids }
  else .panic .indexOutOfRange

/-- `fs.go:58-85` `BatchWords`: the channel operations it performs, in order, and how it returns
(blocking of the sends is in the training transition system). -/
def fsBatchWords (cfg : CorpusCfg) (dic : Dictionary) (p : Pass) (batchSize : Int) : BatchState × Ctl :=
  let b0 : BatchState := { out := [], ids := [] }
  if batchSize < 0 then (b0, .crash .makeNegLen)
  else
    thenDo (readWord p (fun word b => liftCtl b (batchCb cfg dic batchSize.toNat word b)) b0)
      (fun b => ({ out := b.out ++ [.send b.ids, .close], ids := [] }, .next))

/-- `fs.go:54-56` `IndexedDoc` of the file corpus: nil. -/
def fsIndexedDoc : List Nat := []

end
end Wego
