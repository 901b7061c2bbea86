import Verif.Go.Res
import Verif.Go.Map
import Verif.Go.Text

/-! # `pkg/corpus/dictionary/dictionary.go` -/

namespace Wego

/-- `dictionary.go:21-28` `type Dictionary`. Counters are unbounded (`int` overflow needs 2^63 words). -/
structure Dictionary where
  word2id : GoMap Word Nat
  id2word : List Word
  cfs : List Nat
  maxid : Nat
  deriving DecidableEq, Repr

namespace Dictionary

/-- `dictionary.go:30-37` `New` -/
def new : Dictionary := { word2id := GoMap.empty, id2word := [], cfs := [], maxid := 0 }

/-- `dictionary.go:39-41` `Len` -/
def len (d : Dictionary) : Nat := d.maxid

/-- `dictionary.go:43-46` `ID`; `none` is Go's `(0, false)`. -/
def id? (d : Dictionary) (w : Word) : Option Nat := d.word2id.get? w

/-- `id, _ := d.ID(w)` as used by the corpora: an unknown word gives 0. -/
def idOrZero (d : Dictionary) (w : Word) : Nat := (d.id? w).getD 0

/-- `dictionary.go:48-54` `WordFreq` -/
def wordFreq (d : Dictionary) (w : Word) : Res Nat :=
  match d.word2id.get? w with
  | none => .ok 0
  | some id => idx d.cfs id

/-- `dictionary.go:56-61` `Word`; `ok none` is Go's `("", false)`. -/
def word (d : Dictionary) (id : Int) : Res (Option Word) :=
  if id ≥ d.maxid then .ok none
  else if id < 0 then .panic .indexOutOfRange
  else (idx d.id2word id.toNat) >>= fun w => .ok (some w)

/-- `dictionary.go:63-68` `IDFreq` -/
def idFreq (d : Dictionary) (id : Int) : Res Nat :=
  if id ≥ d.maxid then .ok 0
  else if id < 0 then .panic .indexOutOfRange
  else idx d.cfs id.toNat

/-- `dictionary.go:72-79`: body of the loop of `Add`, for one word. -/
def add1 (d : Dictionary) (w : Word) : Res Dictionary :=
  match d.word2id.get? w with
  | some id =>
    -- d.cfs[id]++
    idx d.cfs id >>= fun c => setIdx d.cfs id (c + 1) >>= fun cfs => .ok { d with cfs := cfs }
  | none =>
    .ok { word2id := d.word2id.set w d.maxid
          id2word := d.id2word ++ [w]
          cfs := d.cfs ++ [1]
          maxid := d.maxid + 1 }

/-- `dictionary.go:70-81` `Add(words...)` -/
def add (d : Dictionary) (ws : List Word) : Res Dictionary :=
  forEach ws d (fun w d => d.add1 w)

end Dictionary
end Wego
