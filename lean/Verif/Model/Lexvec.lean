import Verif.Model.Glove
import Verif.Model.Word2vec
import Verif.Model.Dictionary

/-! # `pkg/model/lexvec/item.go` and the training step of `pkg/model/lexvec/lexvec.go` -/

namespace Wego
variable {F : Type}

section items
variable [GoMath F]

/-- `item.go:68,77`: `math.Log(co) - math.Log(float64(f1)) - math.Log(math.Pow(float64(f2), s)) + logTotalFreq` -/
def pmiValue (smooth : F) (f1 f2 : Nat) (co logTotal : F) : F :=
  GoMath.log co -. GoMath.log (GoFloat.ofRat (f1 : ℚ)) -. GoMath.log (GoMath.pow (GoFloat.ofRat (f2 : ℚ)) smooth) +. logTotal

/-- `item.go:56-86` `calculateRelation`; the relation types are the strings of `options.go:27-30`. -/
def calculateRelation (dic : Dictionary) (smooth : F) (typ : String) (l1 l2 : Int) (co logTotal : F) : Res F :=
  if typ = "ppmi" then
    if GoFloat.eq co fzero then .ok fzero
    else
      dic.idFreq l1 >>= fun f1 => dic.idFreq l2 >>= fun f2 =>
      let v := pmiValue smooth f1 f2 co logTotal
      .ok (if GoFloat.lt v fzero then fzero else v)
  else if typ = "pmi" then
    if GoFloat.eq co fzero then .ok (GoFloat.ofRat 1)
    else
      dic.idFreq l1 >>= fun f1 => dic.idFreq l2 >>= fun f2 => .ok (pmiValue smooth f1 f2 co logTotal)
  else if typ = "co" then .ok co
  else if typ = "logco" then .ok (GoMath.log co)
  else .err .invalidRelation

/-- `item.go:27-54` `makeItems`, for the order `em` in which Go enumerates the map; `total` is `l.corpus.Len()`.
Verbose output not modelled. -/
def lexItems (dic : Dictionary) (total : Nat) (smooth : F) (typ : String) (em : List (BitVec 64 × F)) :
    Res (GoMap (BitVec 64) F) :=
  let logTotal := GoMath.log (GoMath.pow (GoFloat.ofRat (total : ℚ)) smooth)
  forEach em GoMap.empty (fun e res =>
    let u := decodeBigram e.1
    calculateRelation dic smooth typ u.1.toInt u.2.toInt e.2 logTotal >>= fun v => .ok (res.set e.1 v))

end items

section step
variable [GoFloat F]

/-- `lexvec.go:220-232` `update(l1, l2, f)`; `lr` is the value of `l.currentlr` it reads. -/
def lexUpdate (dim : Int) (lr : F) (l1 l2 : Int) (f : F) (m : Matrix F) : Res (Matrix F) :=
  pairDot m l1 l2 dim.toNat >>= fun d =>
  let diff := (d -. f) *. lr
  forN dim.toNat m (fun i m => pairSub diff l1 l2 i m)

/-- State of a training step: parameters, random generator, number of updates made so far. -/
structure LexState (F : Type) where
  param : Matrix F
  rnd : UInt64
  upd : Nat

/-- The options read by a training step; `len` is the dictionary size and `lrs k` is the value of `l.currentlr` that the
`k`-th update reads (the observer changes it concurrently). -/
structure LexCfg (F : Type) where
  dim : Int
  window : Int
  negative : Int
  len : Nat
  lrs : Nat → F

/-- `items[enc]`: a missing entry reads as 0 -/
def lexItem (items : GoMap (BitVec 64) F) (a b : Nat) : F :=
  (items.get? (encodeBigram (BitVec.ofNat 64 a) (BitVec.ofNat 64 b))).getD fzero

/-- one call of `update` -/
def lexUpd (cfg : LexCfg F) (l1 l2 : Int) (f : F) (s : LexState F) : Res (LexState F) :=
  lexUpdate cfg.dim (cfg.lrs s.upd) l1 l2 f s.param >>= fun m => .ok { s with param := m, upd := s.upd + 1 }

/-- `lexvec.go:210-216`: the body of the window loop for the context word `b` of the centre word `a` -/
def lexPair (cfg : LexCfg F) (items : GoMap (BitVec 64) F) (a b : Nat) (s : LexState F) : Res (LexState F) :=
  lexUpd cfg a b (lexItem items a b) s >>= fun s =>
  forN cfg.negative.toNat s (fun _ s =>
    nextRandom s.rnd cfg.len >>= fun d =>
    lexUpd cfg a (d.2 + cfg.len) (lexItem items a d.2.toNat) { s with rnd := d.1 })

/-- `lexvec.go:199-218` `trainOne` -/
def lexTrainOne (cfg : LexCfg F) (items : GoMap (BitVec 64) F) (doc : List Nat) (pos : Nat) (s : LexState F) : Res (LexState F) :=
  nextRandom s.rnd cfg.window >>= fun d =>
  windowLoop cfg.window d.2 pos doc.length { s with rnd := d.1 } (fun c s =>
    idx doc pos >>= fun a => idx doc c >>= fun b => lexPair cfg items a b s)

end step
end Wego
