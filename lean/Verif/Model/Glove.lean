import Verif.Model.Matrix
import Verif.Model.Cooccurrence

/-! # `pkg/model/glove/item.go` and `pkg/model/glove/solver.go` -/

namespace Wego
variable {F : Type}

/-- `item.go:26-30` `type item` -/
structure GItem (F : Type) where
  l1 : Int
  l2 : Int
  f : F
  coef : F
  deriving DecidableEq

section items
variable [GoMath F]

/-- `item.go:36-47`: the item of one entry of the encoded matrix. `int(u1)` of a `uint64` is `BitVec.toInt`. -/
def gloveItem (xmax : Int) (alpha : F) (e : BitVec 64 × F) : GItem F :=
  let u := decodeBigram e.1
  { l1 := u.1.toInt
    l2 := u.2.toInt
    f := GoMath.log e.2
    coef := if GoFloat.lt e.2 (GoFloat.ofRat (xmax : ℚ))
      then GoMath.pow (e.2 /. GoFloat.ofRat (xmax : ℚ)) alpha else GoFloat.ofRat 1 }

/-- `item.go:32-59` `makeItems`: one item per entry, in the order in which Go happens to enumerate the map (`em`);
verbose output not modelled. -/
def gloveItems (xmax : Int) (alpha : F) (em : List (BitVec 64 × F)) : List (GItem F) := em.map (gloveItem xmax alpha)

end items

section solver
variable [GoFloat F]

/-- `solver.go:40-43`, `78-82`, `lexvec.go:221-224`: `diff += v1[i]*v2[i]` for `i < dim` -/
def pairDot (m : Matrix F) (l1 l2 : Int) (dim : Nat) : Res F :=
  forN dim fzero (fun i acc =>
    m.getAt l1 i >>= fun a => m.getAt l2 i >>= fun b => .ok (acc +. a *. b))

/-- `solver.go:46-48`, `lexvec.go:227-230`: `t1, t2 := diff*v2[i], diff*v1[i]; v1[i] -= t1; v2[i] -= t2` -/
def pairSub (diff : F) (l1 l2 : Int) (i : Nat) (m : Matrix F) : Res (Matrix F) :=
  m.getAt l2 i >>= fun b => m.getAt l1 i >>= fun a =>
  let t1 := diff *. b
  let t2 := diff *. a
  m.getAt l1 i >>= fun x => m.setAt l1 i (x -. t1) >>= fun m =>
  m.getAt l2 i >>= fun y => m.setAt l2 i (y -. t2)

/-- `solver.go:38-45`, `76-84`: the scaled error `diff`. `dim = len(v1)-1`; for a matrix without columns (`Dim(-1)`)
`v1[dim]` is an index panic, which `getAt` at column `0` also gives. -/
def gloveDiff (m : Matrix F) (l1 l2 : Int) (dim : Nat) (f coef initlr : F) : Res F :=
  pairDot m l1 l2 dim >>= fun d =>
  m.getAt l1 dim >>= fun b1 => m.getAt l2 dim >>= fun b2 =>
  .ok ((d +. ((b1 +. b2) -. f)) *. (coef *. initlr))

/-- `v[i] -= x` / `v[i] += x` on one element -/
def updAt (m : Matrix F) (l : Int) (i : Nat) (g : F → F) : Res (Matrix F) :=
  m.getAt l i >>= fun x => m.setAt l i (g x)

/-- `solver.go:38-53` `(*stochastic).trainOne` -/
def sgdOne (initlr : F) (l1 l2 : Int) (m : Matrix F) (f coef : F) : Res (Matrix F) :=
  let dim := (m.col - 1).toNat
  gloveDiff m l1 l2 dim f coef initlr >>= fun diff =>
  forN dim m (fun i m => pairSub diff l1 l2 i m) >>= fun m =>
  updAt m l1 dim (fun x => x -. diff) >>= fun m => updAt m l2 dim (fun x => x -. diff)

/-- parameters and accumulators of AdaGrad -/
structure Ada (F : Type) where
  param : Matrix F
  gradsq : Matrix F

/-- `solver.go:85-94`: one coordinate -/
def adaCoord (diff : F) (l1 l2 : Int) (i : Nat) (s : Ada F) : Res (Ada F) :=
  s.param.getAt l2 i >>= fun b => s.param.getAt l1 i >>= fun a =>
  let t1 := diff *. b
  let t2 := diff *. a
  updAt s.gradsq l1 i (fun x => x +. t1 *. t1) >>= fun g =>
  updAt g l2 i (fun x => x +. t2 *. t2) >>= fun g =>
  g.getAt l1 i >>= fun g1 => g.getAt l2 i >>= fun g2 =>
  updAt s.param l1 i (fun x => x -. t1 /. GoFloat.sqrt g1) >>= fun p =>
  updAt p l2 i (fun x => x -. t2 /. GoFloat.sqrt g2) >>= fun p => .ok ⟨p, g⟩

/-- `solver.go:76-100` `(*adaGrad).trainOne` -/
def adaOne (initlr : F) (l1 l2 : Int) (s : Ada F) (f coef : F) : Res (Ada F) :=
  let dim := (s.param.col - 1).toNat
  gloveDiff s.param l1 l2 dim f coef initlr >>= fun diff =>
  forN dim s (fun i s => adaCoord diff l1 l2 i s) >>= fun s =>
  s.gradsq.getAt l1 dim >>= fun g1 =>
  updAt s.param l1 dim (fun x => x -. diff /. GoFloat.sqrt g1) >>= fun p =>
  s.gradsq.getAt l2 dim >>= fun g2 =>
  updAt p l2 dim (fun x => x -. diff /. GoFloat.sqrt g2) >>= fun p =>
  let sq := diff *. diff
  updAt s.gradsq l1 dim (fun x => x +. sq) >>= fun g =>
  updAt g l2 dim (fun x => x +. sq) >>= fun g => .ok ⟨p, g⟩

/-- `solver.go:60-73` `newAdaGrad`: all accumulators are 1 -/
def adaGradsq (len : Nat) (dim : Int) : Res (Matrix F) :=
  (Matrix.new ((len : Int) * 2) (dim + 1) (fun _ _ (s : Unit) => (List.replicate (dim + 1).toNat (GoFloat.ofRat 1), s)) ()) >>=
    fun r => .ok r.1

/-- `glove.go:150-152`: the two steps for one item; `step` is the solver, `len` the dictionary size -/
def gloveTurn {σ : Type} (step : Int → Int → σ → F → F → Res σ) (len : Nat) (it : GItem F) (s : σ) : Res σ :=
  step it.l1 (it.l2 + len) s it.f it.coef >>= fun s => step (it.l1 + len) it.l2 s it.f it.coef

end solver
end Wego
