import Verif.Model.Word2vec
import Verif.Model.Dictionary

/-! # `WordVector` of the three models

The vector type is a string (`vector.go:34-39`): `"single"`, `"agg"` or anything else the caller passes. -/

namespace Wego
variable {F : Type} [GoFloat F]

/-- `vector.go:37` `Single` -/
def vecSingle : Word := "single".toList

/-- `vector.go:38` `Agg` -/
def vecAgg : Word := "agg".toList

/-- `matrix.go:23-33` `New(row, col, fn)` for an initialiser that may itself panic (it reads other matrices). -/
def Matrix.newRes (row col : Int) (fn : Nat → List F → Res (List F)) : Res (Matrix F) :=
  if row * col < 0 then .panic .makeNegLen
  else
    forN row.toNat ({ array := List.replicate (row * col).toNat fzero, row := row, col := col } : Matrix F) (fun i mat =>
      mat.getRow i >>= fun vec => fn i vec >>= fun vec' => mat.setRow i vec')

/-- `for i := 0; i < dim; i++ { vec[i] = g(i) }` -/
def fillRow (dim : Int) (g : Nat → Res F) (vec : List F) : Res (List F) :=
  forN dim.toNat vec (fun i vec => g i >>= fun x => setIdx vec i x)

/-- the optimizer of a word2vec model (`word2vec.go:108-121`) -/
inductive W2VOptimizer (F : Type) where
  | ns (o : NegSampling F)
  | hs (o : HierSoftmax F)

/-- `word2vec.go:233-255` `WordVector(typ)`; `len` is `dic.Len()`, `dim` is `opts.Dim` -/
def w2vWordVector (len : Nat) (dim : Int) (param : Matrix F) (opt : W2VOptimizer F) (typ : Word) : Res (Matrix F) :=
  match opt with
  | .ns ng =>
    if typ = vecAgg then
      Matrix.newRes len dim (fun row vec => fillRow dim (fun i =>
        param.getAt row i >>= fun a => ng.ctx.getAt row i >>= fun b => .ok (a +. b)) vec)
    else Matrix.newRes len dim (fun row vec => fillRow dim (fun i => param.getAt row i) vec)
  | .hs _ => Matrix.newRes len dim (fun row vec => fillRow dim (fun i => param.getAt row i) vec)

/-- `glove.go:181-202` `WordVector(typ)` -/
def gloveWordVector (len : Nat) (dim : Int) (param : Matrix F) (typ : Word) : Res (Matrix F) :=
  if typ = vecAgg then Matrix.newRes len dim (fun row vec => fillRow dim (fun i => param.getAt row i) vec)
  else Matrix.newRes len dim (fun row vec => fillRow dim (fun i =>
    param.getAt row i >>= fun a => param.getAt (row + len : Int) i >>= fun b => .ok (a +. b)) vec)

/-- `lexvec.go:260-282` `WordVector(typ)` -/
def lexWordVector (len : Nat) (dim : Int) (param : Matrix F) (typ : Word) : Res (Matrix F) :=
  if typ = vecAgg then Matrix.newRes len dim (fun row vec => fillRow dim (fun i => param.getAt row i) vec)
  else Matrix.newRes len dim (fun row vec => fillRow dim (fun i =>
    param.getAt row i >>= fun a => param.getAt (row + len : Int) i >>= fun b => .ok (a +. b)) vec)

end Wego
