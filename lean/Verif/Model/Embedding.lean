import Verif.Go.Res
import Verif.Go.Text
import Verif.Go.Float

/-! # `pkg/embedding/embedding.go` (data type and checks) and `pkg/embedding/embutil/embutil.go` -/

namespace Wego
variable {F : Type}

/-- `embedding.go:28-33` `type Embedding` -/
structure Embedding (F : Type) where
  word : Word
  dim : Int
  vector : List F
  norm : F
  deriving DecidableEq

/-- `embutil.go:21-27` `Norm` -/
def norm [GoFloat F] (vec : List F) : F :=
  GoFloat.sqrt (vec.foldl (fun n v => n +. v *. v) fzero)

namespace Embedding

/-- The zero value `Embedding{}`. -/
def zero [GoFloat F] : Embedding F := { word := [], dim := 0, vector := [], norm := fzero }

/-- `embedding.go:35-44` `Embedding.Validate` -/
def validate (e : Embedding F) : Res Unit :=
  if e.word = [] then .err .emptyWord
  else if e.dim = 0 ∨ e.vector.length = 0 then .err .dimZero
  else if e.dim ≠ (e.vector.length : Int) then .err .dimMismatch
  else .ok ()

/-- `embedding.go:52-59` `Embeddings.Find` -/
def find (embs : List (Embedding F)) (w : Word) : Option (Embedding F) :=
  match embs with
  | [] => none
  | e :: embs => if w = e.word then some e else find embs w

/-- `embedding.go:64-68`: the loop of `Embeddings.Validate` -/
def validateLoop (dim : Int) (embs : List (Embedding F)) : Res Unit :=
  match embs with
  | [] => .ok ()
  | e :: embs => if dim ≠ e.dim then .err .dimNotSame else validateLoop dim embs

/-- `embedding.go:61-71` `Embeddings.Validate` -/
def validateAll (embs : List (Embedding F)) : Res Unit :=
  match embs with
  | [] => .ok ()
  | e :: es => validateLoop e.dim (e :: es)

end Embedding
end Wego
