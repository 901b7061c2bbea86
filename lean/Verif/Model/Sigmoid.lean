import Verif.Go.Res
import Verif.Go.Float

/-! # `pkg/model/word2vec/sigmoid_table.go` -/

namespace Wego

/-- `sigmoid_table.go:36` -/
def expTableSize : Nat := 1000

section
variable {F : Type} [GoFloat F]

/-- `sigmoid_table.go:31` `maxExp` -/
def maxExp : F := GoFloat.ofRat 6

/-- `sigmoid_table.go:32`: `float64(s.expTableSize) / s.maxExp / 2.0` -/
def sigCache : F := GoFloat.ofRat (expTableSize : ℚ) /. maxExp /. GoFloat.ofRat 2

/-- `sigmoid_table.go:44`: the index `int((x+s.maxExp)*s.cache)` -/
def sigIndex (x : F) : Int := GoFloat.toInt ((x +. maxExp) *. sigCache)

/-- `sigmoid_table.go:43-45` `sigmoid(x)` on a table -/
def sigmoidAt (table : List F) (x : F) : Res F := idxI table (sigIndex x)

end

/-- `sigmoid_table.go:34-37`: entry `i` of the table -/
def sigEntry {F : Type} [GoMath F] (i : Nat) : F :=
  let e : F := GoMath.exp (((GoFloat.ofRat (i : ℚ) /. GoFloat.ofRat (expTableSize : ℚ)) *. GoFloat.ofRat 2 -. GoFloat.ofRat 1) *. maxExp)
  e /. (e +. GoFloat.ofRat 1)

/-- `sigmoid_table.go:28-39` `newSigmoidTable` -/
def sigTable {F : Type} [GoMath F] : List F := (List.range expTableSize).map sigEntry

end Wego
