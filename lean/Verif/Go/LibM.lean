import Verif.Go.F64

/-! # `math.Exp`, `math.Log`, `math.Pow` on float64

They are not modelled bit by bit: theorems about the float64 program hold for any three functions. -/

namespace Wego

/-- implementations of the three functions -/
structure LibM where
  exp : F64 → F64
  log : F64 → F64
  pow : F64 → F64 → F64

/-- float64 arithmetic with these functions -/
abbrev LibM.math (l : LibM) : GoMath F64 :=
  { (inferInstance : GoFloat F64) with exp := l.exp, log := l.log, pow := l.pow }

end Wego
