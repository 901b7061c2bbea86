import Verif.Model.Dictionary
import Verif.Go.Float

/-! # `pkg/model/modelutil/subsample/subsample.go` -/

namespace Wego
variable {F : Type} [GoFloat F]

/-- `subsample.go:34-38`: the sample value for one frequency. -/
def sampleValue (threshold : F) (freq : Nat) : F :=
  let z := GoFloat.ofRat 1 -. GoFloat.sqrt (threshold /. GoFloat.ofRat (freq : ℚ))
  if GoFloat.lt z fzero then fzero else z

/-- `subsample.go:28-43` `New`: the table `samples`. -/
def subsamples (d : Dictionary) (threshold : F) : Res (List F) :=
  forN d.maxid [] (fun i acc => d.idFreq i >>= fun f => .ok (acc ++ [sampleValue threshold f]))

/-- `subsample.go:45-52` `Trial(id)`; `u` is the value of `rand.Float64()`. -/
def trial (samples : List F) (id : Int) (u : F) : Res Bool :=
  idxI samples id >>= fun s => .ok (GoFloat.lt u s)

end Wego
