import Verif.Go.Float
import Verif.Go.Text

/-! # The order in which a search ranks equally similar words

What `search.go:105-126` amounts to, without the array and without `k`: the words (with their similarities) arrive one after
the other and are arranged in descending similarity. -/

namespace Wego
variable {F : Type} [GoFloat F]

/-- equally similar -/
def tie (x y : Word × F) : Bool := GoFloat.le x.2 y.2 && GoFloat.le y.2 x.2

/-- In a list in descending similarity: the first of every group of equally similar words moves behind the others of its
group. -/
def rotateTies : List (Word × F) → List (Word × F)
  | [] => []
  | x :: l => l.takeWhile (tie x) ++ x :: rotateTies (l.dropWhile (tie x))
termination_by l => l.length
decreasing_by simp only [List.length_cons]; have := (List.dropWhile_suffix (l := l) (tie x)).length_le; omega

/-- The arrangement `l` after the arrival of `x`: `x` is put behind all words at least as similar; in each group of equally
similar words behind it, the first becomes the last. -/
def arrive (l : List (Word × F)) (x : Word × F) : List (Word × F) :=
  l.filter (fun y => GoFloat.le x.2 y.2) ++ x :: rotateTies (l.filter (fun y => !GoFloat.le x.2 y.2))

/-- All words arranged, when they arrive in the order `cs`. -/
def arranged (cs : List (Word × F)) : List (Word × F) := cs.foldl arrive []

end Wego
