import Verif.Model.Search

/-! # Which items a search may return -/

namespace Wego
variable {F : Type} [GoFloat F]

/-- Words and similarities of the items that are not ignored and have similarity above 0, in item order. -/
def candidates (query : Embedding F) (ignore : List Word) (items : List (Embedding F)) : List (Word × F) :=
  items.filterMap fun it =>
    if it.word ∈ ignore then none
    else match cosine query.vector it.vector query.norm it.norm with
      | .ok s => if GoFloat.lt fzero s then some (it.word, s) else none
      | _ => none

end Wego
