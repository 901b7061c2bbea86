import Verif.Model.Embedding
import Verif.Go.Map

/-! # `pkg/search/search.go` and `pkg/search/searchutil/searchutil.go` -/

namespace Wego
variable {F : Type}

/-- `search.go:30-34` `type Neighbor` -/
structure Neighbor (F : Type) where
  word : Word
  rank : Nat
  sim : F
  deriving DecidableEq

/-- The zero value `Neighbor{}`. -/
def Neighbor.blank [GoFloat F] : Neighbor F := { word := [], rank := 0, sim := fzero }

variable [GoFloat F]

/-- `searchutil.go:21-24`: the loop `for i := range v1 { dot += v1[i] * v2[i] }` from index `i` on -/
def dotFrom (v2 : List F) (i : Nat) (acc : F) (v1 : List F) : Res F :=
  match v1 with
  | [] => .ok acc
  | x :: v1 => idx v2 i >>= fun y => dotFrom v2 (i + 1) (acc +. x *. y) v1

/-- `searchutil.go:17-26` `Cosine` -/
def cosine (v1 v2 : List F) (n1 n2 : F) : Res F :=
  if (GoFloat.eq n1 fzero || GoFloat.eq n2 fzero) = true then .ok fzero
  else dotFrom v2 0 fzero v1 >>= fun dot => .ok (dot /. n1 /. n2)

/-- `search.go:55-57` `type Searcher` -/
structure Searcher (F : Type) where
  items : List (Embedding F)

/-- `search.go:59-66` `New` -/
def Searcher.new (embs : List (Embedding F)) : Res (Searcher F) :=
  Embedding.validateAll embs >>= fun _ => .ok { items := embs }

/-- `search.go:117-122`: the bubbling loop from index `i` on; returns the new suffix and the last `temp` -/
def bubble (i : Nat) (temp : Neighbor F) (ns : List (Neighbor F)) : List (Neighbor F) × Neighbor F :=
  match ns with
  | [] => ([], temp)
  | n :: ns =>
    if GoFloat.lt n.sim temp.sim then
      let r := bubble (i + 1) n ns
      ({ temp with rank := i + 1 } :: r.1, r.2)
    else
      let r := bubble (i + 1) temp ns
      (n :: r.1, r.2)

/-- Loop variables of `Search`: `neighbors` and `low`. -/
structure SearchSt (F : Type) where
  neighbors : List (Neighbor F)
  low : F

/-- `search.go:105-126`: one iteration of the loop over the items -/
def searchStep (query : Embedding F) (ignore : GoMap Word Unit) (item : Embedding F) (st : SearchSt F) :
    Res (SearchSt F) :=
  if (ignore.get? item.word).isSome then .ok st
  else
    cosine query.vector item.vector query.norm item.norm >>= fun score =>
    if GoFloat.lt st.low score then
      let ns := (bubble 0 { word := item.word, rank := 0, sim := score } st.neighbors).1
      idxI ns ((ns.length : Int) - 1) >>= fun last => .ok { neighbors := ns, low := last.sim }
    else .ok st

/-- `search.go:129-133`: the loop that sets `k` to the index of each blank entry -/
def guardK (i : Nat) (k : Int) (ns : List (Neighbor F)) : Int :=
  match ns with
  | [] => k
  | n :: ns => guardK (i + 1) (if n.word = [] then (i : Int) else k) ns

/-- `search.go:94-136` `Search`. -/
def Searcher.search (s : Searcher F) (query : Embedding F) (k : Int) (ignoreWord : List Word) :
    Res (List (Neighbor F)) :=
  if k < 0 then .panic .makeNegLen
  else
    let ignore := ignoreWord.foldl (fun m w => GoMap.set m w ()) GoMap.empty
    forEach s.items { neighbors := List.replicate k.toNat Neighbor.blank, low := fzero }
      (searchStep query ignore) >>= fun st =>
    let k' := guardK 0 k st.neighbors
    if k' < 0 ∨ (st.neighbors.length : Int) < k' then .panic .sliceBounds
    else .ok (st.neighbors.take k'.toNat)

/-- `search.go:68-85` `SearchInternal` -/
def Searcher.searchInternal (s : Searcher F) (word : Word) (k : Int) : Res (List (Neighbor F)) :=
  let q := match s.items.find? (fun item => item.word = word) with
    | some item => item
    | none => Embedding.zero
  if q.word = [] then .err .notFound else s.search q k [word]

/-- `search.go:87-92` `SearchVector` -/
def Searcher.searchVector (s : Searcher F) (query : List F) (k : Int) : Res (List (Neighbor F)) :=
  s.search { word := [], dim := 0, vector := query, norm := norm query } k []

end Wego
