import Mathlib.Data.List.Sort
import Verif.Model.Dictionary
import Verif.Go.Float

/-! # `pkg/corpus/dictionary/huffman.go` and `pkg/corpus/dictionary/node/node.go`

Pointers `*node.Node` are indices into an arena of nodes; the arena grows with every `&node.Node{}`.
The nodes of the words come first, node `i` for word id `i`. -/

namespace Wego

/-- `node.go:17-24` `type Node`; `none` is nil. -/
structure HNode (F : Type) where
  cache : Option (List Nat) := none
  parent : Option Nat := none
  val : Nat
  code : Nat := 0
  vector : Option (List F) := none

/-- `sort.Search(n, f)` (library): binary search for the smallest index in `[i, j)` with `f` true. -/
def goSearchLoop (f : Nat → Bool) (i j : Nat) : Nat :=
  if h : i < j then
    let m := (i + j) / 2
    if f m then goSearchLoop f i m else goSearchLoop f (m + 1) j
  else i
termination_by j - i

/-- `sort.Search(n, f)` -/
def goSearch (n : Nat) (f : Nat → Bool) : Nat := goSearchLoop f 0 n

section
variable {F : Type} [GoFloat F]

/-- the `Val` of a node (0 outside the arena, never used there) -/
def nodeVal (arena : List (HNode F)) (i : Nat) : Nat := (arena[i]?.map HNode.val).getD 0

/-- `huffman.go:26-32`: one node per word. -/
def huffLeaves (d : Dictionary) : Res (List (HNode F)) :=
  forN d.maxid [] (fun i arena => d.idFreq i >>= fun f => .ok (arena ++ [{ val := f }]))

/-- `huffman.go:34-36`: `sort.SliceStable` by `Val` (library: the stable sorted permutation). -/
def sortByVal (arena : List (HNode F)) (nodes : List Nat) : List Nat :=
  nodes.insertionSort (fun i j => nodeVal arena i ≤ nodeVal arena j)

/-- `left.Code = c; left.Parent = merged` (`huffman.go:43-44`) -/
def linkTo (arena : List (HNode F)) (i : Nat) (p : Nat) (c : Nat) : List (HNode F) :=
  arena.modify i (fun nd => { nd with parent := some p, code := c })

/-- `huffman.go:38-53`: one round of the loop on the nodes `left :: right :: rest`. -/
def huffMerge (arena : List (HNode F)) (dim : Nat) (left right : Nat) (rest : List Nat) :
    List (HNode F) × List Nat :=
  let merged := arena.length
  let mval := nodeVal arena left + nodeVal arena right
  let arena := linkTo (linkTo arena left merged 0) right merged 1
  let arena := arena ++ [{ val := mval, vector := some (List.replicate dim fzero) }]
  -- nodes = nodes[2:]; idx := sort.Search(...); insert merged at idx
  let idx := goSearch rest.length (fun i => decide (mval ≤ nodeVal arena (rest.getD i 0)))
  (arena, rest.take idx ++ merged :: rest.drop idx)

/-- `huffman.go:37-54`: the loop `for len(nodes) > 1`. Every round shortens `nodes` by one, so
`len(nodes)` rounds of fuel are enough (`huffLoop_done`). A negative `dim` panics in `make`. -/
def huffLoop (dim : Int) : Nat → List (HNode F) → List Nat → Res (List (HNode F) × List Nat)
  | 0, arena, nodes => .ok (arena, nodes)
  | fuel + 1, arena, nodes =>
    match nodes with
    | left :: right :: rest =>
      if dim < 0 then .panic .makeNegLen
      else
        let r := huffMerge arena dim.toNat left right rest
        huffLoop dim fuel r.1 r.2
    | nodes => .ok (arena, nodes)

/-- `huffman.go:23-57` `HuffnamTree`; the result is the arena and `set` (node `i` for word `i`). -/
def huffmanTree (d : Dictionary) (dim : Int) : Res (List (HNode F) × List Nat) :=
  huffLeaves d >>= fun arena =>
  let set := List.range d.maxid
  huffLoop dim d.maxid arena (sortByVal arena set) >>= fun r =>
  .ok (r.1, set)

/-- `node.go:34-36`: follow parents from `p` (`none` when the fuel runs out, i.e. on a cycle). -/
def followParents (arena : List (HNode F)) : Nat → Option Nat → Option (List Nat)
  | _, none => some []
  | 0, some _ => none
  | fuel + 1, some p => (followParents arena fuel (arena[p]?.bind HNode.parent)).map (p :: ·)

/-- `node.go:26-43` `GetPath` of node `i`: the new arena (cache filled) and the path.
`none` stands for an endless loop on a cyclic parent chain. -/
def getPath (arena : List (HNode F)) (i : Nat) (depth : Int) : Option (Res (List (HNode F) × List Nat)) :=
  let withCache : Option (List (HNode F) × List Nat) :=
    match arena[i]?.bind HNode.cache with
    | some c => some (arena, c)
    | none =>
      (followParents arena (arena.length + 1) (some i)).map (fun up =>
        (arena.modify i (fun nd => { nd with cache := some up.reverse }), up.reverse))
  withCache.map (fun (arena, cache) =>
    let depth := if depth > cache.length then (cache.length : Int) else depth
    if depth < 0 then .panic .sliceBounds
    else .ok (arena, cache.take depth.toNat))

end
end Wego
