import Mathlib.InformationTheory.Coding.KraftMcMillan
import Verif.Spec.Huffman
import Verif.Proofs.Huffman
import Verif.Props.Dictionary
import Verif.Go.F64

/-! # C17 – C21: the Huffman tree -/

namespace Wego

theorem HTree.mem_ids_walks (t : HTree) : ∀ j ∈ t.ids, ∃ x ∈ t.walks, j ∈ x.path := by
  induction t with
  | leaf i w => simp [HTree.ids, HTree.walks]
  | node i l r ihl ihr =>
    simp only [HTree.ids, HTree.walks, List.mem_cons, List.mem_append, List.mem_map]
    have hne : ∀ t : HTree, ∃ x, x ∈ t.walks := by
      intro t; cases hw : t.walks with
      | nil => have := t.kraft; rw [hw] at this; simp at this
      | cons a _ => exact ⟨a, by simp⟩
    rintro j (rfl | hj | hj)
    · obtain ⟨x, hx⟩ := hne l
      exact ⟨_, Or.inl ⟨x, hx, rfl⟩, by simp [HTree.Walk.down]⟩
    · obtain ⟨x, hx, h⟩ := ihl j hj
      exact ⟨_, Or.inl ⟨x, hx, rfl⟩, by simp [HTree.Walk.down, h]⟩
    · obtain ⟨x, hx, h⟩ := ihr j hj
      exact ⟨_, Or.inr ⟨x, hx, rfl⟩, by simp [HTree.Walk.down, h]⟩

/-- Index the walks of a tree with leaves `0..n-1` by the leaf. -/
theorem walk_index (T : HTree) (n : Nat) (h : (T.leaves.map Prod.fst).Perm (List.range n)) :
    ∃ P : Nat → HTree.Walk, ((List.range n).map P).Perm T.walks ∧ (∀ i < n, (P i).leaf = i) := by
  have hl : (T.walks.map (fun x => x.leaf)).Perm (List.range n) := by
    rw [← T.walks_leaves] at h
    simpa [List.map_map, Function.comp_def] using h
  have hnd : (T.walks.map (fun x => x.leaf)).Nodup := hl.nodup_iff.2 List.nodup_range
  let P : Nat → HTree.Walk := fun i => (T.walks.find? (fun x => x.leaf = i)).getD ⟨0, 0, [], []⟩
  have hP : ∀ x ∈ T.walks, P x.leaf = x := by
    intro x hx
    simp only [P]
    cases hf : T.walks.find? (fun y => y.leaf = x.leaf) with
    | none => simp only [List.find?_eq_none] at hf; exact absurd (hf x hx) (by simp)
    | some y =>
      have h1 := List.mem_of_find?_eq_some hf
      have h2 := List.find?_some hf
      simp only [decide_eq_true_eq] at h2
      simpa using List.inj_on_of_nodup_map hnd h1 hx h2
  refine ⟨P, ?_, ?_⟩
  · refine (hl.map P).symm.trans (List.Perm.of_eq ?_)
    rw [List.map_map]
    exact (List.map_congr_left (fun x hx => hP x hx)).trans (List.map_id _)
  · intro i hi
    have : i ∈ T.walks.map (fun x => x.leaf) := hl.mem_iff.2 (by simpa using hi)
    obtain ⟨x, hx, rfl⟩ := List.mem_map.1 this
    rw [hP x hx]

end Wego

namespace Wego.Props
open Wego Wego.Spec

variable {F : Type} [GoFloat F]

/-- Everything the proofs need about the tree of a dictionary with at least one word. -/
theorem huff_core (calls : List (List Word)) (hne : calls.flatten ≠ []) (dim : Nat) :
    ∃ (d : Dictionary) (arena : List (HNode F)) (T : HTree) (P : Nat → HTree.Walk),
      addCalls calls = .ok d ∧ d.Rep calls.flatten ∧ 0 < d.len ∧
      huffmanTree d dim = .ok (arena, List.range d.len) ∧
      Sim arena dim [T] ∧ ((List.range d.len).map P).Perm T.walks ∧ (∀ i < d.len, (P i).leaf = i) ∧
      (∀ i < d.len, P i ∈ T.walks) ∧
      (T.leaves.map Prod.fst).Perm (List.range d.len) ∧
      (∀ i : Nat, i < d.len → d.idFreq i = .ok (P i).w) ∧
      (∀ L : List Nat, L.length = d.len → (L.map (fun l => (1/2 : ℚ) ^ l)).sum ≤ 1 →
        T.cost ≤ ((List.range d.len).map (fun i => (P i).w * L.getD i 0)).sum) := by
  obtain ⟨d, hd, r⟩ := addCalls_rep calls
  set fs := (firstOcc calls.flatten).map (fun w => calls.flatten.count w) with hfs
  have hlen : d.len = fs.length := by rw [Dictionary.len, r.maxid, hfs, List.length_map]
  have hfne : fs ≠ [] := by
    obtain ⟨w, hw⟩ := List.exists_mem_of_ne_nil _ hne
    have : w ∈ firstOcc calls.flatten := (mem_firstOcc _ _).2 hw
    intro h
    rw [hfs, List.map_eq_nil_iff] at h
    rw [h] at this; simp at this
  obtain ⟨arena, T, he, hS, hlv, hopt⟩ := huffTree_sim (F := F) fs hfne dim
  have hperm : (T.leaves.map Prod.fst).Perm (List.range d.len) := by
    refine (hlv.map Prod.fst).trans (List.Perm.of_eq ?_)
    rw [List.map_map, hlen]
    apply List.ext_getElem
    · simp
    · intro i h1 h2; simp
  obtain ⟨P, hP1, hP2⟩ := walk_index T d.len hperm
  have hmem : ∀ i < d.len, P i ∈ T.walks := fun i hi =>
    hP1.mem_iff.1 (List.mem_map.2 ⟨i, by simpa using hi, rfl⟩)
  have hw : ∀ i (hi : i < d.len), (P i).w = fs[i]'(by omega) := by
    intro i hi
    have h1 : ((P i).leaf, (P i).w) ∈ T.leaves := by
      rw [← T.walks_leaves]; exact List.mem_map_of_mem (f := fun x : HTree.Walk => (x.leaf, x.w)) (hmem i hi)
    have h2 := hlv.mem_iff.1 h1
    rw [hP2 i hi] at h2
    obtain ⟨⟨v, k⟩, hx, e⟩ := List.mem_map.1 h2
    simp only [Prod.mk.injEq] at e
    obtain ⟨rfl, rfl⟩ := e
    have := List.mem_zipIdx hx
    obtain ⟨_, h3, h4⟩ := this
    rw [h4]; simp
  refine ⟨d, arena, T, P, hd, r, ?_, ?_, hS, hP1, hP2, hmem, hperm, ?_, ?_⟩
  · rw [hlen]; exact List.length_pos_iff.2 hfne
  · unfold huffmanTree
    rw [huffLeaves_eq d _ r]
    simp only [Res.ok_bind]
    have hm : d.maxid = fs.length := hlen
    rw [← hfs, hm, he]
    simp [hlen]
  · intro i hi
    rw [r.idFreq_nat, hw i hi]
    have : i < (firstOcc calls.flatten).length := by rw [Dictionary.len, r.maxid] at hi; exact hi
    simp [this, hfs]
  · intro L hL hk
    have h1 : (fs.zip L).map Prod.fst = fs := by
      rw [List.map_fst_zip]; omega
    have h2 := hopt (fs.zip L) h1 (by
      refine le_trans (le_of_eq ?_) hk
      unfold kr
      congr 1
      have : ((fs.zip L).map Prod.snd).map (fun l => (1/2 : ℚ) ^ l) = L.map (fun l => (1/2 : ℚ) ^ l) := by
        rw [List.map_snd_zip]; omega
      rw [← this, List.map_map]; rfl)
    refine le_trans h2 (le_of_eq ?_)
    unfold wcost
    congr 1
    apply List.ext_getElem
    · simp; omega
    · intro i h3 h4
      have h5 : i < d.len := by simpa using h4
      have h6 : i < L.length := by omega
      simp [hw i h5, h6]

theorem sum_range_walks {M : Type} [AddCommMonoid M] {n : Nat} {P : Nat → HTree.Walk} {T : HTree}
    (h : ((List.range n).map P).Perm T.walks) (g : HTree.Walk → M) :
    ((List.range n).map (fun i => g (P i))).sum = (T.walks.map g).sum := by
  rw [← (h.map g).sum_eq, List.map_map]; rfl

theorem rootPath_of_sim {arena : List (HNode F)} {dim : Nat} {T : HTree} (h : Sim arena dim [T])
    (x : HTree.Walk) (hx : x ∈ T.walks) :
    RootPath arena x.leaf x.path ∧ x.path.head? = some T.root ∧ codeWord arena x.path = x.bits ∧
      (∀ k, x.path.length ≤ k → followParents arena k (some x.leaf) = some x.path.reverse) ∧
      x.path.length ≤ arena.length := by
  have hS := h.shape T (by simp)
  have hc := hS.chain x hx
  have hlen : x.path.length ≤ arena.length := by
    have h1 := (walks_path_sublist T x hx).length_le
    have h2 := h.perm.length_eq
    simp at h2; omega
  have hroot : T.root < arena.length ∧ parentOf arena T.root = none := by
    cases T with
    | leaf i w =>
      simp only [Shape] at hS
      refine ⟨?_, by simp [parentOf, HTree.root, hS]⟩
      by_contra hc; rw [List.getElem?_eq_none (by simpa [HTree.root] using hc)] at hS; simp at hS
    | node i l r =>
      simp only [Shape] at hS
      have hS := hS.1
      refine ⟨?_, by simp [parentOf, HTree.root, hS]⟩
      by_contra hc; rw [List.getElem?_eq_none (by simpa [HTree.root] using hc)] at hS; simp at hS
  refine ⟨⟨walks_last T x hx, hc.1, ?_⟩, walks_head T x hx, hc.2, ?_, hlen⟩
  · intro r hr
    rw [walks_head T x hx] at hr
    simp only [Option.some.injEq] at hr
    subst hr; exact hroot
  · intro k hk
    have := hS.follow x hx (k - x.path.length)
    rw [show k - x.path.length + x.path.length = k by omega] at this
    rw [this]
    cases k - x.path.length <;> simp [followParents]

/-- the calls `Add("a","b"); Add("a","c","a")` used in the examples -/
def exCalls : List (List Word) := [[['a'], ['b']], [['a'], ['c'], ['a']]]

/-- **C17.** For every dictionary with at least two words (`n = Len()`) and every vector size: the tree
has `2n-1` nodes; all words hang below one root; code words consist of bits, none is a prefix of
another, and their Kraft sum is exactly 1; the `n-1` nodes that are not words each lie on some word's
path and carry a zero vector of the requested size; word nodes carry no vector and their frequency. -/
theorem C17_huffman_complete_prefix_code (calls : List (List Word)) (h2 : 2 ≤ calls.flatten.dedup.length)
    (dim : Nat) :
    ∃ (d : Dictionary) (nodes : List (HNode F)) (root : Nat) (path : Nat → List Nat),
      addCalls calls = .ok d ∧
      huffmanTree d dim = .ok (nodes, List.range d.len) ∧
      nodes.length = 2 * d.len - 1 ∧ d.len ≤ root ∧
      (∀ i < d.len, RootPath nodes i (path i) ∧ (path i).head? = some root ∧
        (∀ b ∈ codeWord nodes (path i), b = 0 ∨ b = 1)) ∧
      (∀ i < d.len, ∀ j < d.len, i ≠ j → ¬ codeWord nodes (path i) <+: codeWord nodes (path j)) ∧
      ((List.range d.len).map (fun i => (1/2 : ℚ) ^ (codeWord nodes (path i)).length)).sum = 1 ∧
      (∀ j, d.len ≤ j → j < 2 * d.len - 1 →
        (∃ i < d.len, j ∈ path i) ∧
        nodes[j]?.bind HNode.vector = some (List.replicate dim fzero)) ∧
      (∀ i : Nat, i < d.len → ∃ nd, nodes[i]? = some nd ∧ nd.vector = none ∧ d.idFreq i = .ok nd.val) := by
  have hne : calls.flatten ≠ [] := by intro h; rw [h] at h2; simp at h2
  obtain ⟨d, arena, T, P, hd, r, hpos, ht, hS, hP1, hP2, hmem, hlv, hfreq, _⟩ := huff_core (F := F) calls hne dim
  have hlen2 : 2 ≤ d.len := by rw [r.len_eq]; exact h2
  have hleaves : T.leaves.length = d.len := by simpa using hlv.length_eq
  have hids : T.ids.Perm (List.range arena.length) := by simpa using hS.perm
  have halen : arena.length = 2 * d.len - 1 := by
    have h1 := T.ids_perm.length_eq
    have h3 := T.length_inner
    have h4 := hids.length_eq
    simp at h1 h4; omega
  have hshape := hS.shape T (by simp)
  obtain ⟨v1, v2, _⟩ := hshape.inner_vec
  have hinner : ∀ j, j ∈ T.inner ↔ d.len ≤ j ∧ j < arena.length := by
    intro j
    have hnd : (T.leaves.map Prod.fst ++ T.inner).Nodup := T.ids_perm.nodup_iff.1 (hids.nodup_iff.2 List.nodup_range)
    have h1 : j ∈ T.leaves.map Prod.fst ↔ j < d.len := by rw [hlv.mem_iff]; simp
    have h2 : j < arena.length ↔ j ∈ T.leaves.map Prod.fst ∨ j ∈ T.inner := by
      rw [← List.mem_append, ← T.ids_perm.mem_iff, hids.mem_iff]; simp
    rw [List.nodup_append] at hnd
    constructor
    · intro h
      refine ⟨?_, h2.2 (Or.inr h)⟩
      by_contra hc
      exact hnd.2.2 j (h1.2 (by omega)) j h rfl
    · rintro ⟨h3, h4⟩
      rcases h2.1 h4 with h | h
      · rw [h1] at h; omega
      · exact h
  have hinj : ∀ i < d.len, ∀ j < d.len, i ≠ j → P i ≠ P j := by
    intro i hi j hj hij e
    exact hij (by rw [← hP2 i hi, ← hP2 j hj, e])
  refine ⟨d, arena, T.root, fun i => (P i).path, hd, ht, halen, ?_, ?_, ?_, ?_, ?_, ?_⟩
  · have : T.root ∈ T.inner := by
      cases T with
      | leaf i w => simp [HTree.leaves] at hleaves; omega
      | node i l r => simp [HTree.inner, HTree.root]
    exact ((hinner _).1 this).1
  · intro i hi
    obtain ⟨h1, h3, h4, _⟩ := rootPath_of_sim hS (P i) (hmem i hi)
    rw [hP2 i hi] at h1
    refine ⟨h1, h3, ?_⟩
    intro b hb
    rw [h4] at hb
    have := T.bits_lt_two (P i) (hmem i hi) b hb
    omega
  · intro i hi j hj hij
    rw [(rootPath_of_sim hS (P i) (hmem i hi)).2.2.1, (rootPath_of_sim hS (P j) (hmem j hj)).2.2.1]
    have hsym : Std.Symm (fun x y : HTree.Walk => ¬ x.bits <+: y.bits ∧ ¬ y.bits <+: x.bits) :=
      ⟨fun a b h => ⟨h.2, h.1⟩⟩
    exact ((T.prefix_free).forall (hmem i hi) (hmem j hj) (hinj i hi j hj hij)).1
  · have : ((List.range d.len).map (fun i => (1/2 : ℚ) ^ (codeWord arena (P i).path).length)) =
        ((List.range d.len).map (fun i => (1/2 : ℚ) ^ (P i).bits.length)) := by
      refine List.map_congr_left ?_
      intro i hi
      rw [(rootPath_of_sim hS (P i) (hmem i (by simpa using hi))).2.2.1]
    rw [this, sum_range_walks hP1 (fun x => (1/2 : ℚ) ^ x.bits.length), T.kraft]
  · intro j h1 h3
    have hj : j ∈ T.inner := (hinner j).2 ⟨h1, by omega⟩
    refine ⟨?_, v1 j hj⟩
    obtain ⟨x, hx, hjx⟩ := T.mem_ids_walks j (T.ids_perm.mem_iff.2 (by simp [hj]))
    obtain ⟨i, hi, rfl⟩ := List.mem_map.1 (hP1.mem_iff.2 hx)
    exact ⟨i, by simpa using hi, hjx⟩
  · intro i hi
    have h1 : ((P i).leaf, (P i).w) ∈ T.leaves := by
      rw [← T.walks_leaves]; exact List.mem_map_of_mem (f := fun x : HTree.Walk => (x.leaf, x.w)) (hmem i hi)
    obtain ⟨nd, h3, h4, h5⟩ := v2 _ h1
    simp only [hP2 i hi] at h3
    exact ⟨nd, h3, h4, by rw [h5]; exact hfreq i hi⟩

/-- `C17_huffman_complete_prefix_code` for three words and vectors of size 2. -/
example := C17_huffman_complete_prefix_code (F := F64) exCalls (by decide) 2

/-- Code lengths of the words of a dictionary, read off the tree. -/
def totalLength (freq : Nat → Nat) (len : Nat → Nat) (n : Nat) : Nat :=
  ((List.range n).map (fun i => freq i * len i)).sum

/-- **C18.** No assignment of code lengths that satisfies Kraft's inequality has a smaller total length,
weighted by word frequency. -/
theorem C18_huffman_optimal_kraft (calls : List (List Word)) (hne : calls.flatten ≠ []) (dim : Nat) :
    ∃ (d : Dictionary) (nodes : List (HNode F)) (path : Nat → List Nat) (freq : Nat → Nat),
      addCalls calls = .ok d ∧
      huffmanTree d dim = .ok (nodes, List.range d.len) ∧
      (∀ i : Nat, i < d.len → RootPath nodes i (path i) ∧ d.idFreq i = .ok (freq i)) ∧
      (∀ len : Nat → Nat, ((List.range d.len).map (fun i => (1/2 : ℚ) ^ len i)).sum ≤ 1 →
        totalLength freq (fun i => (codeWord nodes (path i)).length) d.len ≤ totalLength freq len d.len) := by
  obtain ⟨d, arena, T, P, hd, r, hpos, ht, hS, hP1, hP2, hmem, hlv, hfreq, hopt⟩ := huff_core (F := F) calls hne dim
  refine ⟨d, arena, fun i => (P i).path, fun i => (P i).w, hd, ht, ?_, ?_⟩
  · intro i hi
    have h := (rootPath_of_sim hS (P i) (hmem i hi)).1
    rw [hP2 i hi] at h
    exact ⟨h, hfreq i hi⟩
  · intro len hk
    have h1 := hopt ((List.range d.len).map len) (by simp) (by rw [List.map_map]; exact hk)
    have h2 : totalLength (fun i => (P i).w) (fun i => (codeWord arena (P i).path).length) d.len = T.cost := by
      unfold totalLength
      rw [T.cost_eq, ← sum_range_walks hP1]
      congr 1
      refine List.map_congr_left ?_
      intro i hi
      simp only [(rootPath_of_sim hS (P i) (hmem i (by simpa using hi))).2.2.1]
    rw [h2]
    refine le_trans h1 (le_of_eq ?_)
    unfold totalLength
    congr 1
    refine List.map_congr_left ?_
    intro i hi
    simp only [List.mem_range] at hi
    simp [hi]

/-- `C18_huffman_optimal_kraft` for three words: the lengths 1, 2, 2 satisfy Kraft's inequality, and the tree of
`a` (3 times), `b`, `c` is at most as long as they are. -/
example : ∃ (d : Dictionary) (nodes : List (HNode F64)) (path : Nat → List Nat) (freq : Nat → Nat),
    addCalls exCalls = .ok d ∧ huffmanTree d (2 : Nat) = .ok (nodes, List.range d.len) ∧
      totalLength freq (fun i => (codeWord nodes (path i)).length) d.len ≤
        totalLength freq (fun i => if i = 0 then 1 else 2) d.len := by
  obtain ⟨d, nodes, path, freq, h1, h2, _, h3⟩ := C18_huffman_optimal_kraft (F := F64) exCalls (by decide) 2
  refine ⟨d, nodes, path, freq, h1, h2, h3 _ ?_⟩
  obtain ⟨d', h1', h4, _⟩ := C01_dictionary_ids exCalls
  rw [h1] at h1'
  cases h1'
  rw [h4]
  decide +kernel

theorem sum_range_eq (f : Nat → ℚ) (n : Nat) : ∑ i ∈ Finset.range n, f i = ((List.range n).map f).sum := by
  induction n with
  | zero => simp
  | succ n ih => rw [List.range_succ, Finset.sum_range_succ, List.map_append, List.sum_append, ih]; simp

/-- Kraft's inequality for the words of a uniquely decodable code. -/
theorem kraft_of_uniquelyDecodable (n : Nat) (c : Nat → List Bool)
    (hinj : ∀ i < n, ∀ j < n, c i = c j → i = j)
    (hud : InformationTheory.UniquelyDecodable {w | ∃ i < n, c i = w}) :
    ((List.range n).map (fun i => (1/2 : ℚ) ^ (c i).length)).sum ≤ 1 := by
  have h := InformationTheory.kraft_mcmillan_inequality (α := Bool) (S := (Finset.range n).image c) (by
    convert hud using 1
    ext w; simp)
  rw [Finset.sum_image (by
    intro i hi j hj e
    exact hinj i (by simpa using hi) j (by simpa using hj) e)] at h
  have e : (((List.range n).map (fun i => (1/2 : ℚ) ^ (c i).length)).sum : ℚ) =
      ∑ i ∈ Finset.range n, (1/2 : ℚ) ^ (c i).length := by
    exact (sum_range_eq _ n).symm
  rw [e]
  have h' : ((∑ i ∈ Finset.range n, (1/2 : ℚ) ^ (c i).length : ℚ) : ℝ) ≤ ((1 : ℚ) : ℝ) := by
    push_cast
    simpa using h
  exact_mod_cast h'

/-- **C18.** The same against every uniquely decodable binary code for the words: any map from word ids
to distinct bit strings such that concatenations of code words decode in one way only. -/
theorem C18_huffman_optimal (calls : List (List Word)) (hne : calls.flatten ≠ []) (dim : Nat) :
    ∃ (d : Dictionary) (nodes : List (HNode F)) (path : Nat → List Nat) (freq : Nat → Nat),
      addCalls calls = .ok d ∧
      huffmanTree d dim = .ok (nodes, List.range d.len) ∧
      (∀ i : Nat, i < d.len → RootPath nodes i (path i) ∧ d.idFreq i = .ok (freq i)) ∧
      (∀ c : Nat → List Bool, (∀ i < d.len, ∀ j < d.len, c i = c j → i = j) →
        InformationTheory.UniquelyDecodable {w | ∃ i < d.len, c i = w} →
        totalLength freq (fun i => (codeWord nodes (path i)).length) d.len ≤
          totalLength freq (fun i => (c i).length) d.len) := by
  obtain ⟨d, nodes, path, freq, h1, h2, h3, h4⟩ := C18_huffman_optimal_kraft (F := F) calls hne dim
  exact ⟨d, nodes, path, freq, h1, h2, h3, fun c hc hu =>
    h4 (fun i => (c i).length) (kraft_of_uniquelyDecodable d.len c hc hu)⟩

/-- `C18_huffman_optimal` for three words. -/
example := C18_huffman_optimal (F := F64) exCalls (by decide) 2

/-- A sequence of `GetPath(depth)` calls on word nodes; the results in order. `none`: an endless loop. -/
def getPaths (nodes : List (HNode F)) : List (Nat × Int) → Option (Res (List (HNode F) × List (List Nat)))
  | [] => some (.ok (nodes, []))
  | (i, depth) :: calls =>
    match getPath nodes i depth with
    | none => none
    | some (.ok (nodes, p)) =>
      (getPaths nodes calls).map (fun r => r >>= fun (nodes, ps) => .ok (nodes, p :: ps))
    | some (.err e) => some (.err e)
    | some (.panic e) => some (.panic e)

/-- The nodes after some `GetPath` calls: only caches differ, and each is nil or the node's path. -/
def Warm (nodes nodes' : List (HNode F)) (path : Nat → List Nat) : Prop :=
  ∀ j, ∃ c : Option (List Nat), (c = none ∨ c = some (path j)) ∧
    nodes'[j]? = nodes[j]?.map (fun nd => { nd with cache := c })

omit [GoFloat F] in
theorem followParents_congr (a b : List (HNode F)) (h : ∀ j : Nat, a[j]?.bind HNode.parent = b[j]?.bind HNode.parent)
    (k : Nat) (p : Option Nat) : followParents a k p = followParents b k p := by
  induction k generalizing p with
  | zero => cases p <;> rfl
  | succ k ih => cases p with
    | none => rfl
    | some p => simp only [followParents, h, ih]

omit [GoFloat F] in
theorem Warm.length {nodes nodes' : List (HNode F)} {path : Nat → List Nat} (h : Warm nodes nodes' path) :
    nodes'.length = nodes.length := by
  apply Nat.le_antisymm
  · by_contra hc
    obtain ⟨c, _, e⟩ := h nodes.length
    rw [List.getElem?_eq_getElem (by omega), List.getElem?_eq_none (le_refl _)] at e
    simp at e
  · by_contra hc
    obtain ⟨c, _, e⟩ := h nodes'.length
    rw [List.getElem?_eq_none (le_refl _), List.getElem?_eq_getElem (by omega)] at e
    simp at e

omit [GoFloat F] in
theorem getPath_warm {nodes nodes' : List (HNode F)} {path : Nat → List Nat} (h : Warm nodes nodes' path)
    (i : Nat) (hi : i < nodes.length)
    (hp : followParents nodes (nodes.length + 1) (some i) = some (path i).reverse) (depth : Int) (hd : 0 ≤ depth) :
    ∃ nodes'', getPath nodes' i depth = some (.ok (nodes'', (path i).take depth.toNat)) ∧ Warm nodes nodes'' path := by
  have htake : ∀ c : List Nat, (let dp := if depth > c.length then (c.length : Int) else depth
      c.take dp.toNat) = c.take depth.toNat := by
    intro c
    simp only
    split
    · next hgt => rw [List.take_of_length_le (by omega), List.take_of_length_le (by omega)]
    · rfl
  have hnn : ∀ c : List Nat, ¬ ((if depth > c.length then (c.length : Int) else depth) < 0) := by
    intro c; split <;> omega
  obtain ⟨c, hc, e⟩ := h i
  rw [List.getElem?_eq_getElem hi] at e
  simp only [Option.map_some] at e
  rcases hc with rfl | rfl
  · have hpar : ∀ j : Nat, nodes'[j]?.bind HNode.parent = nodes[j]?.bind HNode.parent := by
      intro j
      obtain ⟨c, _, e⟩ := h j
      rw [e]; cases nodes[j]? <;> rfl
    have hf : followParents nodes' (nodes'.length + 1) (some i) = some (path i).reverse := by
      rw [followParents_congr _ _ hpar, h.length, hp]
    refine ⟨nodes'.modify i (fun nd => { nd with cache := some (path i) }), ?_, ?_⟩
    · unfold getPath
      simp only [e, Option.bind_some, hf, Option.map_some, List.reverse_reverse, hnn, if_false]
      have := htake (path i)
      simp only at this
      rw [this]
    · intro j
      obtain ⟨c, hc, ej⟩ := h j
      by_cases hij : i = j
      · subst hij
        refine ⟨some (path i), Or.inr rfl, ?_⟩
        simp only [List.getElem?_modify, if_true, e, List.getElem?_eq_getElem hi, Option.map_some]
        rfl
      · refine ⟨c, hc, ?_⟩
        simp only [List.getElem?_modify, hij, if_false, ej]
        cases nodes[j]? <;> rfl
  · refine ⟨nodes', ?_, h⟩
    unfold getPath
    simp only [e, Option.bind_some, Option.map_some, hnn, if_false]
    have := htake (path i)
    simp only at this
    rw [this]

/-- **C19.** Every sequence of `GetPath` calls on word nodes with depths `>= 0` returns, for each call,
the first `depth` nodes of the word's root path (the whole path, ending at the word, when `depth` is at
least its length), whatever was asked before. -/
theorem C19_getPath (calls : List (List Word)) (hne : calls.flatten ≠ []) (dim : Nat) :
    ∃ (d : Dictionary) (nodes : List (HNode F)) (path : Nat → List Nat),
      addCalls calls = .ok d ∧
      huffmanTree d dim = .ok (nodes, List.range d.len) ∧
      (∀ i < d.len, RootPath nodes i (path i)) ∧
      (∀ queries : List (Nat × Int), (∀ q ∈ queries, q.1 < d.len ∧ 0 ≤ q.2) →
        ∃ nodes', getPaths nodes queries =
          some (.ok (nodes', queries.map (fun q => (path q.1).take q.2.toNat)))) := by
  obtain ⟨d, arena, T, P, hd, r, hpos, ht, hS, hP1, hP2, hmem, hlv, hfreq, hopt⟩ := huff_core (F := F) calls hne dim
  have hids : T.ids.Perm (List.range arena.length) := by simpa using hS.perm
  have hlt : ∀ i < d.len, i < arena.length := by
    intro i hi
    have : i ∈ T.ids := T.ids_perm.mem_iff.2 (List.mem_append_left _ (hlv.mem_iff.2 (by simpa using hi)))
    simpa using hids.mem_iff.1 this
  refine ⟨d, arena, fun i => (P i).path, hd, ht, ?_, ?_⟩
  · intro i hi
    have h := (rootPath_of_sim hS (P i) (hmem i hi)).1
    rwa [hP2 i hi] at h
  · intro queries hq
    have hwarm0 : Warm arena arena (fun i => (P i).path) := by
      intro j
      refine ⟨none, Or.inl rfl, ?_⟩
      cases hj : arena[j]? with
      | none => rfl
      | some nd =>
        have hjl : j < arena.length := by
          by_contra hc; rw [List.getElem?_eq_none (by omega)] at hj; simp at hj
        have := (hS.shape T (by simp)).inner_vec.2.2 j (hids.mem_iff.2 (by simpa using hjl))
        rw [hj] at this
        simp only [Option.bind_some] at this
        simp [← this]
    suffices H : ∀ nodes', Warm arena nodes' (fun i => (P i).path) →
        ∃ nodes'', getPaths nodes' queries =
          some (.ok (nodes'', queries.map (fun q => ((P q.1).path).take q.2.toNat))) from H _ hwarm0
    induction queries with
    | nil => intro nodes' _; exact ⟨nodes', rfl⟩
    | cons q qs ih =>
      intro nodes' hw
      obtain ⟨i, depth⟩ := q
      obtain ⟨hi, hdp⟩ := hq (i, depth) (by simp)
      simp only at hi hdp
      obtain ⟨_, _, _, hf, hl⟩ := rootPath_of_sim hS (P i) (hmem i hi)
      obtain ⟨n1, e1, w1⟩ := getPath_warm hw i (hlt i hi) (by
        have := hf (arena.length + 1) (by omega)
        rwa [hP2 i hi] at this) depth hdp
      obtain ⟨n2, e2⟩ := ih (fun q hq' => hq q (by simp [hq'])) n1 w1
      refine ⟨n2, ?_⟩
      simp [getPaths, e1, e2]

/-- `C19_getPath` for three words: the calls `GetPath(40)`, `GetPath(1)`, `GetPath(0)` on word 2. -/
example : ∃ (d : Dictionary) (nodes : List (HNode F64)) (path : Nat → List Nat), addCalls exCalls = .ok d ∧
    huffmanTree d (2 : Nat) = .ok (nodes, List.range d.len) ∧ ∃ nodes', getPaths nodes [(2, 40), (2, 1), (2, 0)] =
      some (.ok (nodes', [(path 2).take 40, (path 2).take 1, []])) := by
  obtain ⟨d, nodes, path, h1, h2, _, h3⟩ := C19_getPath (F := F64) exCalls (by decide) 2
  refine ⟨d, nodes, path, h1, h2, h3 _ ?_⟩
  obtain ⟨d', h1', h4, _⟩ := C01_dictionary_ids exCalls
  rw [h1] at h1'
  cases h1'
  rw [h4]
  decide +kernel

/-- **C19 (negative depths).** `GetPath` with a negative depth panics, for every word, first call or not. -/
theorem C19_negative_depth (calls : List (List Word)) (hne : calls.flatten ≠ []) (dim : Nat) :
    ∃ (d : Dictionary) (nodes : List (HNode F)), addCalls calls = .ok d ∧ huffmanTree d dim = .ok (nodes, List.range d.len) ∧
      ∀ i < d.len, ∀ depth : Int, depth < 0 → getPath nodes i depth = some (.panic .sliceBounds) ∧
        ∀ depth0 nodes' path, getPath nodes i depth0 = some (.ok (nodes', path)) →
          getPath nodes' i depth = some (.panic .sliceBounds) := by
  obtain ⟨d, arena, T, P, hd, r, hpos, ht, hS, hP1, hP2, hmem, hlv, hfreq, hopt⟩ := huff_core (F := F) calls hne dim
  have hids : T.ids.Perm (List.range arena.length) := by simpa using hS.perm
  refine ⟨d, arena, hd, ht, ?_⟩
  intro i hi depth hdp
  have hiT : i ∈ T.ids := T.ids_perm.mem_iff.2 (List.mem_append_left _ (hlv.mem_iff.2 (by simpa using hi)))
  have hlt : i < arena.length := by simpa using hids.mem_iff.1 hiT
  obtain ⟨_, _, _, hf, hl⟩ := rootPath_of_sim hS (P i) (hmem i hi)
  have hf := hf (arena.length + 1) (by omega)
  rw [hP2 i hi] at hf
  have hcache : arena[i]?.bind HNode.cache = none := (hS.shape T (by simp)).inner_vec.2.2 i hiT
  have neg : ∀ n : Nat, ¬ (depth > (n : Int)) := by intro n; omega
  constructor
  · unfold getPath
    simp only [hcache, hf, Option.map_some, if_neg (neg _), if_pos hdp]
  · intro depth0 nodes' path h
    unfold getPath at h
    simp only [hcache, hf, Option.map_some, Option.some.injEq] at h
    generalize (if depth0 > _ then _ else depth0 : Int) = dp at h
    by_cases hdp0 : dp < 0
    · rw [if_pos hdp0] at h; cases h
    · rw [if_neg hdp0] at h
      cases h
      unfold getPath
      have : (List.modify arena i fun nd => { nd with cache := some (P i).path.reverse.reverse })[i]?.bind HNode.cache = some (P i).path.reverse.reverse := by
        rw [List.getElem?_modify]; simp [List.getElem?_eq_getElem hlt]
      simp only [this, Option.map_some, if_neg (neg _), if_pos hdp]

/-- `C19_negative_depth` for three words. -/
example := C19_negative_depth (F := F64) exCalls (by decide) 2

omit [GoFloat F] in
/-- **C20 is false.** With depth 0 the path used is empty, for every node of every tree. -/
theorem C20_depth_zero_is_empty (nodes : List (HNode F)) (i : Nat) (nodes' : List (HNode F)) (p : List Nat)
    (h : getPath nodes i 0 = some (.ok (nodes', p))) : p = [] := by
  unfold getPath at h
  simp only [Option.map_eq_some_iff] at h
  obtain ⟨⟨a, c⟩, _, h⟩ := h
  have h1 : ¬ ((0 : Int) > (c.length : Int)) := by omega
  simp [h1] at h
  exact h.2

/-- **C20, the part that holds.** A depth of at least `Len()` always gives the full root-to-word path;
depth 0 gives the empty path although the full path is not empty. -/
theorem C20_full_path_partial (calls : List (List Word)) (hne : calls.flatten ≠ []) (dim : Nat) :
    ∃ (d : Dictionary) (nodes : List (HNode F)) (path : Nat → List Nat),
      addCalls calls = .ok d ∧
      huffmanTree d dim = .ok (nodes, List.range d.len) ∧
      (∀ i < d.len, RootPath nodes i (path i) ∧ path i ≠ [] ∧
        (∀ depth : Int, (d.len : Int) ≤ depth → ∃ n', getPath nodes i depth = some (.ok (n', path i))) ∧
        ∃ n', getPath nodes i 0 = some (.ok (n', []))) := by
  obtain ⟨d, arena, T, P, hd, r, hpos, ht, hS, hP1, hP2, hmem, hlv, hfreq, hopt⟩ := huff_core (F := F) calls hne dim
  have hids : T.ids.Perm (List.range arena.length) := by simpa using hS.perm
  have hlt : ∀ i < d.len, i < arena.length := by
    intro i hi
    have : i ∈ T.ids := T.ids_perm.mem_iff.2 (List.mem_append_left _ (hlv.mem_iff.2 (by simpa using hi)))
    simpa using hids.mem_iff.1 this
  have hcache : ∀ i < d.len, arena[i]?.bind HNode.cache = none := by
    intro i hi
    exact (hS.shape T (by simp)).inner_vec.2.2 i (hids.mem_iff.2 (by simpa using hlt i hi))
  have hle : ∀ x ∈ T.walks, x.path.length ≤ T.leaves.length := by
    have : ∀ t : HTree, ∀ x ∈ t.walks, x.path.length ≤ t.leaves.length := by
      intro t
      have hp : ∀ t : HTree, 0 < t.leaves.length := fun t => by have := t.length_inner; omega
      induction t with
      | leaf i w => simp [HTree.walks, HTree.leaves]
      | node i l r ihl ihr =>
        intro x hx
        simp only [HTree.walks, List.mem_append, List.mem_map] at hx
        simp only [HTree.leaves, List.length_append]
        rcases hx with ⟨y, hy, rfl⟩ | ⟨y, hy, rfl⟩
        · have := ihl y hy; have := hp r; simp [HTree.Walk.down]; omega
        · have := ihr y hy; have := hp l; simp [HTree.Walk.down]; omega
    exact this T
  have hleaves : T.leaves.length = d.len := by simpa using hlv.length_eq
  refine ⟨d, arena, fun i => (P i).path, hd, ht, ?_⟩
  intro i hi
  obtain ⟨h1, h2, h3, hf, hl⟩ := rootPath_of_sim hS (P i) (hmem i hi)
  rw [hP2 i hi] at h1
  have hf' := hf (arena.length + 1) (by omega)
  rw [hP2 i hi] at hf'
  refine ⟨h1, ?_, ?_, ?_⟩
  · intro h; simp only at h; rw [h] at h2; simp at h2
  · intro depth hdp
    have hlen := hle _ (hmem i hi)
    unfold getPath
    simp only [hcache i hi, hf', Option.map_some, List.reverse_reverse]
    have h1 : ¬ ((if depth > ((P i).path.length : Int) then ((P i).path.length : Int) else depth) < 0) := by
      split <;> omega
    have h4 : (P i).path.take (if depth > ((P i).path.length : Int) then ((P i).path.length : Int) else depth).toNat
        = (P i).path := by
      rw [List.take_of_length_le]
      split <;> omega
    simp only [h1, if_false, h4]
    exact ⟨_, rfl⟩
  · unfold getPath
    simp only [hcache i hi, hf', Option.map_some, List.reverse_reverse]
    have h1 : ¬ ((0 : Int) > ((P i).path.length : Int)) := by omega
    simp [h1]

/-- `C20_full_path_partial` for three words; the last clause is a call `GetPath(0)` to which
`C20_depth_zero_is_empty` applies. -/
example := C20_full_path_partial (F := F64) exCalls (by decide) 2

/-- Probability of the branch taken into each node of a path: `s` at the parent for code 0,
`1 - s` for code 1. -/
def branchProb (nodes : List (HNode F)) (s : Nat → ℝ) : List Nat → ℝ
  | a :: b :: path => (if codeBit nodes b = 0 then s a else 1 - s a) * branchProb nodes s (b :: path)
  | _ => 1

omit [GoFloat F] in
theorem branchProb_eq (nodes : List (HNode F)) (s : Nat → ℝ) : ∀ (path : List Nat),
    branchProb nodes s path = HTree.branchProd s path (codeWord nodes path)
  | [] => by simp [branchProb, HTree.branchProd]
  | [a] => by simp [branchProb, HTree.branchProd, codeWord]
  | a :: b :: path => by
    have := branchProb_eq nodes s (b :: path)
    simp only [branchProb, this]
    simp [HTree.branchProd, codeWord]

/-- **C21.** For every score per inner node (in particular the sigmoid of any inner product), the branch
probabilities along the words' paths sum to 1. -/
theorem C21_softmax_sums_to_one (calls : List (List Word)) (hne : calls.flatten ≠ []) (dim : Nat) :
    ∃ (d : Dictionary) (nodes : List (HNode F)) (path : Nat → List Nat),
      addCalls calls = .ok d ∧
      huffmanTree d dim = .ok (nodes, List.range d.len) ∧
      (∀ i < d.len, RootPath nodes i (path i)) ∧
      (∀ s : Nat → ℝ, ((List.range d.len).map (fun i => branchProb nodes s (path i))).sum = 1) := by
  obtain ⟨d, arena, T, P, hd, r, hpos, ht, hS, hP1, hP2, hmem, hlv, hfreq, hopt⟩ := huff_core (F := F) calls hne dim
  refine ⟨d, arena, fun i => (P i).path, hd, ht, ?_, ?_⟩
  · intro i hi
    have h := (rootPath_of_sim hS (P i) (hmem i hi)).1
    rwa [hP2 i hi] at h
  · intro s
    rw [← T.sum_branchProd s, ← sum_range_walks hP1]
    congr 1
    refine List.map_congr_left ?_
    intro i hi
    rw [branchProb_eq, (rootPath_of_sim hS (P i) (hmem i (by simpa using hi))).2.2.1]

/-- `C21_softmax_sums_to_one` for three words. -/
example := C21_softmax_sums_to_one (F := F64) exCalls (by decide) 2

end Wego.Props

/-! Non-vacuity: a three-word document. -/
namespace Wego.Props
open Wego


/-- the tree of `a b a c a`: `b` and `c` hang below node 3, node 3 and `a` below the root 4 -/
example : (match addCalls [[['a'], ['b']], [['a'], ['c'], ['a']]] >>= fun d => huffmanTree (F := F64) d 2 with
    | .ok (nodes, set) => (nodes.map (fun n => (n.parent, n.code, n.val)), set) | _ => ([], [])) =
    ([(some 4, 1, 3), (some 3, 0, 1), (some 3, 1, 1), (some 4, 0, 2), (none, 0, 5)], [0, 1, 2]) := by
  decide +kernel

end Wego.Props
