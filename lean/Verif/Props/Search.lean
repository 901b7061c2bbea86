import Verif.Proofs.Search
import Verif.Proofs.F64

/-! # C53-C58: `search.New`, `Search`, `SearchInternal` -/

namespace Wego.Props
open Wego

section
variable {F : Type} [GoFloat F]

/-! ### the guard loop -/

theorem guardK_nonblank (i : Nat) (k : Int) (ns : List (Neighbor F)) (h : ∀ n ∈ ns, n.word ≠ []) :
    guardK i k ns = k := by
  induction ns generalizing i with
  | nil => rfl
  | cons n ns ih =>
    rw [guardK.eq_def]
    simp only
    rw [if_neg (h n (by simp))]
    exact ih _ (fun m hm => h m (by simp [hm]))

theorem guardK_append (i : Nat) (k : Int) (a b : List (Neighbor F)) :
    guardK i k (a ++ b) = guardK (i + a.length) (guardK i k a) b := by
  induction a generalizing i k with
  | nil => rfl
  | cons n a ih =>
    rw [List.cons_append, guardK.eq_def, guardK.eq_def i k (n :: a)]
    simp only [ih, List.length_cons]
    congr 1; omega

theorem guardK_blanks (i m : Nat) (k : Int) :
    guardK i k (List.replicate m (Neighbor.blank : Neighbor F)) = if m = 0 then k else (i + m - 1 : Int) := by
  induction m generalizing i k with
  | zero => simp [guardK]
  | succ m ih =>
    rw [List.replicate_succ, guardK.eq_def]
    simp only [Neighbor.blank, if_true]
    have := ih (i + 1) (i : Int)
    simp only [Neighbor.blank] at this
    rw [this]
    split <;> simp <;> omega

end

/-- an embedding with the given coordinates and its norm -/
def mkEmb (w : String) (v : List ℚ) : Embedding F64 :=
  let v : List F64 := v.map GoFloat.ofRat
  { word := w.toList, dim := v.length, vector := v, norm := norm v }

def exSearcher : Searcher F64 :=
  { items := [mkEmb "a" [1, 0], mkEmb "b" [1, 1], mkEmb "c" [-1, 0], mkEmb "d" [4, 3]] }

theorem ex_new : Searcher.new exSearcher.items = .ok exSearcher := by unfold Searcher.new; rfl
theorem ex_valid : ∀ e ∈ exSearcher.items, e.validate = .ok () := by decide +kernel
theorem ex_words : ∀ it ∈ exSearcher.items, it.word ≠ [] := by decide +kernel
theorem ex_dims : ∀ it ∈ exSearcher.items, (mkEmb "a" [1, 0]).vector.length ≤ it.vector.length := by decide +kernel

section
variable {F : Type} [GoFloat F] [LawfulCmp F]

/-- What `Search` returns, from what its loop over the items leaves. -/
theorem search_of_loop (s : Searcher F) (query : Embedding F) (k : Nat) (hk : 1 ≤ k) (ignore : List Word)
    (hw : ∀ it ∈ s.items, it.word ≠ []) {st : SearchSt F} {hits : List (Neighbor F)} {rest : List (Word × F)}
    (h1 : forEach s.items { neighbors := List.replicate k Neighbor.blank, low := fzero }
      (searchStep query (ignore.foldl (fun m w => GoMap.set m w ()) GoMap.empty)) = .ok st)
    (hI : SInv k (candidates query ignore s.items) st hits rest) :
    (∀ h ∈ hits, h.word ≠ []) ∧
      s.search query k ignore = .ok (hits ++ List.replicate (k - hits.length - 1) Neighbor.blank) := by
  have hnb : ∀ h ∈ hits, h.word ≠ [] := by
    intro h hh
    have : h.ws ∈ candidates query ignore s.items := hI.perm.subset (by simp; exact Or.inl ⟨h, hh, rfl⟩)
    unfold candidates at this
    rw [List.mem_filterMap] at this
    obtain ⟨it, hit, he⟩ := this
    split at he
    · simp at he
    · split at he
      · split at he
        · simp only [Option.some.injEq] at he
          have : it.word = h.word := congrArg Prod.fst he
          rw [← this]; exact hw it hit
        · simp at he
      · simp at he
  refine ⟨hnb, ?_⟩
  unfold Searcher.search
  rw [if_neg (by omega)]
  simp only [Int.toNat_natCast]
  rw [h1]
  simp only [Res.ok_bind]
  have hlen : st.neighbors.length = k := by
    rw [hI.neigh]; simp; have := hI.len; omega
  have hg : guardK 0 (k : Int) st.neighbors = if hits.length = k then (k : Int) else (k : Int) - 1 := by
    rw [hI.neigh, guardK_append, guardK_nonblank _ _ _ hnb, guardK_blanks]
    have := hI.len
    split <;> split <;> omega
  rw [hg, hlen, if_neg (by split <;> omega)]
  congr 1
  have hl := hI.len
  rw [hI.neigh]
  split
  · next he =>
    rw [he]; simp [← he]
  · next he =>
    have : ((k : Int) - 1).toNat = hits.length + (k - hits.length - 1) := by omega
    rw [this, List.take_append, List.take_of_length_le (by omega)]
    simp

/-- `Search` for `k ≥ 1`: `hits` (the best candidates) followed by blank entries; the blank entries are
cut by one when there are any. -/
theorem search_ok (s : Searcher F) (query : Embedding F) (k : Nat) (hk : 1 ≤ k) (ignore : List Word)
    (hw : ∀ it ∈ s.items, it.word ≠ [])
    (hc : ∀ it ∈ s.items, it.word ∉ ignore → ∃ c, cosine query.vector it.vector query.norm it.norm = .ok c) :
    ∃ st hits rest, SInv k (candidates query ignore s.items) st hits rest ∧ (∀ h ∈ hits, h.word ≠ []) ∧
      s.search query k ignore =
        .ok (hits ++ List.replicate (k - hits.length - 1) Neighbor.blank) := by
  obtain ⟨st, hits, rest, h1, hI⟩ := search_loop hk query ignore s.items _ [] [] [] (sInv_init (F := F) hk) hc
  rw [List.nil_append] at hI
  exact ⟨st, hits, rest, hI, search_of_loop s query k hk ignore hw h1 hI⟩

/-! ### C53 -/

omit [GoFloat F] [LawfulCmp F] in
theorem validateLoop_iff (d : Int) (embs : List (Embedding F)) :
    (Embedding.validateLoop d embs = .ok () ↔ ∀ e ∈ embs, e.dim = d) ∧
      (Embedding.validateLoop d embs = .ok () ∨ Embedding.validateLoop d embs = .err .dimNotSame) := by
  induction embs with
  | nil => simp [Embedding.validateLoop]
  | cons e embs ih =>
    unfold Embedding.validateLoop
    split
    · next h => simp; intro h2; exact absurd h2.symm h
    · next h =>
      have h' : e.dim = d := by by_contra h2; exact h (fun h3 => h2 h3.symm)
      rw [← h'] at ih ⊢
      refine ⟨?_, ih.2⟩
      rw [ih.1]; simp

omit [GoFloat F] [LawfulCmp F] in
/-- **C53 (New).** `New` succeeds exactly when all embeddings have the same `Dim` and then holds the given
embeddings in order; otherwise it returns an error (and never panics). -/
theorem C53_new (embs : List (Embedding F)) :
    (Searcher.new embs = .ok { items := embs } ↔ ∀ e ∈ embs, ∀ e' ∈ embs, e.dim = e'.dim) ∧
    ((¬ ∀ e ∈ embs, ∀ e' ∈ embs, e.dim = e'.dim) ↔ Searcher.new embs = .err .dimNotSame) := by
  unfold Searcher.new Embedding.validateAll
  cases embs with
  | nil => simp
  | cons e es =>
    obtain ⟨h1, h2⟩ := validateLoop_iff e.dim (e :: es)
    have h3 : (∀ a ∈ e :: es, a.dim = e.dim) ↔ ∀ a ∈ e :: es, ∀ b ∈ e :: es, a.dim = b.dim := by
      constructor
      · intro h a ha b hb; rw [h a ha, h b hb]
      · intro h a ha; exact h a ha e (by simp)
    rw [h3] at h1
    rw [← h1]
    rcases h2 with h2 | h2 <;> simp [h2]

omit [LawfulCmp F] in
theorem dotFrom_ok (v2 : List F) (i : Nat) (acc : F) (v1 : List F) (h : i + v1.length ≤ v2.length) :
    ∃ d, dotFrom v2 i acc v1 = .ok d := by
  induction v1 generalizing i acc with
  | nil => exact ⟨acc, rfl⟩
  | cons x v1 ih =>
    simp only [List.length_cons] at h
    unfold dotFrom
    rw [idx_of_lt _ _ (by omega)]
    exact ih (i + 1) _ (by omega)

omit [LawfulCmp F] in
theorem cosine_ok (v1 v2 : List F) (n1 n2 : F) (h : v1.length ≤ v2.length) :
    ∃ c, cosine v1 v2 n1 n2 = .ok c := by
  unfold cosine
  split
  · exact ⟨_, rfl⟩
  · obtain ⟨d, hd⟩ := dotFrom_ok v2 0 fzero v1 (by omega)
    rw [hd]; exact ⟨_, rfl⟩

/-- **C53 (no panic).** On a searcher made by `New` from embeddings that satisfy `Embedding.Validate` (all
that `Load` produces do), every search with `k ≥ 1` and a query vector of at most that dimension returns
neighbours: no panic, no error. -/
theorem C53_search_total (embs : List (Embedding F)) (s : Searcher F) (hs : Searcher.new embs = .ok s)
    (hv : ∀ e ∈ embs, e.validate = .ok ()) (query : Embedding F) (k : Int) (hk : 1 ≤ k) (ignore : List Word)
    (hq : ∀ e ∈ embs, (query.vector.length : Int) ≤ e.dim) :
    ∃ res, s.search query k ignore = .ok res := by
  have hs2 : s.items = embs := by
    unfold Searcher.new at hs
    rw [Res.bind_eq_ok] at hs
    obtain ⟨_, _, h⟩ := hs
    simp only [Res.ok.injEq] at h; rw [← h]
  have hval : ∀ e : Embedding F, e.validate = .ok () → e.word ≠ [] ∧ e.dim = e.vector.length := by
    intro e he
    unfold Embedding.validate at he
    split at he
    · simp at he
    · next h1 =>
      split at he
      · simp at he
      · split at he
        · simp at he
        · next h3 => exact ⟨h1, by simpa using h3⟩
  obtain ⟨n, rfl⟩ := Int.eq_ofNat_of_zero_le (by omega : 0 ≤ k)
  obtain ⟨_, _, _, _, _, h⟩ := search_ok s query n (by omega) ignore
    (fun it hit => (hval it (hv it (hs2 ▸ hit))).1)
    (fun it hit _ => by
      apply cosine_ok
      have h1 := hq it (hs2 ▸ hit)
      have h2 := (hval it (hv it (hs2 ▸ hit))).2
      omega)
  exact ⟨_, h⟩

/-- `C53_search_total` on the four words of `exSearcher`. -/
example := C53_search_total exSearcher.items exSearcher ex_new ex_valid (mkEmb "a" [1, 0]) 3 (by decide) [] (by decide +kernel)

/-! ### C54, C55 -/

omit [LawfulCmp F] in
theorem filter_hits (hits : List (Neighbor F)) (m : Nat) (h : ∀ x ∈ hits, x.word ≠ []) :
    (hits ++ List.replicate m (Neighbor.blank : Neighbor F)).filter (fun n => decide (n.word ≠ [])) = hits := by
  rw [List.filter_append, List.filter_eq_self.2 (by simpa using h)]
  have : (List.replicate m (Neighbor.blank : Neighbor F)).filter (fun n => decide (n.word ≠ [])) = [] := by
    rw [List.filter_eq_nil_iff]
    intro a ha
    rw [List.eq_of_mem_replicate ha]
    simp [Neighbor.blank]
  rw [this, List.append_nil]

/-- **C54.** For `k ≥ 1`, over items with non-empty words whose vectors are long enough for the query: the
non-blank results, together with the candidates that were left out (`rest`), are exactly the candidates
(items not ignored with similarity above 0; each item once); the results are in descending order of
similarity; something is left out only when there are `k` results, and then nothing left out is more similar
than any result. -/
theorem C54_search_top_k (s : Searcher F) (query : Embedding F) (k : Int) (hk : 1 ≤ k) (ignore : List Word)
    (hw : ∀ it ∈ s.items, it.word ≠ [])
    (hc : ∀ it ∈ s.items, query.vector.length ≤ it.vector.length) :
    ∃ res rest, s.search query k ignore = .ok res ∧
      let hits := res.filter (fun n => decide (n.word ≠ []))
      List.Perm (hits.map (fun n => (n.word, n.sim)) ++ rest) (candidates query ignore s.items) ∧
      hits.Pairwise (fun a b => GoFloat.le b.sim a.sim = true) ∧
      (rest ≠ [] → (hits.length : Int) = k) ∧ (hits.length : Int) ≤ k ∧
      (∀ r ∈ rest, ∀ h ∈ hits, GoFloat.le r.2 h.sim = true) := by
  obtain ⟨n, rfl⟩ := Int.eq_ofNat_of_zero_le (by omega : 0 ≤ k)
  obtain ⟨st, hits, rest, hI, hnb, h⟩ := search_ok s query n (by omega) ignore hw
    (fun it hit _ => cosine_ok _ _ _ _ (hc it hit))
  refine ⟨_, rest, h, ?_⟩
  simp only [filter_hits hits _ hnb]
  refine ⟨hI.perm, hI.sorted, ?_, ?_, hI.best⟩
  · intro hr; have := hI.full hr; simpa using this
  · have := hI.len; simpa using this

/-- `C54_search_top_k` for the query `a`, which is ignored, and `k = 2`. -/
example := C54_search_top_k exSearcher (mkEmb "a" [1, 0]) 2 (by decide) [['a']] ex_words ex_dims

/-- **C55.** The neighbour in (0-based) place `j` has rank `j+1`, and it is an item of the searcher, not
ignored, whose cosine similarity with the query is the reported one. -/
theorem C55_ranks (s : Searcher F) (query : Embedding F) (k : Int) (hk : 1 ≤ k) (ignore : List Word)
    (hw : ∀ it ∈ s.items, it.word ≠ [])
    (hc : ∀ it ∈ s.items, query.vector.length ≤ it.vector.length)
    (res : List (Neighbor F)) (hr : s.search query k ignore = .ok res)
    (j : Nat) (n : Neighbor F) (hj : res[j]? = some n) (hn : n.word ≠ []) :
    n.rank = j + 1 ∧ ∃ it ∈ s.items, it.word = n.word ∧ it.word ∉ ignore ∧
      cosine query.vector it.vector query.norm it.norm = .ok n.sim ∧ GoFloat.lt fzero n.sim = true := by
  obtain ⟨m, rfl⟩ := Int.eq_ofNat_of_zero_le (by omega : 0 ≤ k)
  obtain ⟨st, hits, rest, hI, hnb, h⟩ := search_ok s query m (by omega) ignore hw
    (fun it hit _ => cosine_ok _ _ _ _ (hc it hit))
  rw [h] at hr
  simp only [Res.ok.injEq] at hr
  rw [← hr, List.getElem?_append] at hj
  split at hj
  · next hlt =>
    refine ⟨hI.rank j n hj, ?_⟩
    have hmem : n ∈ hits := List.mem_of_getElem? hj
    have : n.ws ∈ candidates query ignore s.items := hI.perm.subset (by simp; exact Or.inl ⟨n, hmem, rfl⟩)
    unfold candidates at this
    rw [List.mem_filterMap] at this
    obtain ⟨it, hit, he⟩ := this
    split at he
    · simp at he
    · next hig =>
      split at he
      · next c hcs =>
        split at he
        · next hpos =>
          simp only [Option.some.injEq] at he
          have e1 : it.word = n.word := congrArg Prod.fst he
          have e2 : c = n.sim := congrArg Prod.snd he
          exact ⟨it, hit, e1, hig, e2 ▸ hcs, e2 ▸ hpos⟩
        · simp at he
      · simp at he
  · exfalso
    have : n ∈ List.replicate (m - hits.length - 1) (Neighbor.blank : Neighbor F) := List.mem_of_getElem? hj
    rw [List.eq_of_mem_replicate this] at hn
    exact hn rfl

/-- `C55_ranks`: the second neighbour of `a` (it is `b`). -/
example : ∃ res n, exSearcher.search (mkEmb "a" [1, 0]) 2 [['a']] = .ok res ∧ res[1]? = some n ∧ n.rank = 1 + 1 := by
  have h : (exSearcher.search (mkEmb "a" [1, 0]) 2 [['a']] >>= fun r => .ok (r.map (·.word))) = .ok [['d'], ['b']] := by
    decide +kernel
  rw [Res.bind_eq_ok] at h
  obtain ⟨res, h1, h2⟩ := h
  simp only [Res.ok.injEq] at h2
  have h3 : (res.map (·.word))[1]? = some ['b'] := by rw [h2]; rfl
  rw [List.getElem?_map, Option.map_eq_some_iff] at h3
  obtain ⟨n, h4, h5⟩ := h3
  exact ⟨res, n, h1, h4, (C55_ranks exSearcher (mkEmb "a" [1, 0]) 2 (by decide) [['a']] ex_words ex_dims res h1 1 n h4
    (by rw [h5]; decide)).1⟩

/-! ### C56, C57 -/

omit [LawfulCmp F] in
theorem hits_length {k : Nat} {cands : List (Word × F)} {st : SearchSt F} {hits : List (Neighbor F)}
    {rest : List (Word × F)} (hI : SInv k cands st hits rest) : hits.length = min cands.length k := by
  have h1 := hI.perm.length_eq
  simp only [List.length_append, List.length_map] at h1
  have h2 := hI.len
  by_cases hr : rest = []
  · subst hr; simp at h1; omega
  · have := hI.full hr
    have : 0 < rest.length := List.length_pos_of_ne_nil hr
    omega

/-- **C57 (k ≥ 1).** With at least `k` candidates there are `k` results; with fewer, exactly `k-1` entries
come back: the candidates first, then blank entries (word `""`, rank 0, similarity 0). -/
theorem C57_result_size (s : Searcher F) (query : Embedding F) (k : Nat) (hk : 1 ≤ k) (ignore : List Word)
    (hw : ∀ it ∈ s.items, it.word ≠ [])
    (hc : ∀ it ∈ s.items, query.vector.length ≤ it.vector.length) :
    ∃ res, s.search query k ignore = .ok res ∧
      res.length = (if k ≤ (candidates query ignore s.items).length then k else k - 1) ∧
      ∀ (j : Nat) n, res[j]? = some n →
        ((candidates query ignore s.items).length ≤ j → n = { word := [], rank := 0, sim := fzero }) ∧
        (j < (candidates query ignore s.items).length → n.word ≠ []) := by
  obtain ⟨st, hits, rest, hI, hnb, h⟩ := search_ok s query k hk ignore hw
    (fun it hit _ => cosine_ok _ _ _ _ (hc it hit))
  have hl := hits_length hI
  refine ⟨_, h, ?_, ?_⟩
  · rw [List.length_append, List.length_replicate]
    split <;> omega
  · intro j n hj
    have hjl : j < (hits ++ List.replicate (k - hits.length - 1) (Neighbor.blank : Neighbor F)).length := by
      rw [List.getElem?_eq_some_iff] at hj; exact hj.1
    rw [List.length_append, List.length_replicate] at hjl
    rw [List.getElem?_append] at hj
    split at hj
    · next hlt => exact ⟨fun _ => by omega, fun _ => hnb n (List.mem_of_getElem? hj)⟩
    · next hge =>
      have : n ∈ List.replicate (k - hits.length - 1) (Neighbor.blank : Neighbor F) := List.mem_of_getElem? hj
      exact ⟨fun _ => List.eq_of_mem_replicate this, fun _ => by omega⟩

/-- `C57_result_size` for the query `a` with `k = 4`: two candidates, so three entries. -/
example : ∃ res, exSearcher.search (mkEmb "a" [1, 0]) ((4 : Nat) : Int) [['a']] = .ok res ∧ res.length = 3 := by
  obtain ⟨res, h1, h2, _⟩ := C57_result_size exSearcher (mkEmb "a" [1, 0]) 4 (by decide) [['a']] ex_words ex_dims
  exact ⟨res, h1, h2.trans (by decide +kernel)⟩

omit [LawfulCmp F] in
theorem searchStep_k0 (query : Embedding F) (ignore : List Word) (it : Embedding F)
    (hc : ∃ c, cosine query.vector it.vector query.norm it.norm = .ok c) :
    searchStep query (ignore.foldl (fun m w => GoMap.set m w ()) GoMap.empty) it { neighbors := [], low := fzero } =
      if candidates query ignore [it] = [] then .ok { neighbors := [], low := fzero }
      else .panic .indexOutOfRange := by
  obtain ⟨c, hc⟩ := hc
  unfold searchStep candidates
  by_cases hig : it.word ∈ ignore
  · rw [if_pos (by rw [ignore_get]; exact Or.inl hig)]
    simp [hig]
  · rw [if_neg (by rw [ignore_get]; simp [hig]), hc]
    by_cases hq : GoFloat.lt fzero c = true
    · simp [hig, hc, hq, bubble, idxI]
    · simp [hig, hc, hq]

omit [LawfulCmp F] in
/-- **C57 (k ≤ 0).** With `k = 0` the search panics exactly when there is a candidate, and otherwise returns
no neighbours; with `k < 0` it always panics. -/
theorem C57_k_zero (s : Searcher F) (query : Embedding F) (ignore : List Word)
    (hc : ∀ it ∈ s.items, query.vector.length ≤ it.vector.length) :
    s.search query 0 ignore =
      (if candidates query ignore s.items = [] then .ok [] else .panic .indexOutOfRange) ∧
    ∀ k : Int, k < 0 → s.search query k ignore = .panic .makeNegLen := by
  refine ⟨?_, fun k hk => by unfold Searcher.search; rw [if_pos hk]⟩
  have key : ∀ items : List (Embedding F), (∀ it ∈ items, query.vector.length ≤ it.vector.length) →
      forEach items ({ neighbors := [], low := fzero } : SearchSt F)
        (searchStep query (ignore.foldl (fun m w => GoMap.set m w ()) GoMap.empty)) =
      if candidates query ignore items = [] then .ok { neighbors := [], low := fzero }
      else .panic .indexOutOfRange := by
    intro items
    induction items with
    | nil => intro _; simp [candidates]
    | cons it items ih =>
      intro h
      rw [forEach_cons, searchStep_k0 _ _ _ (cosine_ok _ _ _ _ (h it (by simp)))]
      have e : candidates query ignore (it :: items) = candidates query ignore [it] ++ candidates query ignore items := by
        unfold candidates
        rw [← List.filterMap_append]; rfl
      have e2 : (candidates query ignore (it :: items) = []) ↔
          (candidates query ignore [it] = [] ∧ candidates query ignore items = []) := by
        rw [e, List.append_eq_nil_iff]
      by_cases h1 : candidates query ignore [it] = []
      · rw [if_pos h1, Res.ok_bind, ih (fun i hi => h i (by simp [hi]))]
        by_cases h2 : candidates query ignore items = []
        · rw [if_pos h2, if_pos (e2.2 ⟨h1, h2⟩)]
        · rw [if_neg h2, if_neg (fun h3 => h2 (e2.1 h3).2)]
      · rw [if_neg h1, if_neg (fun h2 => h1 (e2.1 h2).1)]; rfl
  unfold Searcher.search
  simp only [lt_irrefl, if_false, Int.toNat_zero, List.replicate_zero]
  rw [key s.items hc]
  split
  · simp [guardK]
  · rfl

/-- `C57_k_zero` for the query `a`. -/
example := C57_k_zero exSearcher (mkEmb "a" [1, 0]) [['a']] ex_dims

/-- **C56 is false of the code**: whenever there are at least two fewer candidates than `k`, the last entry of
the result is a blank one. -/
theorem C56_false (s : Searcher F) (query : Embedding F) (k : Nat) (ignore : List Word)
    (hw : ∀ it ∈ s.items, it.word ≠ [])
    (hc : ∀ it ∈ s.items, query.vector.length ≤ it.vector.length)
    (h2 : (candidates query ignore s.items).length + 2 ≤ k) :
    ∃ res, s.search query k ignore = .ok res ∧ { word := [], rank := 0, sim := fzero } ∈ res := by
  obtain ⟨res, h, hl, hb⟩ := C57_result_size s query k (by omega) ignore hw hc
  refine ⟨res, h, ?_⟩
  rw [if_neg (by omega)] at hl
  have hj : k - 2 < res.length := by omega
  have := (hb (k - 2) res[k-2] (List.getElem?_eq_getElem hj)).1 (by omega)
  rw [← this]
  exact List.getElem_mem hj

/-- `C56_false` for the query `a` with `k = 4`. -/
example := C56_false exSearcher (mkEmb "a" [1, 0]) 4 [['a']] ex_words ex_dims (by decide +kernel)

/-- **C56 (what holds).** With at least `k-1` candidates there are no blank entries, and then exactly
`min k (number of candidates)` neighbours come back. -/
theorem C56_no_blank_partial (s : Searcher F) (query : Embedding F) (k : Nat) (hk : 1 ≤ k) (ignore : List Word)
    (hw : ∀ it ∈ s.items, it.word ≠ [])
    (hc : ∀ it ∈ s.items, query.vector.length ≤ it.vector.length)
    (h2 : k ≤ (candidates query ignore s.items).length + 1) :
    ∃ res, s.search query k ignore = .ok res ∧ (∀ n ∈ res, n.word ≠ []) ∧
      res.length = min k (candidates query ignore s.items).length := by
  obtain ⟨res, h, hl, hb⟩ := C57_result_size s query k hk ignore hw hc
  have hlen : res.length = min k (candidates query ignore s.items).length := by
    rw [hl]; split <;> omega
  refine ⟨res, h, ?_, hlen⟩
  intro n hn
  obtain ⟨j, hj, he⟩ := List.mem_iff_getElem.1 hn
  exact (hb j n (by rw [List.getElem?_eq_getElem hj, he])).2 (by omega)

/-- `C56_no_blank_partial` for the query `a` with `k = 3`. -/
example := C56_no_blank_partial exSearcher (mkEmb "a" [1, 0]) 3 (by decide) [['a']] ex_words ex_dims (by decide +kernel)

end

/-! ### C58 -/
section
variable {F : Type} [GoFloat F]

theorem bubble_words (P : Word → Prop) (i : Nat) (t : Neighbor F) (ns : List (Neighbor F)) (ht : P t.word)
    (hn : ∀ n ∈ ns, P n.word) : ∀ n ∈ (bubble i t ns).1, P n.word := by
  induction ns generalizing i t with
  | nil => simp [bubble]
  | cons m ns ih =>
    have h0 := hn m (by simp)
    have h1 : ∀ n ∈ ns, P n.word := fun n h => hn n (by simp [h])
    intro n
    unfold bubble; split
    · intro h
      rcases List.mem_cons.1 h with rfl | h
      · exact ht
      · exact ih _ _ h0 h1 n h
    · intro h
      rcases List.mem_cons.1 h with rfl | h
      · exact h0
      · exact ih _ _ ht h1 n h

/-- Whatever the items are (even of inconsistent dimensions): an entry of a search result is blank or names
an item that is not ignored. -/
theorem search_words (s : Searcher F) (query : Embedding F) (k : Int) (ignore : List Word)
    (res : List (Neighbor F)) (h : s.search query k ignore = .ok res) :
    ∀ n ∈ res, n.word = [] ∨ (n.word ∉ ignore ∧ ∃ it ∈ s.items, it.word = n.word) := by
  unfold Searcher.search at h
  split at h
  · simp at h
  · rw [Res.bind_eq_ok] at h
    obtain ⟨st, h1, h2⟩ := h
    simp only at h2
    split at h2
    · simp at h2
    · simp only [Res.ok.injEq] at h2
      have key := forEach_inv_partial
        (fun st : SearchSt F => ∀ n ∈ st.neighbors, n.word = [] ∨ (n.word ∉ ignore ∧ ∃ it ∈ s.items, it.word = n.word))
        _ _ _ _ (by
          intro n hn
          rw [List.eq_of_mem_replicate hn]; exact Or.inl rfl) (by
          intro it hit st st' hI hst
          unfold searchStep at hst
          split at hst
          · simp only [Res.ok.injEq] at hst; subst hst; exact hI
          · next hig =>
            have hig' : it.word ∉ ignore := by
              intro hm; exact hig ((ignore_get ignore GoMap.empty it.word).2 (Or.inl hm))
            rw [Res.bind_eq_ok] at hst
            obtain ⟨sc, _, hst⟩ := hst
            split at hst
            · rw [Res.bind_eq_ok] at hst
              obtain ⟨l, _, hst⟩ := hst
              simp only [Res.ok.injEq] at hst; subst hst
              exact bubble_words (fun w => w = [] ∨ (w ∉ ignore ∧ ∃ it ∈ s.items, it.word = w)) 0 _ _
                (Or.inr ⟨hig', it, hit, rfl⟩) hI
            · simp only [Res.ok.injEq] at hst; subst hst; exact hI) h1
      intro n hn
      rw [← h2] at hn
      exact key n (List.mem_of_mem_take hn)

/-- **C58.** `SearchInternal(w, k)` fails with an error exactly when `w` is empty or no item has the word `w`;
otherwise it is the search for the first item named `w` that ignores `w`, and never returns `w`. -/
theorem C58_search_internal (s : Searcher F) (w : Word) (k : Int) :
    ((w = [] ∨ ∀ it ∈ s.items, it.word ≠ w) ↔ s.searchInternal w k = .err .notFound) ∧
    (∀ res, s.searchInternal w k = .ok res → ∀ n ∈ res, n.word ≠ w) ∧
    (∀ pre q post, s.items = pre ++ q :: post → q.word = w → (∀ it ∈ pre, it.word ≠ w) → w ≠ [] →
      s.searchInternal w k = s.search q k [w]) := by
  have hfind : ∀ pre q post, s.items = pre ++ q :: post → q.word = w → (∀ it ∈ pre, it.word ≠ w) →
      s.items.find? (fun item => item.word = w) = some q := by
    intro pre q post h1 h2 h3
    rw [List.find?_eq_some_iff_append]
    refine ⟨by simpa using h2, pre, post, h1, ?_⟩
    intro a ha; simpa using h3 a ha
  have hnoerr : ∀ q : Embedding F, s.search q k [w] ≠ .err .notFound := by
    intro q
    unfold Searcher.search
    split
    · simp
    · intro h
      dsimp only at h
      have hdot : ∀ (v1 v2 : List F) i acc e, dotFrom v2 i acc v1 ≠ .err e := by
        intro v1
        induction v1 with
        | nil => intro v2 i acc e; simp [dotFrom]
        | cons x v1 ih =>
          intro v2 i acc e
          unfold dotFrom
          rcases Nat.lt_or_ge i v2.length with hl | hl
          · rw [idx_of_lt _ _ hl]; exact ih _ _ _ _
          · rw [idx_of_ge _ _ hl]; simp
      have hstep : ∀ it st e, searchStep q ([w].foldl (fun m w => GoMap.set m w ()) GoMap.empty) it st ≠ .err e := by
        intro it st e
        unfold searchStep cosine
        split
        · simp
        · split
          · simp only [Res.ok_bind]
            split
            · unfold idxI idx
              split
              · simp
              · split <;> simp
            · simp
          · cases hd : dotFrom it.vector 0 fzero q.vector with
            | ok d =>
              simp only [Res.ok_bind]
              split
              · unfold idxI idx
                split
                · simp
                · split <;> simp
              · simp
            | err e' => exact absurd hd (hdot _ _ _ _ _)
            | panic p => simp
      have hloop : ∀ (l : List (Embedding F)) st e,
          forEach l st (searchStep q ([w].foldl (fun m w => GoMap.set m w ()) GoMap.empty)) ≠ .err e := by
        intro l
        induction l with
        | nil => intro st e; simp
        | cons a l ih =>
          intro st e
          rw [forEach_cons]
          cases hs : searchStep q ([w].foldl (fun m w => GoMap.set m w ()) GoMap.empty) a st with
          | ok st' => exact ih st' e
          | err e' => exact absurd hs (hstep _ _ _)
          | panic p => simp
      cases hl : forEach s.items ({ neighbors := List.replicate k.toNat Neighbor.blank, low := fzero } : SearchSt F)
          (searchStep q ([w].foldl (fun m w => GoMap.set m w ()) GoMap.empty)) with
      | ok st =>
        rw [hl] at h
        simp only [Res.ok_bind] at h
        split at h <;> simp at h
      | err e => exact absurd hl (hloop _ _ _)
      | panic p => rw [hl] at h; simp at h
  refine ⟨⟨?_, ?_⟩, ?_, ?_⟩
  · intro h
    unfold Searcher.searchInternal
    cases hf : s.items.find? (fun item => item.word = w) with
    | none => simp [Embedding.zero]
    | some q =>
      have h1 := List.find?_some hf
      have h2 := List.mem_of_find?_eq_some hf
      simp only [decide_eq_true_eq] at h1
      rcases h with h | h
      · simp [h1, h]
      · exact absurd h1 (h q h2)
  · intro h
    by_contra hcon
    push Not at hcon
    obtain ⟨hw, it, hit, hiw⟩ := hcon
    unfold Searcher.searchInternal at h
    cases hf : s.items.find? (fun item => item.word = w) with
    | none =>
      rw [List.find?_eq_none] at hf
      exact hf it hit (by simpa using hiw)
    | some q =>
      have h1 := List.find?_some hf
      simp only [decide_eq_true_eq] at h1
      rw [hf] at h
      simp only [h1, hw, if_false] at h
      exact hnoerr q h
  · intro res h n hn
    unfold Searcher.searchInternal at h
    cases hf : s.items.find? (fun item => item.word = w) with
    | none => rw [hf] at h; simp [Embedding.zero] at h
    | some q =>
      have h1 := List.find?_some hf
      simp only [decide_eq_true_eq] at h1
      rw [hf] at h
      simp only [h1] at h
      split at h
      · simp at h
      · next hw =>
        rcases search_words s q k [w] res h n hn with h2 | h2
        · rw [h2]; exact fun h3 => hw h3.symm
        · simpa using h2.1
  · intro pre q post h1 h2 h3 h4
    unfold Searcher.searchInternal
    rw [hfind pre q post h1 h2 h3]
    simp [h2, h4]

/-- `C58_search_internal` on `exSearcher`: the neighbours of `b` are those of its embedding, and `b` is not among them. -/
example : exSearcher.searchInternal ['b'] 2 = exSearcher.search (mkEmb "b" [1, 1]) 2 [['b']] :=
  (C58_search_internal exSearcher ['b'] 2).2.2 [mkEmb "a" [1, 0]] (mkEmb "b" [1, 1]) [mkEmb "c" [-1, 0], mkEmb "d" [4, 3]]
    rfl rfl (by decide +kernel) (by decide)

end

/-! ### A concrete searcher (float64) -/

/-- Two candidates for the neighbours of `a`: `d` (similarity 0.8) and `b`. -/
example : (candidates (mkEmb "a" [1, 0]) [['a']] exSearcher.items).map (·.1) = [['b'], ['d']] := by decide +kernel

/-- With k = 2 both come back, best first; with k = 4 two real and one blank entry come back (C56, C57). -/
example : (exSearcher.searchInternal ['a'] 2 >>= fun r => .ok (r.map (fun n => (n.word, n.rank)))) =
      .ok [(['d'], 1), (['b'], 2)] ∧
    (exSearcher.searchInternal ['a'] 4 >>= fun r => .ok (r.map (fun n => (n.word, n.rank)))) =
      .ok [(['d'], 1), (['b'], 2), ([], 0)] ∧
    exSearcher.searchInternal ['a'] 0 = .panic .indexOutOfRange ∧
    exSearcher.searchInternal ['z'] 1 = .err .notFound := by
  decide +kernel

end Wego.Props
