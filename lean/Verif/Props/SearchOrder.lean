import Verif.Props.Search
import Verif.Proofs.F64

/-! # C96, C97: what the order of the items has to do with the result of a search -/

namespace Wego.Props
open Wego

section
variable {F : Type} [GoFloat F] [LawfulCmp F]

/-- A list on which a relation is total can be arranged in its order. -/
theorem exists_sorted {α : Type} (le : α → α → Prop) (htr : ∀ a b c, le a b → le b c → le a c)
    (l : List α) (htot : ∀ a ∈ l, ∀ b ∈ l, le a b ∨ le b a) :
    ∃ l', List.Perm l' l ∧ l'.Pairwise le := by
  induction l with
  | nil => exact ⟨[], List.Perm.refl _, List.Pairwise.nil⟩
  | cons a l ih =>
    obtain ⟨l', hp, hs⟩ := ih (fun x hx y hy => htot x (by simp [hx]) y (by simp [hy]))
    have key : ∀ m : List α, m.Pairwise le → (∀ x ∈ m, le a x ∨ le x a) →
        ∃ m', List.Perm m' (a :: m) ∧ m'.Pairwise le := by
      intro m
      induction m with
      | nil => intro _ _; exact ⟨[a], List.Perm.refl _, by simp⟩
      | cons b m ihm =>
        intro hm ht
        rw [List.pairwise_cons] at hm
        by_cases hab : le a b
        · refine ⟨a :: b :: m, List.Perm.refl _, ?_⟩
          rw [List.pairwise_cons, List.pairwise_cons]
          refine ⟨?_, hm⟩
          intro x hx
          rcases List.mem_cons.1 hx with rfl | hx
          · exact hab
          · exact htr _ _ _ hab (hm.1 x hx)
        · have hba := (ht b (by simp)).resolve_left hab
          obtain ⟨m', hp', hs'⟩ := ihm hm.2 (fun x hx => ht x (by simp [hx]))
          refine ⟨b :: m', (List.Perm.cons b hp').trans (List.Perm.swap _ _ _), ?_⟩
          rw [List.pairwise_cons]
          refine ⟨?_, hs'⟩
          intro x hx
          rcases List.mem_cons.1 (hp'.subset hx) with rfl | hx
          · exact hba
          · exact hm.1 x hx
    obtain ⟨m', hp', hs'⟩ := key l' hs (fun x hx => htot a (by simp) x (by
      have := hp.subset hx; simp [this]))
    exact ⟨m', hp'.trans (List.Perm.cons a hp), hs'⟩

omit [LawfulCmp F] in
theorem candidates_pos (query : Embedding F) (ignore : List Word) (items : List (Embedding F)) :
    ∀ c ∈ candidates query ignore items, GoFloat.lt fzero c.2 = true := by
  intro c hc
  unfold candidates at hc
  rw [List.mem_filterMap] at hc
  obtain ⟨it, _, he⟩ := hc
  split at he
  · simp at he
  · split at he
    · split at he
      · next h => simp only [Option.some.injEq] at he; rw [← he]; exact h
      · simp at he
    · simp at he

/-- more similar or as similar -/
def Above (a b : Word × F) : Prop := GoFloat.le b.2 a.2 = true

/-- The hits are the first entries of an arrangement of all the candidates in descending similarity. -/
theorem hits_prefix {k : Nat} {cands : List (Word × F)} {st : SearchSt F} {hits : List (Neighbor F)}
    {rest : List (Word × F)} (hI : SInv k cands st hits rest)
    (hpos : ∀ c ∈ cands, GoFloat.lt fzero c.2 = true) :
    ∃ l, List.Perm l cands ∧ l.Pairwise Above ∧ hits.map Neighbor.ws = l.take (min cands.length k) := by
  have hmem : ∀ c ∈ rest, IsNum c.2 := fun c hc =>
    (LawfulCmp.lt_num _ _ (hpos c (hI.perm.subset (by simp [hc])))).2
  obtain ⟨rest', hp, hs⟩ := exists_sorted (Above (F := F))
    (fun a b c h1 h2 => LawfulCmp.le_trans _ _ _ h2 h1) rest
    (fun a ha b hb => (LawfulCmp.le_total b.2 a.2 (hmem b hb) (hmem a ha)))
  refine ⟨hits.map Neighbor.ws ++ rest', (hp.append_left _).trans hI.perm, ?_, ?_⟩
  · rw [List.pairwise_append]
    refine ⟨by rw [List.pairwise_map]; exact hI.sorted, hs, ?_⟩
    intro a ha b hb
    obtain ⟨n, hn, rfl⟩ := List.mem_map.1 ha
    exact hI.best b (hp.subset hb) n hn
  · rw [← hits_length hI, List.take_append_of_le_length (by simp), List.take_of_length_le (by simp)]

/-- Neighbours are determined by their words, similarities and ranks. -/
theorem hits_ext {h1 h2 : List (Neighbor F)} (hws : h1.map Neighbor.ws = h2.map Neighbor.ws)
    (r1 : ∀ (j : Nat) h, h1[j]? = some h → h.rank = j + 1)
    (r2 : ∀ (j : Nat) h, h2[j]? = some h → h.rank = j + 1) : h1 = h2 := by
  have hl : h1.length = h2.length := by simpa using congrArg List.length hws
  apply List.ext_getElem hl
  intro j hj1 hj2
  have e : (h1.map Neighbor.ws)[j]? = (h2.map Neighbor.ws)[j]? := by rw [hws]
  rw [List.getElem?_map, List.getElem?_map, List.getElem?_eq_getElem hj1, List.getElem?_eq_getElem hj2] at e
  simp only [Option.map_some, Option.some.injEq, Neighbor.ws, Prod.mk.injEq] at e
  have a := r1 j _ (List.getElem?_eq_getElem hj1)
  have b := r2 j _ (List.getElem?_eq_getElem hj2)
  rcases h : h1[j] with ⟨w1, k1, s1⟩
  rcases h' : h2[j] with ⟨w2, k2, s2⟩
  rw [h] at e a; rw [h'] at e b
  simp only at e a b
  rw [e.1, e.2, a, b]

/-- **C96 (no ties).** If no two candidates of different words are equally similar to the query, the result
of the search does not depend on the order of the items at all. -/
theorem C96_order_irrelevant (items items' : List (Embedding F)) (hperm : List.Perm items items')
    (query : Embedding F) (k : Int) (hk : 1 ≤ k) (ignore : List Word)
    (hw : ∀ it ∈ items, it.word ≠ [])
    (hc : ∀ it ∈ items, query.vector.length ≤ it.vector.length)
    (hties : ∀ a ∈ candidates query ignore items, ∀ b ∈ candidates query ignore items,
      GoFloat.le a.2 b.2 = true → GoFloat.le b.2 a.2 = true → a = b) :
    (Searcher.mk items).search query k ignore = (Searcher.mk items').search query k ignore := by
  obtain ⟨n, rfl⟩ := Int.eq_ofNat_of_zero_le (by omega : 0 ≤ k)
  obtain ⟨st1, hits1, rest1, hI1, -, h1⟩ := search_ok (Searcher.mk items) query n (by omega) ignore hw
    (fun it hit _ => cosine_ok _ _ _ _ (hc it hit))
  obtain ⟨st2, hits2, rest2, hI2, -, h2⟩ := search_ok (Searcher.mk items') query n (by omega) ignore
    (fun it hit => hw it (hperm.symm.subset hit))
    (fun it hit _ => cosine_ok _ _ _ _ (hc it (hperm.symm.subset hit)))
  have hcp : List.Perm (candidates query ignore items) (candidates query ignore items') := hperm.filterMap _
  obtain ⟨l1, p1, s1, e1⟩ := hits_prefix hI1 (candidates_pos _ _ _)
  obtain ⟨l2, p2, s2, e2⟩ := hits_prefix hI2 (candidates_pos _ _ _)
  have hl : l1 = l2 := List.Perm.eq_of_pairwise
    (fun a b ha hb hab hba => hties a (p1.subset ha) b (hcp.symm.subset (p2.subset hb)) hba hab)
    s1 s2 (p1.trans (hcp.trans p2.symm))
  have hh : hits1 = hits2 := by
    apply hits_ext _ hI1.rank hI2.rank
    dsimp only at e1 e2
    rw [e1, e2, hl, hcp.length_eq]
  rw [h1, h2, hh]

/-- The same for `SearchInternal`, when no two items have the same word. -/
theorem C96_internal_order_irrelevant (items items' : List (Embedding F)) (hperm : List.Perm items items')
    (hnd : (items.map (·.word)).Nodup) (w : Word) (k : Int) (hk : 1 ≤ k)
    (hw : ∀ it ∈ items, it.word ≠ []) (hc : ∀ a ∈ items, ∀ b ∈ items, a.vector.length = b.vector.length)
    (hties : ∀ q ∈ items, q.word = w → ∀ a ∈ candidates q [w] items, ∀ b ∈ candidates q [w] items,
      GoFloat.le a.2 b.2 = true → GoFloat.le b.2 a.2 = true → a = b) :
    (Searcher.mk items).searchInternal w k = (Searcher.mk items').searchInternal w k := by
  have hf : items.find? (fun item => item.word = w) = items'.find? (fun item => item.word = w) := by
    cases h1 : items.find? (fun item => decide (item.word = w)) with
    | none =>
      cases h2 : items'.find? (fun item => decide (item.word = w)) with
      | none => rfl
      | some q =>
        have := List.find?_eq_none.1 h1 q (hperm.symm.subset (List.mem_of_find?_eq_some h2))
        exact absurd (List.find?_some h2) this
    | some p =>
      cases h2 : items'.find? (fun item => decide (item.word = w)) with
      | none =>
        have := List.find?_eq_none.1 h2 p (hperm.subset (List.mem_of_find?_eq_some h1))
        exact absurd (List.find?_some h1) this
      | some q =>
        have a1 := List.find?_some h1
        have a2 := List.find?_some h2
        simp only [decide_eq_true_eq] at a1 a2
        have := List.inj_on_of_nodup_map hnd (List.mem_of_find?_eq_some h1)
          (hperm.symm.subset (List.mem_of_find?_eq_some h2)) (by rw [a1, a2])
        rw [this]
  unfold Searcher.searchInternal
  dsimp only
  rw [← hf]
  cases h1 : items.find? (fun item => decide (item.word = w)) with
  | none => rfl
  | some q =>
    dsimp only
    split
    · rfl
    · have hq := List.mem_of_find?_eq_some h1
      have a1 := List.find?_some h1
      simp only [decide_eq_true_eq] at a1
      exact C96_order_irrelevant items items' hperm q k hk [w] hw
        (fun it hit => le_of_eq (hc q hq it hit)) (hties q hq a1)

end

/-- Equal positions on the number line above 0: the same double. -/
theorem f64_antisymm {x y : F64} (hx : GoFloat.lt (fzero : F64) x = true)
    (h1 : GoFloat.le x y = true) (h2 : GoFloat.le y x = true) : x = y := by
  rw [F64.le_iff] at h1 h2
  rw [F64.lt_iff] at hx
  obtain ⟨a, b, ha, hb, hab⟩ := h1
  obtain ⟨b', a', hb', ha', hba⟩ := h2
  rw [ha] at ha'; rw [hb] at hb'
  simp only [Option.some.injEq] at ha' hb'
  subst ha'; subst hb'
  have e : a = b := le_antisymm hab hba
  subst e
  obtain ⟨z, a', hz, ha', hlt⟩ := hx
  rw [ha] at ha'; simp only [Option.some.injEq] at ha'; subst ha'
  have hz0 : z = 0 := by
    have : F64.key (fzero : F64) = some 0 := by decide +kernel
    rw [this] at hz; simpa using hz.symm
  subst hz0
  cases x with
  | nan => simp [F64.key] at ha
  | inf s =>
    cases y with
    | nan => simp [F64.key] at hb
    | inf t =>
      cases s <;> cases t <;> simp only [F64.key, Option.some.injEq] at ha hb <;> first | rfl | (exfalso; simp at ha hb; omega)
    | fin t m k =>
      exfalso
      have := k.2
      cases s <;> cases t <;> simp only [F64.key, Option.some.injEq] at ha hb <;> simp at ha hb <;> omega
  | fin s n h =>
    cases y with
    | nan => simp [F64.key] at hb
    | inf t =>
      exfalso
      have := h.2
      cases s <;> cases t <;> simp only [F64.key, Option.some.injEq] at ha hb <;> simp at ha hb <;> omega
    | fin t m k =>
      cases s <;> cases t <;> simp only [F64.key, Option.some.injEq] at ha hb <;> simp at ha hb
      · have : n = m := by omega
        subst this; rfl
      all_goals (exfalso; omega)

/-- **C96 (float64).** Whatever ties there are: two searches over the same items in different orders return
equally many entries with the same similarities in the same places. -/
theorem C96_same_similarities (items items' : List (Embedding F64)) (hperm : List.Perm items items')
    (query : Embedding F64) (k : Int) (hk : 1 ≤ k) (ignore : List Word)
    (hw : ∀ it ∈ items, it.word ≠ [])
    (hc : ∀ it ∈ items, query.vector.length ≤ it.vector.length) :
    ∃ res res', (Searcher.mk items).search query k ignore = .ok res ∧
      (Searcher.mk items').search query k ignore = .ok res' ∧
      res.map (fun n => (n.rank, n.sim)) = res'.map (fun n => (n.rank, n.sim)) := by
  obtain ⟨n, rfl⟩ := Int.eq_ofNat_of_zero_le (by omega : 0 ≤ k)
  obtain ⟨st1, hits1, rest1, hI1, -, h1⟩ := search_ok (Searcher.mk items) query n (by omega) ignore hw
    (fun it hit _ => cosine_ok _ _ _ _ (hc it hit))
  obtain ⟨st2, hits2, rest2, hI2, -, h2⟩ := search_ok (Searcher.mk items') query n (by omega) ignore
    (fun it hit => hw it (hperm.symm.subset hit))
    (fun it hit _ => cosine_ok _ _ _ _ (hc it (hperm.symm.subset hit)))
  have hcp : List.Perm (candidates query ignore items) (candidates query ignore items') := hperm.filterMap _
  obtain ⟨l1, p1, s1, e1⟩ := hits_prefix hI1 (candidates_pos _ _ _)
  obtain ⟨l2, p2, s2, e2⟩ := hits_prefix hI2 (candidates_pos _ _ _)
  dsimp only at e1 e2 p1 p2
  have hl : l1.map (·.2) = l2.map (·.2) := by
    refine List.Perm.eq_of_pairwise (le := fun a b : F64 => GoFloat.le b a = true) ?_
      (by rw [List.pairwise_map]; exact s1) (by rw [List.pairwise_map]; exact s2)
      ((p1.trans (hcp.trans p2.symm)).map _)
    intro a b ha _ hab hba
    obtain ⟨c, hcm, rfl⟩ := List.mem_map.1 ha
    exact f64_antisymm (candidates_pos _ _ _ c (p1.subset hcm)) hba hab
  have hsims : hits1.map (·.sim) = hits2.map (·.sim) := by
    have f1 : hits1.map (·.sim) = (hits1.map Neighbor.ws).map (·.2) := by rw [List.map_map]; rfl
    have f2 : hits2.map (·.sim) = (hits2.map Neighbor.ws).map (·.2) := by rw [List.map_map]; rfl
    rw [f1, f2, e1, e2, List.map_take, List.map_take, hl, hcp.length_eq]
  have hlen : hits1.length = hits2.length := by simpa using congrArg List.length hsims
  refine ⟨_, _, h1, h2, ?_⟩
  rw [List.map_append, List.map_append, hlen]
  congr 1
  apply List.ext_getElem (by simpa using hlen)
  intro j hj1 hj2
  simp only [List.length_map] at hj1 hj2
  have e : (hits1.map (·.sim))[j]? = (hits2.map (·.sim))[j]? := by rw [hsims]
  rw [List.getElem?_map, List.getElem?_map, List.getElem?_eq_getElem hj1, List.getElem?_eq_getElem hj2] at e
  simp only [Option.map_some, Option.some.injEq] at e
  rw [List.getElem_map, List.getElem_map, e, hI1.rank j _ (List.getElem?_eq_getElem hj1),
    hI2.rank j _ (List.getElem?_eq_getElem hj2)]

/-- `C96_order_irrelevant` and `C96_same_similarities`: the four words of `exSearcher` in reverse order, query `a`. -/
example : exSearcher.search (mkEmb "a" [1, 0]) 2 [['a']] =
    (Searcher.mk exSearcher.items.reverse).search (mkEmb "a" [1, 0]) 2 [['a']] :=
  C96_order_irrelevant exSearcher.items _ (List.reverse_perm _).symm (mkEmb "a" [1, 0]) 2 (by decide) [['a']] ex_words ex_dims
    (by decide +kernel)

example := C96_same_similarities exSearcher.items _ (List.reverse_perm _).symm (mkEmb "a" [1, 0]) 2 (by decide) []
  ex_words ex_dims

/-- `C96_internal_order_irrelevant`: the neighbours of `b`. -/
example : exSearcher.searchInternal ['b'] 2 = (Searcher.mk exSearcher.items.reverse).searchInternal ['b'] 2 :=
  C96_internal_order_irrelevant exSearcher.items _ (List.reverse_perm _).symm (by decide +kernel) ['b'] 2 (by decide) ex_words
    (by decide +kernel) (by decide +kernel)

/-! ### C97: ties -/
section
variable {F : Type} [GoFloat F]

theorem bubble_pass (i : Nat) (t : Neighbor F) (ns : List (Neighbor F))
    (h : ∀ n ∈ ns, GoFloat.lt n.sim t.sim = false) : bubble i t ns = (ns, t) := by
  induction ns generalizing i with
  | nil => rfl
  | cons n ns ih =>
    rw [bubble.eq_def]
    simp only [h n (by simp), Bool.false_eq_true, if_false, ih (i + 1) (fun m hm => h m (by simp [hm]))]

variable [LawfulCmp F]

theorem not_lt_of_le {x y : F} (h : GoFloat.le y x = true) : GoFloat.lt x y = false := by
  cases h2 : GoFloat.lt x y with
  | false => rfl
  | true =>
    obtain ⟨hx, hy⟩ := LawfulCmp.lt_num x y h2
    rw [(LawfulCmp.lt_iff x y hx hy).1 h2] at h
    simp at h

/-- One more item that is not more similar than any of the hits: it is appended if there is room. -/
theorem searchStep_descending {k : Nat} (hk : 1 ≤ k) (query : Embedding F) (ignore : List Word)
    (it : Embedding F) (st : SearchSt F) (cands : List (Word × F)) (hits : List (Neighbor F))
    (rest : List (Word × F)) (hI : SInv k cands st hits rest)
    (hc : it.word ∉ ignore → ∃ s, cosine query.vector it.vector query.norm it.norm = .ok s)
    (hd : (cands ++ candidates query ignore [it]).Pairwise Above)
    (hh : hits.map Neighbor.ws = cands.take k) :
    ∃ st' hits' rest', searchStep query (ignore.foldl (fun m w => GoMap.set m w ()) GoMap.empty) it st = .ok st' ∧
      SInv k (cands ++ candidates query ignore [it]) st' hits' rest' ∧
      hits'.map Neighbor.ws = (cands ++ candidates query ignore [it]).take k := by
  obtain ⟨st', hits', rest', h1, hI'⟩ := searchStep_inv hk query ignore it st cands hits rest hI hc
  refine ⟨st', hits', rest', h1, hI', ?_⟩
  have hlen := hits_length hI
  have hlen' := hits_length hI'
  have hsame : st' = st → candidates query ignore [it] = [] ∨ hits.length = k →
      hits'.map Neighbor.ws = (cands ++ candidates query ignore [it]).take k := by
    intro hst hcase
    subst hst
    have hl : hits.length = hits'.length := by
      rcases hcase with h | h
      · rw [h] at hlen'; simp at hlen'; omega
      · simp only [List.length_append] at hlen'; omega
    have e := hI.neigh.symm.trans hI'.neigh
    have e2 : hits = hits' := (List.append_inj e hl).1
    rw [← e2, hh]
    rcases hcase with h | h
    · rw [h, List.append_nil]
    · rw [List.take_append_of_le_length (by omega)]
  by_cases hig : it.word ∈ ignore
  · unfold searchStep at h1
    rw [if_pos (by rw [ignore_get]; exact Or.inl hig)] at h1
    simp only [Res.ok.injEq] at h1
    exact hsame h1.symm (Or.inl (by simp [candidates, hig]))
  · unfold searchStep at h1
    rw [if_neg (by rw [ignore_get]; simp [hig])] at h1
    obtain ⟨s, hs⟩ := hc hig
    rw [hs] at h1
    simp only [Res.ok_bind] at h1
    by_cases hq : GoFloat.lt fzero s = true
    · have hfm : candidates query ignore [it] = [(it.word, s)] := by simp [candidates, hig, hs, hq]
      have hbelow : ∀ c ∈ cands, GoFloat.le s c.2 = true := by
        intro c hcm
        rw [hfm, List.pairwise_append] at hd
        exact hd.2.2 c hcm (it.word, s) (by simp)
      have hpass : ∀ n ∈ hits, GoFloat.lt n.sim s = false := by
        intro n hn
        apply not_lt_of_le
        have : n.ws ∈ cands := List.mem_of_mem_take (by rw [← hh]; exact List.mem_map_of_mem hn)
        exact hbelow _ this
      rcases Nat.lt_or_ge hits.length k with hlt | hge
      · rw [if_pos (by rw [hI.low1 hlt]; exact hq)] at h1
        rw [Res.bind_eq_ok] at h1
        obtain ⟨lst, _, h1⟩ := h1
        simp only [Res.ok.injEq] at h1
        have hn := hI'.neigh
        rw [← h1] at hn
        dsimp only at hn
        obtain ⟨m, hm⟩ : ∃ m, k - hits.length = m + 1 := ⟨k - hits.length - 1, by omega⟩
        rw [hI.neigh, hm, bubble_append, bubble_pass 0 _ hits hpass, bubble_pos_blanks _ _ _ hq] at hn
        dsimp only at hn
        have hl' : hits'.length = hits.length + 1 := by
          rw [hfm] at hlen'; simp only [List.length_append, List.length_singleton] at hlen'; omega
        rw [← List.singleton_append, ← List.append_assoc] at hn
        have e := (List.append_inj hn (by simp [hl'])).1
        rw [← e, hfm, List.map_append, hh, List.take_append, List.take_of_length_le (i := k) (l := cands) (by omega),
          List.take_of_length_le (by simp; omega)]
        rfl
      · have hlk : hits.length = k := by have := hI.len; omega
        obtain ⟨lst, hlst, hlow⟩ := hI.low2 hlk
        have hlstmem : lst ∈ hits := List.mem_of_getLast? hlst
        rw [if_neg (by rw [hlow, hpass lst hlstmem]; simp)] at h1
        simp only [Res.ok.injEq] at h1
        exact hsame h1.symm (Or.inr hlk)
    · have hfm : candidates query ignore [it] = [] := by simp [candidates, hig, hs, hq]
      have hnot : ¬ GoFloat.lt st.low s = true := by
        intro hin
        apply hq
        rcases Nat.lt_or_ge hits.length k with hlt | hge
        · rw [hI.low1 hlt] at hin; exact hin
        · have hlk : hits.length = k := by have := hI.len; omega
          obtain ⟨lst, hlst, hlow⟩ := hI.low2 hlk
          have hp := hI.pos lst (List.mem_of_getLast? hlst)
          rw [hlow] at hin
          exact flt_of_lt_of_le hp (fle_of_lt hin) (LawfulCmp.lt_num _ _ hin).2
      rw [if_neg hnot] at h1
      simp only [Res.ok.injEq] at h1
      exact hsame h1.symm (Or.inl hfm)

/-- **C97 (what holds: items in descending similarity).** If no item is more similar than an earlier one (for
example, all the candidates tie), the result lists the first `k` candidates in the order of the items. -/
theorem C97_item_order_partial (s : Searcher F) (query : Embedding F) (k : Int) (hk : 1 ≤ k) (ignore : List Word)
    (hw : ∀ it ∈ s.items, it.word ≠ [])
    (hc : ∀ it ∈ s.items, query.vector.length ≤ it.vector.length)
    (hd : (candidates query ignore s.items).Pairwise (fun a b => GoFloat.le b.2 a.2 = true)) :
    ∃ res, s.search query k ignore = .ok res ∧
      (res.filter (fun n => decide (n.word ≠ []))).map (fun n => (n.word, n.sim)) =
        (candidates query ignore s.items).take k.toNat := by
  obtain ⟨n, rfl⟩ := Int.eq_ofNat_of_zero_le (by omega : 0 ≤ k)
  have hk' : 1 ≤ n := by omega
  have key : ∀ (items : List (Embedding F)) (st : SearchSt F) (cands : List (Word × F)) (hits : List (Neighbor F))
      (rest : List (Word × F)), SInv n cands st hits rest → hits.map Neighbor.ws = cands.take n →
      (∀ it ∈ items, query.vector.length ≤ it.vector.length) →
      (cands ++ candidates query ignore items).Pairwise Above →
      ∃ st' hits' rest',
        forEach items st (searchStep query (ignore.foldl (fun m w => GoMap.set m w ()) GoMap.empty)) = .ok st' ∧
        SInv n (cands ++ candidates query ignore items) st' hits' rest' ∧
        hits'.map Neighbor.ws = (cands ++ candidates query ignore items).take n := by
    intro items
    induction items with
    | nil =>
      intro st cands hits rest hI hh _ _
      exact ⟨st, hits, rest, rfl, by simpa [candidates] using hI, by simpa [candidates] using hh⟩
    | cons it items ih =>
      intro st cands hits rest hI hh hcc hd
      have e : candidates query ignore (it :: items) = candidates query ignore [it] ++ candidates query ignore items := by
        unfold candidates
        rw [← List.filterMap_append]; rfl
      rw [e, ← List.append_assoc] at hd ⊢
      obtain ⟨st1, hits1, rest1, h1, hI1, hh1⟩ := searchStep_descending hk' query ignore it st cands hits rest hI
        (fun _ => cosine_ok _ _ _ _ (hcc it (by simp))) (List.pairwise_append.1 hd).1 hh
      obtain ⟨st2, hits2, rest2, h2, hI2, hh2⟩ := ih st1 _ hits1 rest1 hI1 hh1 (fun i hi => hcc i (by simp [hi])) hd
      exact ⟨st2, hits2, rest2, by rw [forEach_cons, h1]; exact h2, hI2, hh2⟩
  obtain ⟨st', hits', rest', h1, hI', hh'⟩ := key s.items _ [] [] [] (sInv_init (F := F) hk') (by simp) hc
    (by rw [List.nil_append]; exact hd)
  rw [List.nil_append] at hI' hh'
  obtain ⟨hnb, hres⟩ := search_of_loop s query n hk' ignore hw h1 hI'
  refine ⟨_, hres, ?_⟩
  rw [filter_hits _ _ hnb]
  exact hh'

/-- Neighbours of the first `k` hits: among equally similar candidates, the earlier item comes first, and is the one that
is kept (the property C97 claims; words of items are different from each other). -/
def EarlierFirst (items : List (Embedding F)) (query : Embedding F) (ignore : List Word)
    (res : List (Neighbor F)) : Prop :=
  ∀ pre a mid b post, candidates query ignore items = pre ++ a :: (mid ++ b :: post) →
    GoFloat.le a.2 b.2 = true → GoFloat.le b.2 a.2 = true →
    ∀ (j : Nat) n, res[j]? = some n → n.word = b.1 → ∃ (i : Nat) (m : Neighbor F), i < j ∧ res[i]? = some m ∧ m.word = a.1

/-- **C97 (what holds: k = 1).** The single neighbour returned is the first of the most similar candidates. -/
theorem C97_best_partial (s : Searcher F) (query : Embedding F) (ignore : List Word)
    (hw : ∀ it ∈ s.items, it.word ≠ [])
    (hc : ∀ it ∈ s.items, query.vector.length ≤ it.vector.length)
    (hne : candidates query ignore s.items ≠ []) :
    ∃ pre c post, candidates query ignore s.items = pre ++ c :: post ∧
      s.search query 1 ignore = .ok [{ word := c.1, rank := 1, sim := c.2 }] ∧
      (∀ p ∈ pre, GoFloat.lt p.2 c.2 = true) ∧ (∀ p ∈ post, GoFloat.le p.2 c.2 = true) := by
  have key : ∀ (items : List (Embedding F)) (st : SearchSt F) (cands : List (Word × F)),
      (∀ it ∈ items, query.vector.length ≤ it.vector.length) →
      (∀ p ∈ cands, GoFloat.lt fzero p.2 = true) →
      ((cands = [] ∧ st = { neighbors := [Neighbor.blank], low := fzero }) ∨
        ∃ pre c post, cands = pre ++ c :: post ∧ GoFloat.lt fzero c.2 = true ∧
          st = { neighbors := [{ word := c.1, rank := 1, sim := c.2 }], low := c.2 } ∧
          (∀ p ∈ pre, GoFloat.lt p.2 c.2 = true) ∧ (∀ p ∈ post, GoFloat.le p.2 c.2 = true)) →
      ∃ st', forEach items st (searchStep query (ignore.foldl (fun m w => GoMap.set m w ()) GoMap.empty)) = .ok st' ∧
        ((cands ++ candidates query ignore items = [] ∧ st' = { neighbors := [Neighbor.blank], low := fzero }) ∨
        ∃ pre c post, cands ++ candidates query ignore items = pre ++ c :: post ∧ GoFloat.lt fzero c.2 = true ∧
          st' = { neighbors := [{ word := c.1, rank := 1, sim := c.2 }], low := c.2 } ∧
          (∀ p ∈ pre, GoFloat.lt p.2 c.2 = true) ∧ (∀ p ∈ post, GoFloat.le p.2 c.2 = true)) := by
    intro items
    induction items with
    | nil => intro st cands _ _ h; exact ⟨st, rfl, by simpa [candidates] using h⟩
    | cons it items ih =>
      intro st cands hcc hcp h
      have e : candidates query ignore (it :: items) = candidates query ignore [it] ++ candidates query ignore items := by
        unfold candidates
        rw [← List.filterMap_append]; rfl
      rw [e, ← List.append_assoc]
      have step : ∃ st1, searchStep query (ignore.foldl (fun m w => GoMap.set m w ()) GoMap.empty) it st = .ok st1 ∧
          ((cands ++ candidates query ignore [it] = [] ∧ st1 = { neighbors := [Neighbor.blank], low := fzero }) ∨
          ∃ pre c post, cands ++ candidates query ignore [it] = pre ++ c :: post ∧ GoFloat.lt fzero c.2 = true ∧
          st1 = { neighbors := [{ word := c.1, rank := 1, sim := c.2 }], low := c.2 } ∧
          (∀ p ∈ pre, GoFloat.lt p.2 c.2 = true) ∧ (∀ p ∈ post, GoFloat.le p.2 c.2 = true)) := by
        unfold searchStep
        by_cases hig : it.word ∈ ignore
        · rw [if_pos (by rw [ignore_get]; exact Or.inl hig)]
          exact ⟨st, rfl, by simpa [candidates, hig] using h⟩
        · rw [if_neg (by rw [ignore_get]; simp [hig])]
          obtain ⟨c0, hs⟩ := cosine_ok query.vector it.vector query.norm it.norm (hcc it (by simp))
          rw [hs]
          simp only [Res.ok_bind]
          by_cases hq : GoFloat.lt fzero c0 = true
          · have hfm : candidates query ignore [it] = [(it.word, c0)] := by simp [candidates, hig, hs, hq]
            rw [hfm]
            rcases h with ⟨rfl, rfl⟩ | ⟨pre, c, post, rfl, hp, rfl, h1, h2⟩
            · have hb : GoFloat.lt (Neighbor.blank : Neighbor F).sim c0 = true := hq
              refine ⟨{ neighbors := [{ word := it.word, rank := 1, sim := c0 }], low := c0 }, ?_, Or.inr
                ⟨[], (it.word, c0), [], rfl, hq, rfl, by simp, by simp⟩⟩
              dsimp only
              rw [if_pos hq]
              simp [bubble, hb, idxI, idx]
            · by_cases hl : GoFloat.lt c.2 c0 = true
              · refine ⟨{ neighbors := [{ word := it.word, rank := 1, sim := c0 }], low := c0 }, ?_, Or.inr
                  ⟨pre ++ c :: post, (it.word, c0), [], by simp, hq, rfl, ?_, by simp⟩⟩
                · dsimp only
                  rw [if_pos hl]
                  simp [bubble, hl, idxI, idx]
                · have hn : IsNum c0 := (LawfulCmp.lt_num _ _ hl).2
                  intro p hpm
                  rw [List.mem_append, List.mem_cons] at hpm
                  have tr : ∀ x : F, GoFloat.le x c.2 = true → GoFloat.lt c.2 c0 = true → IsNum x → GoFloat.lt x c0 = true := by
                    intro x hx hl hxn
                    rw [LawfulCmp.lt_iff x c0 hxn hn]
                    cases h3 : GoFloat.le c0 x with
                    | false => rfl
                    | true =>
                      have := LawfulCmp.le_trans _ _ _ h3 hx
                      rw [(LawfulCmp.lt_iff _ _ (LawfulCmp.lt_num _ _ hl).1 hn).1 hl] at this
                      simp at this
                  rcases hpm with hpm | rfl | hpm
                  · exact flt_of_lt_of_le (h1 p hpm) (fle_of_lt hl) hn
                  · exact hl
                  · have hpn : IsNum p.2 := (LawfulCmp.lt_num _ _ (hcp p (by simp [hpm]))).2
                    exact tr p.2 (h2 p hpm) hl hpn
              · refine ⟨{ neighbors := [{ word := c.1, rank := 1, sim := c.2 }], low := c.2 }, ?_, Or.inr
                  ⟨pre, c, post ++ [(it.word, c0)], by simp, hp, rfl, h1, ?_⟩⟩
                · dsimp only
                  rw [if_neg hl]
                · intro p hpm
                  rw [List.mem_append, List.mem_singleton] at hpm
                  rcases hpm with hpm | rfl
                  · exact h2 p hpm
                  · exact fle_of_not_lt (LawfulCmp.lt_num _ _ hp).2 (LawfulCmp.lt_num _ _ hq).2 (by simpa using hl)
          · have hfm : candidates query ignore [it] = [] := by simp [candidates, hig, hs, hq]
            rw [hfm, List.append_nil]
            refine ⟨st, ?_, h⟩
            rw [if_neg]
            intro hin
            apply hq
            rcases h with ⟨_, rfl⟩ | ⟨pre, c, post, _, hp, rfl, _, _⟩
            · exact hin
            · exact flt_of_lt_of_le hp (fle_of_lt hin) (LawfulCmp.lt_num _ _ hin).2
      obtain ⟨st1, h1, h2⟩ := step
      obtain ⟨st2, h3, h4⟩ := ih st1 _ (fun i hi => hcc i (by simp [hi]))
        (fun p hp => (List.mem_append.1 hp).elim (hcp p) (candidates_pos query ignore [it] p)) h2
      exact ⟨st2, by rw [forEach_cons, h1]; exact h3, h4⟩
  obtain ⟨st, h1, h2⟩ := key s.items { neighbors := [Neighbor.blank], low := fzero } [] hc (by simp) (Or.inl ⟨rfl, rfl⟩)
  rw [List.nil_append] at h2
  rcases h2 with ⟨h2, _⟩ | ⟨pre, c, post, h2, hp, rfl, h3, h4⟩
  · exact absurd h2 hne
  · refine ⟨pre, c, post, h2, ?_, h3, h4⟩
    have hcw : c.1 ≠ [] := by
      have hcm : c ∈ candidates query ignore s.items := by rw [h2]; simp
      unfold candidates at hcm
      rw [List.mem_filterMap] at hcm
      obtain ⟨it, hit, he⟩ := hcm
      split at he
      · simp at he
      · split at he
        · split at he
          · simp only [Option.some.injEq] at he
            have e1 : it.word = c.1 := congrArg Prod.fst he
            rw [← e1]; exact hw it hit
          · simp at he
        · simp at he
    unfold Searcher.search
    rw [if_neg (by omega)]
    have hr : (1 : Int).toNat = 1 := rfl
    simp only [hr, List.replicate_one]
    rw [h1]
    simp [guardK, hcw]

end

/-- three items: `b` and `c` with the same vector, then the more similar `t` -/
def tieItems : List (Embedding F64) := [mkEmb "b" [1, 1], mkEmb "c" [1, 1], mkEmb "t" [1, 0]]

/-- **C97 is false of the code** (float64): `b` and `c` are equally similar to the query and `b` comes first in
the searcher, but after the better `t` was found, `c` is kept and ranked before `b`. -/
theorem C97_false :
    (∃ res, (Searcher.mk tieItems).search (mkEmb "q" [1, 0]) 2 [] = .ok res ∧
      res.map (·.word) = [['t'], ['c']] ∧ ¬ EarlierFirst tieItems (mkEmb "q" [1, 0]) [] res) ∧
    (∃ res, (Searcher.mk tieItems).search (mkEmb "q" [1, 0]) 3 [] = .ok res ∧
      res.map (·.word) = [['t'], ['c'], ['b']] ∧ ¬ EarlierFirst tieItems (mkEmb "q" [1, 0]) [] res) := by
  have hcand : ∃ s t, candidates (mkEmb "q" [1, 0]) [] tieItems = [(['b'], s), (['c'], s), (['t'], t)] ∧
      GoFloat.le s s = true := by
    refine ⟨((candidates (mkEmb "q" [1, 0]) [] tieItems)[0]?.getD ([], fzero)).2,
      ((candidates (mkEmb "q" [1, 0]) [] tieItems)[2]?.getD ([], fzero)).2, ?_⟩
    decide +kernel
  obtain ⟨x, y, hxy, hx⟩ := hcand
  have refute : ∀ res : List (Neighbor F64), res.map (·.word) = [['t'], ['c']] ∨
      res.map (·.word) = [['t'], ['c'], ['b']] → ¬ EarlierFirst tieItems (mkEmb "q" [1, 0]) [] res := by
    intro res hres hE
    have hE := hE [] (['b'], x) [] (['c'], x) [(['t'], y)] (by rw [hxy]; rfl) hx hx
    have h0 : (res.map (·.word))[0]? = some ['t'] := by rcases hres with h | h <;> rw [h] <;> rfl
    have h1 : (res.map (·.word))[1]? = some ['c'] := by rcases hres with h | h <;> rw [h] <;> rfl
    rw [List.getElem?_map, Option.map_eq_some_iff] at h0 h1
    obtain ⟨n0, hn0, w0⟩ := h0
    obtain ⟨n1, hn1, w1⟩ := h1
    obtain ⟨i, m, hi, hm, hmw⟩ := hE 1 n1 hn1 w1
    have : i = 0 := by omega
    subst this
    rw [hn0] at hm
    simp only [Option.some.injEq] at hm
    rw [← hm, w0] at hmw
    exact absurd hmw (by simp)
  have h2 : ((Searcher.mk tieItems).search (mkEmb "q" [1, 0]) 2 [] >>= fun r => .ok (r.map (·.word))) =
      .ok [['t'], ['c']] := by decide +kernel
  have h3 : ((Searcher.mk tieItems).search (mkEmb "q" [1, 0]) 3 [] >>= fun r => .ok (r.map (·.word))) =
      .ok [['t'], ['c'], ['b']] := by decide +kernel
  rw [Res.bind_eq_ok] at h2 h3
  obtain ⟨r2, e2, w2⟩ := h2
  obtain ⟨r3, e3, w3⟩ := h3
  simp only [Res.ok.injEq] at w2 w3
  exact ⟨⟨r2, e2, w2, refute r2 (Or.inl w2)⟩, ⟨r3, e3, w3, refute r3 (Or.inr w3)⟩⟩

/-- `C97_best_partial` on these items, all of which are candidates: the best is `t`, the last item. -/
example := C97_best_partial (Searcher.mk tieItems) (mkEmb "q" [1, 0]) [] (by decide +kernel) (by decide +kernel)
  (by decide +kernel)

/-- `C97_item_order_partial`: with `t` first, `b` and `c`, which tie, come in the order of the items. -/
example := C97_item_order_partial (Searcher.mk [mkEmb "t" [1, 0], mkEmb "b" [1, 1], mkEmb "c" [1, 1]]) (mkEmb "q" [1, 0])
  2 (by decide) [] (by decide +kernel) (by decide +kernel) (by decide +kernel)

end Wego.Props
