import Verif.Props.SearchTies
import Verif.Props.JoinFiles

/-! # C112: removing words from the vectors only removes them from the lists of neighbours -/

namespace Wego.Props
open Wego Spec

section
variable {F : Type} [GoFloat F]

theorem forEach_ignore (query : Embedding F) (ignore : List Word) (items : List (Embedding F)) (st : SearchSt F) :
    forEach items st (searchStep query (ignore.foldl (fun m w => GoMap.set m w ()) GoMap.empty)) =
      forEach (items.filter (fun it => decide (it.word ∉ ignore))) st (searchStep query GoMap.empty) := by
  induction items generalizing st with
  | nil => rfl
  | cons it items ih =>
    by_cases h : it.word ∈ ignore
    · rw [List.filter_cons_of_neg (by simpa using h), forEach_cons]
      have e : searchStep query (ignore.foldl (fun m w => GoMap.set m w ()) GoMap.empty) it st = .ok st := by
        unfold searchStep
        rw [if_pos (by rw [ignore_get]; exact Or.inl h)]
      rw [e]
      exact ih st
    · rw [List.filter_cons_of_pos (by simpa using h), forEach_cons, forEach_cons]
      have e : searchStep query (ignore.foldl (fun m w => GoMap.set m w ()) GoMap.empty) it st =
          searchStep query GoMap.empty it st := by
        unfold searchStep
        rw [if_neg (by rw [ignore_get]; simp [h]), if_neg (by simp)]
      rw [e]
      cases searchStep query GoMap.empty it st with
      | ok st' => exact ih st'
      | err e => rfl
      | panic p => rfl

/-- **C112 (the ignored words).** A search that ignores some words returns - or fails with - exactly what the same search gives
when the items of these words are not there at all: for every query, every `k` (negative ones too), whatever the words, vectors and
norms are, and whatever the similarities are (ties, NaN, infinities). -/
theorem C112_ignore (items : List (Embedding F)) (query : Embedding F) (k : Int) (ignore : List Word) :
    (Searcher.mk items).search query k ignore =
      (Searcher.mk (items.filter (fun it => decide (it.word ∉ ignore)))).search query k [] := by
  unfold Searcher.search
  split
  · rfl
  · dsimp only [List.foldl_nil]
    rw [forEach_ignore]

theorem candidates_filter (query : Embedding F) (ignore : List Word) (keep : Word → Bool) (items : List (Embedding F)) :
    candidates query ignore (items.filter (fun it => keep it.word)) = (candidates query ignore items).filter (fun c => keep c.1) := by
  induction items with
  | nil => rfl
  | cons it items ih =>
    have e : ∀ l, candidates query ignore (it :: l) = candidates query ignore [it] ++ candidates query ignore l := by
      intro l
      unfold candidates
      rw [← List.filterMap_append]; rfl
    have hone : ∀ c ∈ candidates query ignore [it], c.1 = it.word := by
      intro c hc
      unfold candidates at hc
      rw [List.mem_filterMap] at hc
      obtain ⟨it', hit', he⟩ := hc
      rw [List.mem_singleton] at hit'
      subst hit'
      split at he
      · simp at he
      · split at he
        · split at he
          · simp only [Option.some.injEq] at he; rw [← he]
          · simp at he
        · simp at he
    rw [e items, List.filter_append, ← ih]
    by_cases h : keep it.word = true
    · rw [List.filter_cons_of_pos (p := fun it : Embedding F => keep it.word) h, e]
      have hs : (candidates query ignore [it]).filter (fun c => keep c.1) = candidates query ignore [it] :=
        List.filter_eq_self.2 (fun c hc => by rw [hone c hc]; exact h)
      rw [hs]
    · rw [List.filter_cons_of_neg (p := fun it : Embedding F => keep it.word) h]
      have hs : (candidates query ignore [it]).filter (fun c => keep c.1) = [] :=
        List.filter_eq_nil_iff.2 (fun c hc => by rw [hone c hc]; exact h)
      rw [hs]; rfl

variable [LawfulCmp F]

/-- **C112 (words that cannot be listed).** Two searches with the same query and the same `k ≥ 1` - over whatever items, ignoring
whatever words - in which the words of positive similarity are the same, with the same similarities and in the same order, list the
same neighbours. (So an item that is orthogonal to the query, or on the other side of it, is as if it were not there.) -/
theorem C112_positive (s s' : Searcher F) (query : Embedding F) (k : Int) (hk : 1 ≤ k) (ignore ignore' : List Word)
    (hw : ∀ it ∈ s.items, it.word ≠ []) (hw' : ∀ it ∈ s'.items, it.word ≠ [])
    (hc : ∀ it ∈ s.items, query.vector.length ≤ it.vector.length) (hc' : ∀ it ∈ s'.items, query.vector.length ≤ it.vector.length)
    (he : candidates query ignore s.items = candidates query ignore' s'.items) :
    ∃ res res', s.search query k ignore = .ok res ∧ s'.search query k ignore' = .ok res' ∧
      res.filter (fun n => decide (n.word ≠ [])) = res'.filter (fun n => decide (n.word ≠ [])) := by
  obtain ⟨n, rfl⟩ := Int.eq_ofNat_of_zero_le (by omega : 0 ≤ k)
  obtain ⟨res, hits, h, hf, hr, hh⟩ := search_arranged s query n (by omega) ignore hw hc
  obtain ⟨res', hits', h', hf', hr', hh'⟩ := search_arranged s' query n (by omega) ignore' hw' hc'
  refine ⟨res, res', h, h', ?_⟩
  rw [hf, hf']
  exact hits_ext (by rw [hh, hh', he]) hr hr'

/-- **C112 (removed words).** If no two words are equally similar to the query: a search over the vectors without some words (those
that `keep` rejects) lists the first `k` of the words, with the same similarities, that remain of the full list of neighbours
(asked for with any `k'` that is at least the number of items) when the removed words are struck out. -/
theorem C112_remove (items : List (Embedding F)) (keep : Word → Bool) (query : Embedding F) (k k' : Int) (hk : 1 ≤ k) (hk1 : 1 ≤ k')
    (hk' : (items.length : Int) ≤ k') (ignore : List Word)
    (hw : ∀ it ∈ items, it.word ≠ [])
    (hc : ∀ it ∈ items, query.vector.length ≤ it.vector.length)
    (hties : ∀ a ∈ candidates query ignore items, ∀ b ∈ candidates query ignore items,
      GoFloat.le a.2 b.2 = true → GoFloat.le b.2 a.2 = true → a = b) :
    ∃ res full, (Searcher.mk (items.filter (fun it => keep it.word))).search query k ignore = .ok res ∧
      (Searcher.mk items).search query k' ignore = .ok full ∧
      (res.filter (fun n => decide (n.word ≠ []))).map (fun n => (n.word, n.sim)) =
        (((full.filter (fun n => decide (n.word ≠ []))).filter (fun n => keep n.word)).map (fun n => (n.word, n.sim))).take k.toNat := by
  obtain ⟨n, rfl⟩ := Int.eq_ofNat_of_zero_le (by omega : 0 ≤ k)
  obtain ⟨m, rfl⟩ := Int.eq_ofNat_of_zero_le (by omega : 0 ≤ k')
  obtain ⟨res, hits, h, hf, -, hh⟩ := search_arranged (Searcher.mk (items.filter (fun it => keep it.word))) query n (by omega) ignore
    (fun it hit => hw it (List.mem_filter.1 hit).1) (fun it hit => hc it (List.mem_filter.1 hit).1)
  obtain ⟨full, hits', h', hf', -, hh'⟩ := search_arranged (Searcher.mk items) query m (by omega) ignore hw hc
  refine ⟨res, full, h, h', ?_⟩
  rw [hf, hf']
  dsimp only at hh hh'
  have hmap : ∀ l : List (Neighbor F), l.map (fun n => (n.word, n.sim)) = l.map Neighbor.ws := fun l => rfl
  have hfm : (hits'.filter (fun n => keep n.word)).map Neighbor.ws = (hits'.map Neighbor.ws).filter (fun c => keep c.1) := by
    rw [List.filter_map]; rfl
  rw [hmap, hmap, hfm, hh, hh', candidates_filter, Int.toNat_natCast]
  obtain ⟨p1, s1⟩ := arranged_facts (candidates query ignore items) (candidates_pos _ _ _)
  obtain ⟨p2, s2⟩ := arranged_facts ((candidates query ignore items).filter (fun c => keep c.1))
    (fun c hcm => candidates_pos _ _ _ c (List.mem_filter.1 hcm).1)
  have hlen : (arranged (candidates query ignore items)).length ≤ m := by
    rw [p1.length_eq]
    have : (candidates query ignore items).length ≤ items.length := List.length_filterMap_le _ _
    omega
  rw [List.take_of_length_le hlen]
  congr 1
  refine List.Perm.eq_of_pairwise (fun a b ha hb hab hba => ?_) s2 (List.Pairwise.filter _ s1) (p2.trans (p1.symm.filter _))
  exact hties a (List.mem_filter.1 (p2.subset ha)).1 b (p1.subset (List.mem_filter.1 hb).1) hba hab

/-- **C112 (`SearchInternal`).** The same for the neighbours of a word that is kept: `q` is the first item of this word. -/
theorem C112_remove_of_word (items pre post : List (Embedding F)) (q : Embedding F) (hi : items = pre ++ q :: post)
    (hpre : ∀ e ∈ pre, e.word ≠ q.word) (keep : Word → Bool) (hkeep : keep q.word = true)
    (k k' : Int) (hk : 1 ≤ k) (hk1 : 1 ≤ k') (hk' : (items.length : Int) ≤ k')
    (hw : ∀ it ∈ items, it.word ≠ []) (hc : ∀ a ∈ items, ∀ b ∈ items, a.vector.length = b.vector.length)
    (hties : ∀ a ∈ candidates q [q.word] items, ∀ b ∈ candidates q [q.word] items,
      GoFloat.le a.2 b.2 = true → GoFloat.le b.2 a.2 = true → a = b) :
    ∃ res full, (Searcher.mk (items.filter (fun it => keep it.word))).searchInternal q.word k = .ok res ∧
      (Searcher.mk items).searchInternal q.word k' = .ok full ∧
      (res.filter (fun n => decide (n.word ≠ []))).map (fun n => (n.word, n.sim)) =
        (((full.filter (fun n => decide (n.word ≠ []))).filter (fun n => keep n.word)).map (fun n => (n.word, n.sim))).take k.toNat := by
  have hfind : (items.filter (fun it => keep it.word)).find? (fun item => item.word = q.word) =
      items.find? (fun item => item.word = q.word) := by
    rw [List.find?_filter]
    congr 1
    funext it
    by_cases h : it.word = q.word
    · simp [h, hkeep]
    · simp [h]
  have hf : items.find? (fun item => item.word = q.word) = some q := by
    rw [hi, List.find?_append, List.find?_eq_none.2 (fun e he => by simpa using hpre e he)]
    simp
  have hq : q ∈ items := by rw [hi]; simp
  unfold Searcher.searchInternal
  dsimp only
  rw [hfind, hf]
  simp only [if_neg (hw q hq)]
  exact C112_remove items keep q k k' hk hk1 hk' [q.word] hw (fun it hit => (hc q hq it hit).le) hties

end

/-- **C112 (with ties it is false of the code).** In `tieItems` the full list is `t`, `c`, `b`; with `t` removed it is `b`, `c`: the
order of the other two has changed. -/
theorem C112_remove_false :
    ∃ res full, (Searcher.mk (tieItems.filter (fun it => decide (it.word ≠ ['t'])))).search (mkEmb "q" [1, 0]) 3 [] = .ok res ∧
      (Searcher.mk tieItems).search (mkEmb "q" [1, 0]) 3 [] = .ok full ∧
      (res.filter (fun n => decide (n.word ≠ []))).map (·.word) = [['b'], ['c']] ∧
      ((full.filter (fun n => decide (n.word ≠ []))).filter (fun n => decide (n.word ≠ ['t']))).map (·.word) = [['c'], ['b']] := by
  have h2 : ((Searcher.mk (tieItems.filter (fun it => decide (it.word ≠ ['t'])))).search (mkEmb "q" [1, 0]) 3 [] >>= fun r =>
      .ok ((r.filter (fun n => decide (n.word ≠ []))).map (·.word))) = .ok [['b'], ['c']] := by decide +kernel
  have h3 : ((Searcher.mk tieItems).search (mkEmb "q" [1, 0]) 3 [] >>= fun r =>
      .ok (((r.filter (fun n => decide (n.word ≠ []))).filter (fun n => decide (n.word ≠ ['t']))).map (·.word))) =
      .ok [['c'], ['b']] := by decide +kernel
  rw [Res.bind_eq_ok] at h2 h3
  obtain ⟨r2, e2, w2⟩ := h2
  obtain ⟨r3, e3, w3⟩ := h3
  simp only [Res.ok.injEq] at w2 w3
  exact ⟨r2, r3, e2, e3, w2, w3⟩

theorem pairwise_cases {α : Type} {R : α → α → Prop} {l : List α} (h : l.Pairwise R) {a b : α} (ha : a ∈ l) (hb : b ∈ l) :
    a = b ∨ R a b ∨ R b a := by
  induction h with
  | nil => simp at ha
  | cons h1 _ ih =>
    rcases List.mem_cons.1 ha with h | ha'
    · subst h
      rcases List.mem_cons.1 hb with h | hb'
      · exact .inl h.symm
      · exact .inr (.inl (h1 _ hb'))
    · rcases List.mem_cons.1 hb with h | hb'
      · subst h; exact .inr (.inr (h1 _ ha'))
      · exact ih ha' hb'

theorem filter_lines {other : Word → Option F64} (ls : List (List Char)) (sel : List Char → Bool) (keep : Word → Bool)
    (hs : ∀ l ∈ ls, (stripCR l).head? ≠ some ' ' → ∀ w toks, IsWords (stripCR l) (w :: toks) → sel l = keep w) (embs : List (Embedding F64))
    (h : List.Forall₂ (IsLineEmb other) ((ls.map stripCR).filter (fun l => l.head? ≠ some ' ')) embs) :
    List.Forall₂ (IsLineEmb other) (((ls.filter sel).map stripCR).filter (fun l => l.head? ≠ some ' ')) (embs.filter (fun e => keep e.word)) := by
  induction ls generalizing embs with
  | nil => cases h; exact .nil
  | cons l ls ih =>
    have ih := ih (fun m hm => hs m (by simp [hm]))
    rw [List.map_cons] at h
    by_cases hc : (stripCR l).head? = some ' '
    · rw [List.filter_cons_of_neg (by simpa using hc)] at h
      by_cases hl : sel l = true
      · rw [List.filter_cons_of_pos hl, List.map_cons, List.filter_cons_of_neg (by simpa using hc)]
        exact ih embs h
      · rw [List.filter_cons_of_neg hl]
        exact ih embs h
    · rw [List.filter_cons_of_pos (by simpa using hc)] at h
      cases h with
      | @cons _ e _ es k1 k2 =>
        obtain ⟨toks, -, q2, -⟩ := id k1
        have hse := hs l (by simp) hc e.word toks q2
        by_cases hl : sel l = true
        · rw [List.filter_cons_of_pos hl, List.map_cons, List.filter_cons_of_pos (by simpa using hc),
            List.filter_cons_of_pos (p := fun e : Embedding F64 => keep e.word) (by rw [← hse]; exact hl)]
          exact .cons k1 (ih es k2)
        · rw [List.filter_cons_of_neg hl, List.filter_cons_of_neg (p := fun e : Embedding F64 => keep e.word) (by rw [← hse]; exact hl)]
          exact ih es k2

/-- **C112 (the file).** If a vector file loads, the file without the lines of some words loads as well, and gives the same embeddings
without those of these words, in the same order. (`sel` selects the lines that stay; it may do with comment lines what it likes.) -/
theorem C112_file (other : Word → Option F64) (p q : Pass) (ls : List (List Char)) (sel : List Char → Bool) (keep : Word → Bool)
    (hp : RawLines p.text ls) (hq : RawLines q.text (ls.filter sel)) (hf : p.fails = q.fails)
    (hs : ∀ l ∈ ls, (stripCR l).head? ≠ some ' ' → ∀ w toks, IsWords (stripCR l) (w :: toks) → sel l = keep w)
    (embs : List (Embedding F64)) (h : load other p = .ok embs) :
    load other q = .ok (embs.filter (fun e => keep e.word)) := by
  obtain ⟨h1, ns, h2, h3, h4⟩ := (C52_load_iff other p embs).1 h
  obtain rfl := rawLines_unique hp h2
  exact (C52_load_iff other q _).2 ⟨hf ▸ h1, _, hq, fun m hm => h3 m (List.mem_filter.1 hm).1, filter_lines ls sel keep hs embs h4⟩

/-- **C112 (the `query` command).** If a query for `w`, asking for at least as many neighbours as the file has lines, succeeds and no two
of the neighbours it lists are equally similar, then the query for `w`, with any rank `k ≥ 1`, on the file without the lines of some
other words succeeds, and lists the first `k` of the words that remain of that list, with the same similarities. -/
theorem C112_query (other : Word → Option F64) (fs fs' : FS) (input input' : Path) (w : Word) (ls : List (List Char)) (sel : List Char → Bool)
    (keep : Word → Bool) (hkeep : keep w = true) (hp : RawLines (fs.read input) ls) (hex : fs'.exists input' = true)
    (hq : RawLines (fs'.read input') (ls.filter sel))
    (hs : ∀ l ∈ ls, (stripCR l).head? ≠ some ' ' → ∀ v toks, IsWords (stripCR l) (v :: toks) → sel l = keep v)
    (k k' : Int) (hk : 1 ≤ k) (hk' : (ls.length : Int) ≤ k') (full : List (Neighbor F64))
    (h : queryExecute other fs false false input [w] k' = .ok full)
    (hties : (full.filter (fun n => decide (n.word ≠ []))).Pairwise (fun a b => GoFloat.lt b.sim a.sim = true)) :
    ∃ res, queryExecute other fs' false false input' [w] k = .ok res ∧
      (res.filter (fun n => decide (n.word ≠ []))).map (fun n => (n.word, n.sim)) =
        (((full.filter (fun n => decide (n.word ≠ []))).filter (fun n => keep n.word)).map (fun n => (n.word, n.sim))).take k.toNat := by
  unfold queryExecute at h ⊢
  split at h
  · cases h
  rw [if_neg (by simp [hex])]
  simp only [Bool.false_eq_true, if_false] at h ⊢
  obtain ⟨embs, hl, h⟩ := Res.bind_eq_ok.1 h
  obtain ⟨s, hsn, h⟩ := Res.bind_eq_ok.1 h
  have hl' := C112_file other ⟨fs.read input, false⟩ ⟨fs'.read input', false⟩ ls sel keep hp hq rfl hs embs hl
  rw [hl', Res.ok_bind]
  have hv := C52_loaded_valid other _ embs hl
  have hd : ∀ e ∈ embs, ∀ e' ∈ embs, e.dim = e'.dim := by
    rcases new_cases embs with ⟨-, hd⟩ | ⟨hn, -⟩
    · exact hd
    · rw [hn] at hsn; cases hsn
  rw [(C53_new embs).1.2 hd] at hsn
  obtain rfl := Res.ok.inj hsn
  rw [(C53_new _).1.2 (fun a ha b hb => hd a (List.mem_filter.1 ha).1 b (List.mem_filter.1 hb).1), Res.ok_bind]
  have hlen : (embs.length : Int) ≤ k' := by
    obtain ⟨-, ns, h2, -, h4⟩ := (C52_load_iff other _ embs).1 hl
    obtain rfl := rawLines_unique hp h2
    have e1 := h4.length_eq
    have e2 := List.length_filter_le (fun l : List Char => decide (l.head? ≠ some ' ')) (ls.map stripCR)
    rw [List.length_map] at e2
    omega
  have hk1 : 1 ≤ k' := by
    by_contra hlt
    have : ls = [] := List.length_eq_zero_iff.1 (by omega)
    have hz : embs = [] := List.length_eq_zero_iff.1 (by omega)
    subst hz
    simp [Searcher.searchInternal, Embedding.zero] at h
  have hvl : ∀ a ∈ embs, ∀ b ∈ embs, a.vector.length = b.vector.length := by
    intro a ha b hb
    have x := (hv a ha).2.1; have y := (hv b hb).2.1; have := hd a ha b hb; omega
  rcases internal_cases embs hv hd w k' hk1 with ⟨-, h2⟩ | ⟨pre, q, post, h1, h2, h3, r, h4, h5⟩
  · rw [h2] at h; cases h
  have hqm : q ∈ embs := by rw [h1]; simp
  have hfull := h4.symm.trans h
  obtain rfl := Res.ok.inj hfull
  obtain ⟨n, rfl⟩ := Int.eq_ofNat_of_zero_le (by omega : 0 ≤ k')
  obtain ⟨full', hits, e1, e2, -, e3⟩ := search_arranged (Searcher.mk embs) q n (by omega) [w] (fun e he => (hv e he).1)
    (fun e he => (hvl q hqm e he).le)
  have e1 := e1.symm.trans h5
  obtain rfl := Res.ok.inj e1
  dsimp only at e3
  obtain ⟨p1, -⟩ := arranged_facts (candidates q [w] embs) (candidates_pos _ _ _)
  have hcl : (arranged (candidates q [w] embs)).length ≤ n := by
    rw [p1.length_eq]
    have : (candidates q [w] embs).length ≤ embs.length := List.length_filterMap_le _ _
    omega
  rw [List.take_of_length_le hcl] at e3
  rw [e2] at hties
  have hpw : (arranged (candidates q [w] embs)).Pairwise (fun a b => GoFloat.lt b.2 a.2 = true) := by
    rw [← e3, List.pairwise_map]; exact hties
  have hqu : ∀ a ∈ candidates q [w] embs, ∀ b ∈ candidates q [w] embs,
      GoFloat.le a.2 b.2 = true → GoFloat.le b.2 a.2 = true → a = b := by
    intro a ha b hb hab hba
    by_contra hne
    rcases pairwise_cases hpw (p1.symm.subset ha) (p1.symm.subset hb) with h | h | h
    · exact hne h
    · exact not_lt_of_le' hab h
    · exact not_lt_of_le' hba h
  subst h2
  obtain ⟨res, full', g1, g2, g3⟩ := C112_remove_of_word embs pre post q h1 h3 keep hkeep k n hk hk1 hlen (fun e he => (hv e he).1) hvl hqu
  rw [h] at g2
  obtain rfl := Res.ok.inj g2
  exact ⟨res, g1, g3⟩

/-- four items, of which `b`, `t` and `u` have different positive similarities to `[1, 0]` and `o` is orthogonal to it -/
def removeItems : List (Embedding F64) := [mkEmb "b" [1, 1], mkEmb "o" [0, 1], mkEmb "t" [1, 0], mkEmb "u" [3, 1]]

/-- `C112_remove` with `t`, the best, removed. -/
example := C112_remove removeItems (fun w => decide (w ≠ ['t'])) (mkEmb "q" [1, 0]) 2 4 (by decide) (by decide) (by decide) []
  (by decide +kernel) (by decide +kernel) (by decide +kernel)

/-- `C112_remove_of_word` for the neighbours of `u`, with `t` removed. -/
example := C112_remove_of_word removeItems [mkEmb "b" [1, 1], mkEmb "o" [0, 1], mkEmb "t" [1, 0]] [] (mkEmb "u" [3, 1]) rfl
  (by decide +kernel) (fun w => decide (w ≠ ['t'])) (by decide +kernel) 2 4 (by decide) (by decide) (by decide)
  (by decide +kernel) (by decide +kernel) (by decide +kernel)

/-- `C112_positive`: with `o`, which is orthogonal to the query, and without it. -/
example := C112_positive (Searcher.mk removeItems) (Searcher.mk [mkEmb "b" [1, 1], mkEmb "t" [1, 0], mkEmb "u" [3, 1]])
  (mkEmb "q" [1, 0]) 2 (by decide) [] [] (by decide +kernel) (by decide +kernel) (by decide +kernel) (by decide +kernel) (by decide +kernel)

/-- `C112_ignore`: searching `removeItems` while ignoring `t` and `o` finds two words. -/
example : ((Searcher.mk removeItems).search (mkEmb "q" [1, 0]) 2 [['t'], ['o']] >>= fun r => Res.ok (r.map (·.word))) =
    .ok [['u'], ['b']] := by
  rw [C112_ignore]
  decide +kernel

/-- `C112_query` meets this: the file with the words `b`, `a`, `c`; the line of `c`, the nearest neighbour of `b`, is removed. -/
example : ∃ res, queryExecute (fun _ => none)
    (fun p => if p = "v".toList then some (.file "b 1.0 0.0\na 1.0 1.0\n".toList) else none) false false "v".toList ["b".toList] 1
      = .ok res ∧ (res.filter (fun n => decide (n.word ≠ []))).map (·.word) = [['a']] := by
  have h : (match queryExecute (fun _ => none)
    (fun p => if p = "v".toList then some (.file "b 1.0 0.0\na 1.0 1.0\nc 2.0 1.0\n".toList) else none) false false "v".toList ["b".toList] 3 with
    | .ok ns => decide ((ns.filter (fun n => decide (n.word ≠ []))).Pairwise (fun a b => GoFloat.lt b.sim a.sim = true)) &&
        decide ((ns.filter (fun n => decide (n.word ≠ []))).map (·.word) = [['c'], ['a']])
    | _ => false) = true := by decide +kernel
  split at h
  · rename_i ns hns
    rw [Bool.and_eq_true, decide_eq_true_eq, decide_eq_true_eq] at h
    obtain ⟨res, h1, h2⟩ := C112_query _ _
      (fun p => if p = "v".toList then some (.file "b 1.0 0.0\na 1.0 1.0\n".toList) else none) _ "v".toList "b".toList
      ["b 1.0 0.0".toList, "a 1.0 1.0".toList, "c 2.0 1.0".toList] (fun l => decide (l.head? ≠ some 'c')) (fun w => decide (w.head? ≠ some 'c'))
      (by decide) (by
        exact .cons "b 1.0 0.0".toList _ _ (by decide) (.cons "a 1.0 1.0".toList _ _ (by decide) (.cons "c 2.0 1.0".toList [] _ (by decide) .nil)))
      (by decide) (by
        exact .cons "b 1.0 0.0".toList _ _ (by decide) (.cons "a 1.0 1.0".toList [] _ (by decide) .nil))
      (by
        intro l hl _ v toks hw
        have := hw.eq_fields
        simp only [List.mem_cons, List.not_mem_nil, or_false] at hl
        rcases hl with rfl | rfl | rfl
        · have e : fields (stripCR "b 1.0 0.0".toList) = ["b".toList, "1.0".toList, "0.0".toList] := by decide
          rw [e] at this
          rw [(List.cons.inj this).1]; decide
        · have e : fields (stripCR "a 1.0 1.0".toList) = ["a".toList, "1.0".toList, "1.0".toList] := by decide
          rw [e] at this
          rw [(List.cons.inj this).1]; decide
        · have e : fields (stripCR "c 2.0 1.0".toList) = ["c".toList, "2.0".toList, "1.0".toList] := by decide
          rw [e] at this
          rw [(List.cons.inj this).1]; decide) 1 3 (by decide) (by decide) ns hns h.1
    refine ⟨res, h1, ?_⟩
    have h3 := congrArg (List.map Prod.fst) h2
    rw [List.map_map, List.map_take, List.map_map] at h3
    have e : ∀ l : List (Neighbor F64), l.map (Prod.fst ∘ fun n => (n.word, n.sim)) = l.map (·.word) := fun l => rfl
    rw [e, e] at h3
    rw [h3]
    have hf : ((ns.filter (fun n => decide (n.word ≠ []))).filter (fun n => decide (n.word.head? ≠ some 'c'))).map (·.word) =
        ((ns.filter (fun n => decide (n.word ≠ []))).map (·.word)).filter (fun w => decide (w.head? ≠ some 'c')) := by
      rw [List.filter_map]; rfl
    rw [hf, h.2]
    decide
  · simp at h

end Wego.Props
