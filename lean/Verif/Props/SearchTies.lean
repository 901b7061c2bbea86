import Verif.Props.SearchOrder
import Verif.Props.Query
import Verif.Spec.TieOrder

/-! # C97, C103: the exact order of a search result, and results for different `k` -/

namespace Wego.Props
open Wego

section
variable {F : Type} [GoFloat F]

/-- the bubbling loop on an unbounded list of words and similarities -/
def bub (t : Word × F) : List (Word × F) → List (Word × F)
  | [] => [t]
  | n :: l => if GoFloat.lt n.2 t.2 then t :: bub n l else n :: bub t l

theorem bubble_ws (i : Nat) (t : Neighbor F) (ns : List (Neighbor F)) :
    (bubble i t ns).1.map Neighbor.ws = (bub t.ws (ns.map Neighbor.ws)).take ns.length := by
  induction ns generalizing i t with
  | nil => rfl
  | cons n ns ih =>
    rw [bubble.eq_def, List.map_cons, bub]
    by_cases h : GoFloat.lt n.sim t.sim = true
    · have h' : GoFloat.lt n.ws.2 t.ws.2 = true := h
      simp only [if_pos h, if_pos h', List.map_cons, ih, List.length_cons, List.take_succ_cons]
      rfl
    · have h' : ¬ GoFloat.lt n.ws.2 t.ws.2 = true := h
      simp only [if_neg h, if_neg h', List.map_cons, ih, List.length_cons, List.take_succ_cons]

theorem bub_take (t : Word × F) (l : List (Word × F)) (k : Nat) : (bub t (l.take k)).take k = (bub t l).take k := by
  induction l generalizing t k with
  | nil => simp
  | cons n l ih =>
    cases k with
    | zero => simp
    | succ k =>
      rw [List.take_succ_cons, bub, bub]
      split <;> simp only [List.take_succ_cons, ih]

theorem bub_keep (t : Word × F) (l : List (Word × F)) (k : Nat) (hk : k ≤ l.length)
    (h : ∀ y ∈ l.take k, ¬ GoFloat.lt y.2 t.2 = true) : (bub t l).take k = l.take k := by
  induction l generalizing k with
  | nil => simp at hk; subst hk; simp
  | cons n l ih =>
    cases k with
    | zero => simp
    | succ k =>
      rw [bub, if_neg (h n (by simp)), List.take_succ_cons, List.take_succ_cons,
        ih k (by simpa using hk) (fun y hy => h y (by simp [hy]))]

variable [LawfulCmp F]

theorem bub_blank (k : Nat) : bub (Neighbor.blank : Neighbor F).ws (List.replicate k (Neighbor.blank : Neighbor F).ws) =
    List.replicate (k + 1) (Neighbor.blank : Neighbor F).ws := by
  induction k with
  | zero => rfl
  | succ k ih =>
    rw [List.replicate_succ, bub, if_neg (by rw [flt_irrefl]; simp), ih]
    rfl

theorem bub_blanks (t : Word × F) (l : List (Word × F)) (k : Nat) (ht : GoFloat.lt fzero t.2 = true)
    (hl : ∀ y ∈ l, GoFloat.lt fzero y.2 = true) (hk : 1 ≤ k) :
    bub t (l ++ List.replicate k (Neighbor.blank : Neighbor F).ws) = bub t l ++ List.replicate k (Neighbor.blank : Neighbor F).ws := by
  induction l generalizing t with
  | nil =>
    obtain ⟨k, rfl⟩ : ∃ j, k = j + 1 := ⟨k - 1, by omega⟩
    have ht' : GoFloat.lt (Neighbor.blank : Neighbor F).ws.2 t.2 = true := ht
    rw [List.nil_append]
    conv_lhs => rw [List.replicate_succ, bub, if_pos ht', bub_blank]
    rfl
  | cons n l ih =>
    rw [List.cons_append, bub, bub]
    split
    · rw [ih n (hl n (by simp)) (fun y hy => hl y (by simp [hy]))]; rfl
    · rw [ih t ht (fun y hy => hl y (by simp [hy]))]; rfl

omit [LawfulCmp F] in
theorem bub_perm (t : Word × F) (l : List (Word × F)) : List.Perm (bub t l) (t :: l) := by
  induction l generalizing t with
  | nil => exact List.Perm.refl _
  | cons n l ih =>
    rw [bub]
    split
    · exact List.Perm.cons _ (ih n)
    · exact (List.Perm.cons _ (ih t)).trans (List.Perm.swap _ _ _)

theorem bub_sorted (t : Word × F) (l : List (Word × F)) (ht : IsNum t.2) (hn : ∀ n ∈ l, IsNum n.2) (hs : l.Pairwise Above) :
    (bub t l).Pairwise Above := by
  induction l generalizing t with
  | nil => simp [bub]
  | cons n l ih =>
    have hn0 := hn n (by simp)
    have hn1 : ∀ m ∈ l, IsNum m.2 := fun m hm => hn m (by simp [hm])
    rw [List.pairwise_cons] at hs
    rw [bub]
    split
    · next hlt =>
      rw [List.pairwise_cons]
      refine ⟨fun x hx => ?_, ih n hn0 hn1 hs.2⟩
      have h1 : Above t n := fle_of_lt hlt
      rcases List.mem_cons.1 ((bub_perm n l).subset hx) with rfl | hy
      · exact h1
      · exact LawfulCmp.le_trans _ _ _ (hs.1 x hy) h1
    · next hlt =>
      rw [List.pairwise_cons]
      refine ⟨fun x hx => ?_, ih t ht hn1 hs.2⟩
      rcases List.mem_cons.1 ((bub_perm t l).subset hx) with rfl | hy
      · exact fle_of_not_lt hn0 ht (by simpa using hlt)
      · exact hs.1 x hy

theorem not_lt_of_le' {x y : F} (h : GoFloat.le x y = true) : ¬ GoFloat.lt y x = true := by
  intro h2
  have hy := (LawfulCmp.lt_num _ _ h2)
  have := flt_of_lt_of_le h2 h hy.1
  rw [flt_irrefl] at this; simp at this

theorem bub_rotate (n : Word × F) (l : List (Word × F)) (hn : ∀ m ∈ n :: l, IsNum m.2) (hs : (n :: l).Pairwise Above) :
    bub n l = rotateTies (n :: l) := by
  induction l generalizing n with
  | nil => rw [rotateTies.eq_def]; simp [bub, rotateTies]
  | cons m l ih =>
    have hs1 := hs
    rw [List.pairwise_cons] at hs
    have hmn : GoFloat.le m.2 n.2 = true := hs.1 m (by simp)
    rw [bub, rotateTies.eq_def]
    simp only [List.takeWhile_cons, List.dropWhile_cons]
    by_cases hlt : GoFloat.lt m.2 n.2 = true
    · have ht : tie n m = false := by
        unfold tie
        have : GoFloat.le n.2 m.2 = false := by
          by_contra h
          exact not_lt_of_le' (by simpa using h) hlt
        rw [this]; rfl
      simp only [if_pos hlt, ht, Bool.false_eq_true, if_false, List.nil_append]
      rw [ih m (fun x hx => hn x (by simp at hx ⊢; tauto)) hs.2]
    · have ht : tie n m = true := by
        unfold tie
        rw [hmn, fle_of_not_lt (hn m (by simp)) (hn n (by simp)) (by simpa using hlt)]; rfl
      simp only [if_neg hlt, ht, if_true, List.cons_append]
      rw [ih n (fun x hx => hn x (by simp at hx ⊢; tauto)) (by
        rw [List.pairwise_cons] at hs1 ⊢
        refine ⟨fun x hx => hs1.1 x (by simp [hx]), ?_⟩
        have := hs1.2; rw [List.pairwise_cons] at this; exact this.2), rotateTies.eq_def]

theorem bub_arrive (t : Word × F) (l : List (Word × F)) (ht : IsNum t.2) (hn : ∀ m ∈ l, IsNum m.2) (hs : l.Pairwise Above) :
    bub t l = arrive l t := by
  induction l with
  | nil => simp [bub, arrive, rotateTies]
  | cons n l ih =>
    have hs1 := hs
    rw [List.pairwise_cons] at hs
    rw [bub]
    split
    · next hlt =>
      have hall : ∀ y ∈ n :: l, GoFloat.le t.2 y.2 = false := by
        intro y hy
        by_contra h
        have h : GoFloat.le t.2 y.2 = true := by simpa using h
        rcases List.mem_cons.1 hy with rfl | hy
        · exact not_lt_of_le' h hlt
        · exact not_lt_of_le' (LawfulCmp.le_trans _ _ _ h (hs.1 y hy)) hlt
      unfold arrive
      rw [List.filter_eq_nil_iff.2 (fun y hy => by rw [hall y hy]; simp), List.filter_eq_self.2 (fun y hy => by rw [hall y hy]; rfl),
        List.nil_append, bub_rotate n l hn hs1]
    · next hlt =>
      have hle : GoFloat.le t.2 n.2 = true := fle_of_not_lt (hn n (by simp)) ht (by simpa using hlt)
      rw [ih (fun m hm => hn m (by simp [hm])) hs.2]
      unfold arrive
      simp [hle]

/-- all candidates, bubbled -/
theorem arranged_facts (cs : List (Word × F)) (hp : ∀ c ∈ cs, GoFloat.lt fzero c.2 = true) :
    List.Perm (arranged cs) cs ∧ (arranged cs).Pairwise Above := by
  induction cs using List.reverseRecOn with
  | nil => exact ⟨List.Perm.refl _, List.Pairwise.nil⟩
  | append_singleton cs c ih =>
    obtain ⟨h1, h2⟩ := ih (fun x hx => hp x (by simp [hx]))
    have hn : ∀ m ∈ arranged cs, IsNum m.2 := fun m hm => (LawfulCmp.lt_num _ _ (hp m (by simp [h1.subset hm]))).2
    have hc : IsNum c.2 := (LawfulCmp.lt_num _ _ (hp c (by simp))).2
    have e : arranged (cs ++ [c]) = bub c (arranged cs) := by
      unfold arranged
      rw [List.foldl_append, List.foldl_cons, List.foldl_nil]
      exact (bub_arrive c _ hc hn h2).symm
    rw [e]
    exact ⟨(bub_perm c _).trans ((List.Perm.cons _ h1).trans (List.perm_append_singleton _ _).symm), bub_sorted c _ hc hn h2⟩

theorem arranged_snoc (cs : List (Word × F)) (c : Word × F) (hp : ∀ x ∈ cs ++ [c], GoFloat.lt fzero x.2 = true) :
    arranged (cs ++ [c]) = bub c (arranged cs) := by
  obtain ⟨h1, h2⟩ := arranged_facts cs (fun x hx => hp x (by simp [hx]))
  unfold arranged
  rw [List.foldl_append, List.foldl_cons, List.foldl_nil]
  exact (bub_arrive c _ (LawfulCmp.lt_num _ _ (hp c (by simp))).2 (fun m hm => (LawfulCmp.lt_num _ _ (hp m (by simp [h1.subset hm]))).2) h2).symm

/-- What the array of `Search` holds: the first `k` of the arrangement, then blanks. -/
def Holds' (k : Nat) (cs : List (Word × F)) (st : SearchSt F) : Prop :=
  st.neighbors.map Neighbor.ws = (arranged cs ++ List.replicate k (Neighbor.blank : Neighbor F).ws).take k

theorem searchStep_ties {k : Nat} (hk : 1 ≤ k) (query : Embedding F) (ignore : List Word) (it : Embedding F) (st st' : SearchSt F)
    (cands : List (Word × F)) (hpos : ∀ c ∈ cands, GoFloat.lt fzero c.2 = true) (hits hits' : List (Neighbor F)) (rest rest' : List (Word × F))
    (hI : SInv k cands st hits rest)
    (hst : searchStep query (ignore.foldl (fun m w => GoMap.set m w ()) GoMap.empty) it st = .ok st')
    (hI' : SInv k (cands ++ candidates query ignore [it]) st' hits' rest') (hH : Holds' k cands st) :
    Holds' k (cands ++ candidates query ignore [it]) st' := by
  have hlen : st.neighbors.length = k := by
    rw [hI.neigh, List.length_append, List.length_replicate]; have := hI.len; omega
  unfold searchStep at hst
  by_cases hig : it.word ∈ ignore
  · rw [if_pos (by rw [ignore_get]; exact Or.inl hig)] at hst
    simp only [Res.ok.injEq] at hst
    subst hst
    simpa [candidates, hig] using hH
  · rw [if_neg (by rw [ignore_get]; simp [hig])] at hst
    obtain ⟨s, hs, hst⟩ := Res.bind_eq_ok.1 hst
    by_cases hq : GoFloat.lt fzero s = true
    · have hfm : candidates query ignore [it] = [(it.word, s)] := by simp [candidates, hig, hs, hq]
      rw [hfm] at hI' ⊢
      have hp' : ∀ x ∈ cands ++ [(it.word, s)], GoFloat.lt fzero x.2 = true := by
        intro x hx
        rcases List.mem_append.1 hx with hx | hx
        · exact hpos x hx
        · simp at hx; subst hx; exact hq
      obtain ⟨hperm, hsort⟩ := arranged_facts cands hpos
      unfold Holds'
      rw [arranged_snoc _ _ hp']
      by_cases hin : GoFloat.lt st.low s = true
      · simp only [if_pos hin] at hst
        obtain ⟨lst, _, hst⟩ := Res.bind_eq_ok.1 hst
        simp only [Res.ok.injEq] at hst
        subst hst
        simp only
        rw [bubble_ws, hlen, hH, bub_take, bub_blanks _ _ _ hq (fun y hy => hpos y (hperm.subset hy)) hk]
        rfl
      · simp only [if_neg hin, Res.ok.injEq] at hst
        subst hst
        rw [hH]
        have hfull : hits.length = k := by
          rcases Nat.lt_or_ge hits.length k with hlt | hge
          · exfalso; apply hin; rw [hI.low1 hlt]; exact hq
          · have := hI.len; omega
        have hal : k ≤ (arranged cands).length := by
          rw [hperm.length_eq, ← hI.perm.length_eq]; simp; omega
        rw [List.take_append_of_le_length hal, List.take_append_of_le_length (by
          rw [(bub_perm _ _).length_eq, List.length_cons]; omega)]
        have hh : hits.map Neighbor.ws = (arranged cands).take k := by
          have := hH
          unfold Holds' at this
          rw [hI.neigh, hfull, Nat.sub_self, List.replicate_zero, List.append_nil, List.take_append_of_le_length hal] at this
          exact this
        rw [bub_keep _ _ _ hal]
        intro y hy
        rw [← hh] at hy
        obtain ⟨h, hm, rfl⟩ := List.mem_map.1 hy
        obtain ⟨lst, hl1, hl2⟩ := hI.low2 hfull
        have hnum : ∀ n ∈ hits, IsNum n.sim := fun n hn => (LawfulCmp.lt_num _ _ (hI.pos n hn)).2
        have hln := hnum lst (List.mem_of_getLast? hl1)
        have h1 : GoFloat.le s lst.sim = true := by
          refine fle_of_not_lt hln (LawfulCmp.lt_num _ _ hq).2 ?_
          rw [← hl2]; simpa using hin
        have h2 : GoFloat.le lst.sim h.sim = true := by
          obtain ⟨pre, hpre⟩ := List.getLast?_eq_some_iff.1 hl1
          have hsrt := hI.sorted
          rw [hpre, List.pairwise_append] at hsrt
          rw [hpre, List.mem_append] at hm
          rcases hm with hm | hm
          · exact hsrt.2.2 h hm lst (by simp)
          · simp only [List.mem_singleton] at hm; subst hm; exact fle_refl hln
        exact not_lt_of_le' (LawfulCmp.le_trans _ _ _ h1 h2)
    · have hfm : candidates query ignore [it] = [] := by simp [candidates, hig, hs, hq]
      rw [hfm, List.append_nil]
      rw [if_neg] at hst
      · simp only [Res.ok.injEq] at hst
        subst hst
        exact hH
      · intro hin
        apply hq
        rcases Nat.lt_or_ge hits.length k with hlt | hge
        · rw [hI.low1 hlt] at hin; exact hin
        · have hlk : hits.length = k := by have := hI.len; omega
          obtain ⟨lst, hlst, hlow⟩ := hI.low2 hlk
          have hp := hI.pos lst (List.mem_of_getLast? hlst)
          rw [hlow] at hin
          exact flt_of_lt_of_le hp (fle_of_lt hin) (LawfulCmp.lt_num _ _ hin).2

theorem search_loop_ties {k : Nat} (hk : 1 ≤ k) (query : Embedding F) (ignore : List Word)
    (items : List (Embedding F)) (st : SearchSt F) (cands : List (Word × F)) (hpos : ∀ c ∈ cands, GoFloat.lt fzero c.2 = true)
    (hits : List (Neighbor F)) (rest : List (Word × F)) (hI : SInv k cands st hits rest) (hH : Holds' k cands st)
    (hc : ∀ it ∈ items, it.word ∉ ignore → ∃ s, cosine query.vector it.vector query.norm it.norm = .ok s) :
    ∃ st' hits' rest',
      forEach items st (searchStep query (ignore.foldl (fun m w => GoMap.set m w ()) GoMap.empty)) = .ok st' ∧
      SInv k (cands ++ candidates query ignore items) st' hits' rest' ∧ Holds' k (cands ++ candidates query ignore items) st' := by
  induction items generalizing st cands hits rest with
  | nil => exact ⟨st, hits, rest, rfl, by simpa [candidates] using hI, by simpa [candidates] using hH⟩
  | cons it items ih =>
    obtain ⟨st1, hits1, rest1, h1, hI1⟩ := searchStep_inv hk query ignore it st cands hits rest hI
      (hc it (by simp))
    have hH1 := searchStep_ties hk query ignore it st st1 cands hpos hits hits1 rest rest1 hI h1 hI1 hH
    have hp1 : ∀ c ∈ cands ++ candidates query ignore [it], GoFloat.lt fzero c.2 = true := by
      intro c hcc
      rcases List.mem_append.1 hcc with h | h
      · exact hpos c h
      · exact candidates_pos _ _ _ c h
    obtain ⟨st2, hits2, rest2, h2, hI2, hH2⟩ := ih st1 _ hp1 hits1 rest1 hI1 hH1 (fun i hi => hc i (by simp [hi]))
    have e : candidates query ignore (it :: items) = candidates query ignore [it] ++ candidates query ignore items := by
      unfold candidates
      rw [← List.filterMap_append]; rfl
    refine ⟨st2, hits2, rest2, by rw [forEach_cons, h1]; exact h2, ?_, ?_⟩
    · rw [e, ← List.append_assoc]; exact hI2
    · rw [e, ← List.append_assoc]; exact hH2

/-- The hits of a search: the first `k` of the arrangement, ranked 1, 2, ... -/
theorem search_arranged (s : Searcher F) (query : Embedding F) (n : Nat) (hk' : 1 ≤ n) (ignore : List Word)
    (hw : ∀ it ∈ s.items, it.word ≠ [])
    (hc : ∀ it ∈ s.items, query.vector.length ≤ it.vector.length) :
    ∃ (res hits : List (Neighbor F)), s.search query n ignore = .ok res ∧ res.filter (fun n => decide (n.word ≠ [])) = hits ∧
      (∀ (j : Nat) h, hits[j]? = some h → h.rank = j + 1) ∧
      hits.map Neighbor.ws = (arranged (candidates query ignore s.items)).take n := by
  obtain ⟨st, hits, rest, h1, hI, hH⟩ := search_loop_ties hk' query ignore s.items _ [] (by simp) [] [] (sInv_init (F := F) hk')
    (by unfold Holds'; simp [arranged]) (fun it hit _ => cosine_ok _ _ _ _ (hc it hit))
  rw [List.nil_append] at hI hH
  obtain ⟨hnb, h⟩ := search_of_loop s query n hk' ignore hw h1 hI
  refine ⟨_, hits, h, filter_hits hits _ hnb, hI.rank, ?_⟩
  have hperm := (arranged_facts (candidates query ignore s.items) (candidates_pos _ _ _)).1
  have hH' := congrArg (List.take hits.length) hH
  rw [hI.neigh, List.map_append, List.take_left' (by simp), List.take_take, Nat.min_eq_left hI.len] at hH'
  have hle : hits.length ≤ (arranged (candidates query ignore s.items)).length := by
    rw [hperm.length_eq, ← hI.perm.length_eq]; simp
  rw [List.take_append_of_le_length hle] at hH'
  rw [hH']
  by_cases hr : rest = []
  · have hl : (arranged (candidates query ignore s.items)).length = hits.length := by
      rw [hperm.length_eq, ← hI.perm.length_eq, hr]; simp
    rw [List.take_of_length_le (by omega), List.take_of_length_le (by have := hI.len; omega)]
  · rw [hI.full hr]

/-- **C97 (the exact order).** For every `k ≥ 1`: the words and similarities in the result are the first `k` of the arrangement
of all candidates (`Spec/TieOrder`): a word is put behind those that are equally similar, and whenever a better word arrives later,
in each group of equally similar words behind it the first becomes the last - beyond place `k`: it is lost. -/
theorem C97_exact_order_partial (s : Searcher F) (query : Embedding F) (k : Int) (hk : 1 ≤ k) (ignore : List Word)
    (hw : ∀ it ∈ s.items, it.word ≠ [])
    (hc : ∀ it ∈ s.items, query.vector.length ≤ it.vector.length) :
    ∃ res, s.search query k ignore = .ok res ∧
      (res.filter (fun n => decide (n.word ≠ []))).map (fun n => (n.word, n.sim)) =
        (arranged (candidates query ignore s.items)).take k.toNat := by
  obtain ⟨n, rfl⟩ := Int.eq_ofNat_of_zero_le (by omega : 0 ≤ k)
  obtain ⟨res, hits, h, hf, -, he⟩ := search_arranged s query n (by omega) ignore hw hc
  exact ⟨res, h, by rw [hf]; exact he⟩

/-- `C97_exact_order_partial` on the items of `C97_false`: `b`, `c` tie, `t` arrives later. -/
example := C97_exact_order_partial (Searcher.mk tieItems) (mkEmb "q" [1, 0]) 3 (by decide) [] (by decide +kernel) (by decide +kernel)

/-- **C103.** Asking for more neighbours only extends the list: the entries (with their ranks and similarities) that a search with
`k` lists are the first `k` of those it lists with any `k' ≥ k`. -/
theorem C103_more_neighbours (s : Searcher F) (query : Embedding F) (k k' : Int) (hk : 1 ≤ k) (hkk : k ≤ k') (ignore : List Word)
    (hw : ∀ it ∈ s.items, it.word ≠ [])
    (hc : ∀ it ∈ s.items, query.vector.length ≤ it.vector.length) :
    ∃ res res', s.search query k ignore = .ok res ∧ s.search query k' ignore = .ok res' ∧
      res.filter (fun n => decide (n.word ≠ [])) = (res'.filter (fun n => decide (n.word ≠ []))).take k.toNat := by
  obtain ⟨n, rfl⟩ := Int.eq_ofNat_of_zero_le (by omega : 0 ≤ k)
  obtain ⟨m, rfl⟩ := Int.eq_ofNat_of_zero_le (by omega : 0 ≤ k')
  obtain ⟨res, hits, h, hf, hr, he⟩ := search_arranged s query n (by omega) ignore hw hc
  obtain ⟨res', hits', h', hf', hr', he'⟩ := search_arranged s query m (by omega) ignore hw hc
  refine ⟨res, res', h, h', ?_⟩
  rw [hf, hf', Int.toNat_natCast]
  apply hits_ext
  · rw [List.map_take, he', he, List.take_take, Nat.min_eq_left (by omega)]
  · exact hr
  · intro j x hj
    rw [List.getElem?_take] at hj
    split at hj
    · exact hr' j x hj
    · simp at hj

/-- `C103_more_neighbours` with ties, `k = 2` and `k' = 3`. -/
example := C103_more_neighbours (Searcher.mk tieItems) (mkEmb "q" [1, 0]) 2 3 (by decide) (by decide) [] (by decide +kernel) (by decide +kernel)

/-- **C103 (`SearchInternal`, the `query` command).** -/
theorem C103_more_neighbours_of_word (s : Searcher F) (w : Word) (hmem : ∃ q ∈ s.items, q.word = w) (k k' : Int) (hk : 1 ≤ k) (hkk : k ≤ k')
    (hw : ∀ it ∈ s.items, it.word ≠ []) (hc : ∀ a ∈ s.items, ∀ b ∈ s.items, a.vector.length = b.vector.length) :
    ∃ res res', s.searchInternal w k = .ok res ∧ s.searchInternal w k' = .ok res' ∧
      res.filter (fun n => decide (n.word ≠ [])) = (res'.filter (fun n => decide (n.word ≠ []))).take k.toNat := by
  unfold Searcher.searchInternal
  cases hf : s.items.find? (fun item => item.word = w) with
  | none =>
    exfalso
    obtain ⟨q, hq, he⟩ := hmem
    have := List.find?_eq_none.1 hf q hq
    simp [he] at this
  | some q =>
    have hq := List.mem_of_find?_eq_some hf
    simp only [if_neg (hw q hq)]
    exact C103_more_neighbours s q k k' hk hkk [w] hw (fun it hit => (hc q hq it hit).le)

/-- `C103_more_neighbours_of_word` for the word `t` of `tieItems`. -/
example := C103_more_neighbours_of_word (Searcher.mk tieItems) ['t'] (by decide +kernel) 1 2 (by decide) (by decide) (by decide +kernel) (by decide +kernel)

end

/-- **C103 (the `query` command).** Run with a higher rank on the same file, a query that succeeded succeeds again and lists the same
rows first. -/
theorem C103_query (other : Word → Option F64) (fs : FS) (openFails readFails : Bool) (input : Path) (args : List Word) (k k' : Int)
    (hk : 1 ≤ k) (hkk : k ≤ k') (ns : List (Neighbor F64)) (h : queryExecute other fs openFails readFails input args k = .ok ns) :
    ∃ ns', queryExecute other fs openFails readFails input args k' = .ok ns' ∧
      ns.filter (fun n => decide (n.word ≠ [])) = (ns'.filter (fun n => decide (n.word ≠ []))).take k.toNat := by
  unfold queryExecute at h ⊢
  split at h
  · simp at h
  next hm =>
  rw [if_neg hm]
  split at h
  swap
  · simp at h
  rename_i w
  split at h
  · simp at h
  next ho =>
  simp only [if_neg ho]
  obtain ⟨embs, hl, h⟩ := Res.bind_eq_ok.1 h
  obtain ⟨s, hs, h⟩ := Res.bind_eq_ok.1 h
  rw [hl, Res.ok_bind, hs, Res.ok_bind]
  have hv := C52_loaded_valid other _ embs hl
  have hdd : ∀ e ∈ embs, ∀ e' ∈ embs, e.dim = e'.dim := by
    rcases new_cases embs with ⟨-, hd⟩ | ⟨hn, -⟩
    · exact hd
    · rw [hn] at hs; cases hs
  rw [(C53_new embs).1.2 hdd] at hs
  obtain rfl := Res.ok.inj hs
  rcases internal_cases embs hv hdd w k hk with ⟨-, h2⟩ | ⟨pre, q, post, h1, h2, -, -, -, -⟩
  · rw [h2] at h; cases h
  have hq : q ∈ embs := by rw [h1]; simp
  obtain ⟨res, res', g1, g2, g3⟩ := C103_more_neighbours_of_word (⟨embs⟩ : Searcher F64) w ⟨q, hq, h2⟩ k k' hk hkk
    (fun it hit => (hv it hit).1) (fun a ha b hb => by
      have x := (hv a ha).2.1; have y := (hv b hb).2.1; have := hdd a ha b hb; omega)
  rw [h] at g1
  obtain rfl := Res.ok.inj g1
  exact ⟨res', g2, g3⟩

/-- `C103_query` meets this: on a file with three words the query for `b` with rank 1 lists `c`; with rank 2 it lists `c` and then
another word. -/
example : ∃ ns', queryExecute (fun _ => none)
    (fun p => if p = "v".toList then some (.file "b 1.0 0.0\na 1.0 1.0\nc 2.0 1.0\n".toList) else none) false false "v".toList ["b".toList] 2
      = .ok ns' ∧ (ns'.filter (fun n => decide (n.word ≠ []))).head?.map (·.word) = some ['c'] := by
  have h : (match queryExecute (fun _ => none)
    (fun p => if p = "v".toList then some (.file "b 1.0 0.0\na 1.0 1.0\nc 2.0 1.0\n".toList) else none) false false "v".toList ["b".toList] 1 with
    | .ok ns => ns.map (·.word)
    | _ => []) = [['c']] := by decide +kernel
  split at h
  · rename_i ns hns
    obtain ⟨ns', h1, h2⟩ := C103_query _ _ _ _ _ _ 1 2 (by decide) (by decide) ns hns
    refine ⟨ns', h1, ?_⟩
    rcases ns with _ | ⟨n, _ | ⟨n', ns⟩⟩
    · simp at h
    · simp only [List.map_cons, List.map_nil, List.cons.injEq, and_true] at h
      rw [List.filter_cons_of_pos (by simp [h])] at h2
      cases hf : ns'.filter (fun n => decide (n.word ≠ [])) with
      | nil => rw [hf] at h2; simp at h2
      | cons a l =>
        rw [hf] at h2
        simp at h2
        simp [← h2, h]
    · simp at h
  · simp at h

end Wego.Props
