import Mathlib.Data.List.Perm.Basic
import Verif.Spec.Search

/-! # Lemmas about `Search` -/

namespace Wego

section cmp
variable {F : Type} [GoFloat F] [LawfulCmp F]

theorem fle_refl {x : F} (h : IsNum x) : GoFloat.le x x = true :=
  (LawfulCmp.le_total x x h h).elim id id

theorem fle_of_not_lt {x y : F} (hx : IsNum x) (hy : IsNum y) (h : GoFloat.lt x y = false) :
    GoFloat.le y x = true := by
  have := LawfulCmp.lt_iff x y hx hy
  rw [h] at this
  cases hle : GoFloat.le y x with
  | true => rfl
  | false => exact absurd (this.2 hle) (by simp)

theorem fle_of_lt {x y : F} (h : GoFloat.lt x y = true) : GoFloat.le x y = true := by
  obtain ⟨hx, hy⟩ := LawfulCmp.lt_num x y h
  have := (LawfulCmp.lt_iff x y hx hy).1 h
  rcases LawfulCmp.le_total x y hx hy with h1 | h1
  · exact h1
  · rw [this] at h1; simp at h1

theorem flt_irrefl (x : F) : GoFloat.lt x x = false := by
  cases h : GoFloat.lt x x with
  | false => rfl
  | true =>
    obtain ⟨hx, _⟩ := LawfulCmp.lt_num x x h
    have := (LawfulCmp.lt_iff x x hx hx).1 h
    rw [fle_refl hx] at this; simp at this

theorem flt_of_lt_of_le {x y z : F} (h : GoFloat.lt x y = true) (h2 : GoFloat.le y z = true) (hz : IsNum z) :
    GoFloat.lt x z = true := by
  obtain ⟨hx, hy⟩ := LawfulCmp.lt_num x y h
  rw [LawfulCmp.lt_iff x z hx hz]
  cases h3 : GoFloat.le z x with
  | false => rfl
  | true =>
    have := LawfulCmp.le_trans y z x h2 h3
    rw [(LawfulCmp.lt_iff x y hx hy).1 h] at this; simp at this

end cmp

section bub
variable {F : Type} [GoFloat F]

/-- word and similarity of a neighbour -/
def Neighbor.ws (n : Neighbor F) : Word × F := (n.word, n.sim)

theorem bubble_length (i : Nat) (t : Neighbor F) (ns : List (Neighbor F)) :
    (bubble i t ns).1.length = ns.length := by
  induction ns generalizing i t with
  | nil => rfl
  | cons n ns ih => unfold bubble; split <;> simp [ih]

theorem bubble_perm (i : Nat) (t : Neighbor F) (ns : List (Neighbor F)) :
    List.Perm (((bubble i t ns).1 ++ [(bubble i t ns).2]).map Neighbor.ws) ((t :: ns).map Neighbor.ws) := by
  induction ns generalizing i t with
  | nil => simp [bubble]
  | cons n ns ih =>
    unfold bubble; split
    · simp only [List.cons_append, List.map_cons]
      exact List.Perm.cons _ (ih _ _)
    · simp only [List.cons_append, List.map_cons]
      refine List.Perm.trans (List.Perm.cons _ (ih _ _)) ?_
      simp only [List.map_cons]
      exact List.Perm.swap _ _ _

theorem bubble_append (i : Nat) (t : Neighbor F) (a b : List (Neighbor F)) :
    bubble i t (a ++ b) =
      ((bubble i t a).1 ++ (bubble (i + a.length) (bubble i t a).2 b).1,
       (bubble (i + a.length) (bubble i t a).2 b).2) := by
  induction a generalizing i t with
  | nil => simp [bubble]
  | cons n a ih =>
    simp only [List.cons_append, List.length_cons]
    rw [bubble.eq_def]
    conv => rhs; rw [bubble.eq_def i t (n :: a)]
    simp only
    split
    · rw [ih]; simp [Nat.add_assoc, Nat.add_comm 1]
    · rw [ih]; simp [Nat.add_assoc, Nat.add_comm 1]

theorem bubble_rank (i : Nat) (t : Neighbor F) (ns : List (Neighbor F))
    (h : ∀ (j : Nat) n, ns[j]? = some n → n.rank = i + j + 1) :
    ∀ (j : Nat) n, (bubble i t ns).1[j]? = some n → n.rank = i + j + 1 := by
  induction ns generalizing i t with
  | nil => simp [bubble]
  | cons m ns ih =>
    have h' : ∀ (j : Nat) n, ns[j]? = some n → n.rank = i + 1 + j + 1 := by
      intro j n hj
      have := h (j + 1) n (by simpa using hj)
      omega
    intro j n
    unfold bubble; split
    · cases j with
      | zero => intro h2; simp at h2; rw [← h2]
      | succ j => intro h2; have := ih (i + 1) m h' j n (by simpa using h2); omega
    · cases j with
      | zero => intro h2; exact h 0 n (by simpa using h2)
      | succ j => intro h2; have := ih (i + 1) t h' j n (by simpa using h2); omega

variable [LawfulCmp F]

theorem bubble_sorted (i : Nat) (t : Neighbor F) (ns : List (Neighbor F)) (ht : IsNum t.sim)
    (hn : ∀ n ∈ ns, IsNum n.sim) (hs : ns.Pairwise (fun a b => GoFloat.le b.sim a.sim = true)) :
    ((bubble i t ns).1 ++ [(bubble i t ns).2]).Pairwise (fun a b => GoFloat.le b.sim a.sim = true) := by
  induction ns generalizing i t with
  | nil => simp [bubble]
  | cons n ns ih =>
    have hn0 := hn n (by simp)
    have hn1 : ∀ n ∈ ns, IsNum n.sim := fun m hm => hn m (by simp [hm])
    rw [List.pairwise_cons] at hs
    unfold bubble; split
    · next hlt =>
      simp only [List.cons_append, List.pairwise_cons]
      refine ⟨?_, ih _ _ hn0 hn1 hs.2⟩
      intro x hx
      have : x.ws ∈ (n :: ns).map Neighbor.ws := (bubble_perm (i+1) n ns).subset (List.mem_map_of_mem hx)
      obtain ⟨y, hy, hxy⟩ := List.mem_map.1 this
      have e : x.sim = y.sim := by simpa [Neighbor.ws] using (congrArg Prod.snd hxy).symm
      rw [e]
      have h1 := fle_of_lt hlt
      rcases List.mem_cons.1 hy with rfl | hy
      · exact h1
      · exact LawfulCmp.le_trans _ _ _ (hs.1 y hy) h1
    · next hlt =>
      simp only [List.cons_append, List.pairwise_cons]
      refine ⟨?_, ih _ _ ht hn1 hs.2⟩
      intro x hx
      have : x.ws ∈ (t :: ns).map Neighbor.ws := (bubble_perm (i+1) t ns).subset (List.mem_map_of_mem hx)
      obtain ⟨y, hy, hxy⟩ := List.mem_map.1 this
      have e : x.sim = y.sim := by simpa [Neighbor.ws] using (congrArg Prod.snd hxy).symm
      rw [e]
      rcases List.mem_cons.1 hy with rfl | hy
      · exact fle_of_not_lt hn0 ht (by simpa using hlt)
      · exact hs.1 y hy

theorem bubble_blank (i m : Nat) : bubble i (Neighbor.blank : Neighbor F) (List.replicate m Neighbor.blank) =
    (List.replicate m Neighbor.blank, Neighbor.blank) := by
  induction m generalizing i with
  | zero => rfl
  | succ m ih =>
    rw [List.replicate_succ, bubble.eq_def]
    simp only [flt_irrefl, Bool.false_eq_true, if_false, ih]

theorem bubble_pos_blanks (i m : Nat) (t : Neighbor F) (h : GoFloat.lt fzero t.sim = true) :
    bubble i t (List.replicate (m + 1) Neighbor.blank) =
      ({ t with rank := i + 1 } :: List.replicate m Neighbor.blank, Neighbor.blank) := by
  rw [List.replicate_succ, bubble.eq_def]
  have h' : GoFloat.lt (Neighbor.blank : Neighbor F).sim t.sim = true := h
  simp only [if_pos h', bubble_blank]

end bub

section search
variable {F : Type} [GoFloat F]

/-- What the loop of `Search` maintains. -/
structure SInv (k : Nat) (cands : List (Word × F)) (st : SearchSt F) (hits : List (Neighbor F))
    (rest : List (Word × F)) : Prop where
  neigh : st.neighbors = hits ++ List.replicate (k - hits.length) Neighbor.blank
  len : hits.length ≤ k
  pos : ∀ h ∈ hits, GoFloat.lt fzero h.sim = true
  perm : List.Perm (hits.map Neighbor.ws ++ rest) cands
  sorted : hits.Pairwise (fun a b => GoFloat.le b.sim a.sim = true)
  best : ∀ r ∈ rest, ∀ h ∈ hits, GoFloat.le r.2 h.sim = true
  full : rest ≠ [] → hits.length = k
  rank : ∀ (j : Nat) h, hits[j]? = some h → h.rank = j + 1
  low1 : hits.length < k → st.low = fzero
  low2 : hits.length = k → ∃ h, hits.getLast? = some h ∧ st.low = h.sim

theorem ignore_get (l : List Word) (m : GoMap Word Unit) (w : Word) :
    (GoMap.get? (l.foldl (fun m w => GoMap.set m w ()) m) w).isSome = true ↔
      w ∈ l ∨ (GoMap.get? m w).isSome = true := by
  induction l generalizing m with
  | nil => simp
  | cons a l ih =>
    rw [List.foldl_cons, ih, GoMap.get?_set]
    by_cases h : a = w
    · subst h; simp
    · have h' : ¬ w = a := fun h2 => h h2.symm
      simp [h, h']

variable [LawfulCmp F]

theorem searchStep_inv {k : Nat} (hk : 1 ≤ k) (query : Embedding F) (ignore : List Word)
    (it : Embedding F) (st : SearchSt F) (cands : List (Word × F)) (hits : List (Neighbor F))
    (rest : List (Word × F)) (hI : SInv k cands st hits rest)
    (hc : it.word ∉ ignore → ∃ s, cosine query.vector it.vector query.norm it.norm = .ok s) :
    ∃ st' hits' rest', searchStep query (ignore.foldl (fun m w => GoMap.set m w ()) GoMap.empty) it st = .ok st' ∧
      SInv k (cands ++ candidates query ignore [it]) st' hits' rest' := by
  unfold searchStep
  by_cases hig : it.word ∈ ignore
  · rw [if_pos (by rw [ignore_get]; exact Or.inl hig)]
    exact ⟨st, hits, rest, rfl, by simpa [candidates, hig] using hI⟩
  · rw [if_neg (by rw [ignore_get]; simp [hig])]
    obtain ⟨s, hs⟩ := hc hig
    rw [hs]
    simp only [Res.ok_bind]
    by_cases hq : GoFloat.lt fzero s = true
    · -- qualifies
      have hfm : candidates query ignore [it] = [(it.word, s)] := by
        simp [candidates, hig, hs, hq]
      rw [hfm]
      have hsn : IsNum s := (LawfulCmp.lt_num _ _ hq).2
      have hnum : ∀ n ∈ hits, IsNum n.sim := fun n hn => (LawfulCmp.lt_num _ _ (hI.pos n hn)).2
      set t : Neighbor F := { word := it.word, rank := 0, sim := s } with ht
      have hsorted := bubble_sorted 0 t hits hsn hnum hI.sorted
      have hperm := bubble_perm 0 t hits
      have hpos : ∀ x ∈ (bubble 0 t hits).1 ++ [(bubble 0 t hits).2], GoFloat.lt fzero x.sim = true := by
        intro x hx
        have : x.ws ∈ (t :: hits).map Neighbor.ws := hperm.subset (List.mem_map_of_mem hx)
        obtain ⟨y, hy, hxy⟩ := List.mem_map.1 this
        have e : x.sim = y.sim := by simpa [Neighbor.ws] using (congrArg Prod.snd hxy).symm
        rw [e]
        rcases List.mem_cons.1 hy with rfl | hy
        · exact hq
        · exact hI.pos y hy
      have hrank := bubble_rank 0 t hits (fun j n hj => by have := hI.rank j n hj; omega)
      have hblen := bubble_length 0 t hits
      rcases Nat.lt_or_ge hits.length k with hlt | hge
      · -- room left
        have hrest : rest = [] := by
          by_contra h; have := hI.full h; omega
        subst hrest
        rw [if_pos (by rw [hI.low1 hlt]; exact hq)]
        obtain ⟨m, hm⟩ : ∃ m, k - hits.length = m + 1 := ⟨k - hits.length - 1, by omega⟩
        set d := (bubble 0 t hits).2 with hd
        set hits' : List (Neighbor F) := (bubble 0 t hits).1 ++ [{ d with rank := hits.length + 1 }] with hhits'
        have hlen' : hits'.length = hits.length + 1 := by simp [hhits', hblen]
        have hns : (bubble 0 t st.neighbors).1 = hits' ++ List.replicate (k - hits'.length) Neighbor.blank := by
          rw [hI.neigh, hm, bubble_append, ← hd, bubble_pos_blanks _ _ _ (hpos d (by simp [hd]))]
          simp only [hhits', List.append_assoc, List.cons_append, List.nil_append, Nat.zero_add]
          have : k - ((bubble 0 t hits).1 ++ [{ d with rank := hits.length + 1 }]).length = m := by
            simp [hblen]; omega
          rw [this]
        have hmapws : hits'.map Neighbor.ws = ((bubble 0 t hits).1 ++ [d]).map Neighbor.ws := by
          simp [hhits', Neighbor.ws]
        -- the last entry
        have hnslen : (bubble 0 t st.neighbors).1.length = k := by
          rw [hns, List.length_append, List.length_replicate]; omega
        have hlastlt : k - 1 < (bubble 0 t st.neighbors).1.length := by omega
        have hidx : idxI (bubble 0 t st.neighbors).1 (((bubble 0 t st.neighbors).1.length : Int) - 1) =
            .ok ((bubble 0 t st.neighbors).1[k-1]) := by
          unfold idxI
          rw [if_neg (by omega), show ((((bubble 0 t st.neighbors).1.length : Int) - 1).toNat) = k - 1 by omega,
            idx_of_lt _ _ hlastlt]
        rw [hidx]
        refine ⟨_, hits', [], rfl, ?_⟩
        refine ⟨hns, by omega, ?_, ?_, ?_, by simp, by simp, ?_, ?_, ?_⟩
        · intro h hh
          rw [hhits', List.mem_append] at hh
          rcases hh with hh | hh
          · exact hpos h (by simp [hh])
          · simp at hh; subst hh; exact hpos d (by simp [hd])
        · rw [hmapws, List.append_nil]
          refine List.Perm.trans hperm ?_
          have := hI.perm
          rw [List.append_nil] at this
          rw [List.map_cons]
          refine List.Perm.trans (List.Perm.cons _ this) ?_
          exact (List.perm_append_singleton _ _).symm
        · have : hits'.map (fun n => n.sim) = ((bubble 0 t hits).1 ++ [d]).map (fun n => n.sim) := by
            simp [hhits']
          have h1 : ((bubble 0 t hits).1 ++ [d]).map (fun n => n.sim) |>.Pairwise (fun a b => GoFloat.le b a = true) := by
            rw [List.pairwise_map]; exact hsorted
          rw [← this, List.pairwise_map] at h1
          exact h1
        · intro j h hj
          rw [hhits', List.getElem?_append] at hj
          split at hj
          · have := hrank j h hj; omega
          · next hj2 =>
            rw [List.getElem?_eq_some_iff] at hj
            obtain ⟨hj3, hj4⟩ := hj
            simp only [List.length_singleton] at hj3
            simp only [List.getElem_singleton] at hj4
            rw [← hj4]; simp only; rw [hblen] at *; omega
        · intro hlt'
          show ((bubble 0 t st.neighbors).1[k-1]).sim = fzero
          have : (bubble 0 t st.neighbors).1[k-1]? = some Neighbor.blank := by
            rw [hns, List.getElem?_append_right (by omega), List.getElem?_replicate, if_pos (by omega)]
          have h2 : (bubble 0 t st.neighbors).1[k-1] = Neighbor.blank := by
            rw [List.getElem?_eq_getElem hlastlt] at this; simpa using this
          rw [h2]; rfl
        · intro he
          refine ⟨_, ?_, rfl⟩
          have h1 : (bubble 0 t st.neighbors).1 = hits' := by
            rw [hns, he]; simp
          rw [List.getLast?_eq_getElem?, he]
          simp only [h1]
          exact List.getElem?_eq_getElem (by omega)
      · -- full
        have hlk : hits.length = k := by have := hI.len; omega
        obtain ⟨lst, hlst, hlow⟩ := hI.low2 hlk
        have hlstmem : lst ∈ hits := List.mem_of_getLast? hlst
        have hneigh : st.neighbors = hits := by rw [hI.neigh, hlk]; simp
        by_cases hin : GoFloat.lt st.low s = true
        · rw [if_pos hin, hneigh]
          set d := (bubble 0 t hits).2 with hd
          have hlastlt : k - 1 < (bubble 0 t hits).1.length := by omega
          have hidx : idxI (bubble 0 t hits).1 (((bubble 0 t hits).1.length : Int) - 1) =
              .ok ((bubble 0 t hits).1[k-1]) := by
            unfold idxI
            rw [if_neg (by omega), show ((((bubble 0 t hits).1.length : Int) - 1).toNat) = k - 1 by omega,
              idx_of_lt _ _ hlastlt]
          rw [hidx]
          refine ⟨_, (bubble 0 t hits).1, rest ++ [d.ws], rfl, ?_⟩
          rw [List.pairwise_append] at hsorted
          refine ⟨?_, by omega, ?_, ?_, hsorted.1, ?_, fun _ => by omega, ?_, by omega, ?_⟩
          · simp only; rw [hblen, hlk]; simp
          · intro h hh; exact hpos h (by simp [hh])
          · -- perm
            have h1 : List.Perm (((bubble 0 t hits).1).map Neighbor.ws ++ (rest ++ [d.ws]))
                ((((bubble 0 t hits).1 ++ [d]).map Neighbor.ws) ++ rest) := by
              rw [List.map_append, List.append_assoc]
              exact List.Perm.append_left _ (List.perm_append_comm)
            refine h1.trans ((hperm.append_right rest).trans ?_)
            rw [List.map_cons, List.cons_append]
            exact (List.Perm.cons _ hI.perm).trans (List.perm_append_singleton _ _).symm
          · intro r hr h hh
            rw [List.mem_append] at hr
            rcases hr with hr | hr
            · -- old rest: at most every old hit; every new hit is an old one or t
              have : h.ws ∈ (t :: hits).map Neighbor.ws := hperm.subset (List.mem_map_of_mem (by simp [hh]))
              obtain ⟨y, hy, hxy⟩ := List.mem_map.1 this
              have e : h.sim = y.sim := by simpa [Neighbor.ws] using (congrArg Prod.snd hxy).symm
              rw [e]
              rcases List.mem_cons.1 hy with rfl | hy
              · refine LawfulCmp.le_trans _ _ _ (hI.best r hr lst hlstmem) ?_
                rw [← hlow]; exact fle_of_lt hin
              · exact hI.best r hr y hy
            · simp only [List.mem_singleton] at hr
              subst hr
              exact hsorted.2.2 h hh d (by simp)
          · intro j h hj; have := hrank j h hj; omega
          · intro _
            refine ⟨_, ?_, rfl⟩
            rw [List.getLast?_eq_getElem?, hblen, hlk]
            exact List.getElem?_eq_getElem (by omega)
        · rw [if_neg hin]
          refine ⟨st, hits, rest ++ [(it.word, s)], rfl, ?_⟩
          refine ⟨hI.neigh, hI.len, hI.pos, ?_, hI.sorted, ?_, fun _ => hlk, hI.rank, hI.low1, hI.low2⟩
          · rw [← List.append_assoc]; exact hI.perm.append_right _
          · intro r hr h hh
            rw [List.mem_append] at hr
            rcases hr with hr | hr
            · exact hI.best r hr h hh
            · simp only [List.mem_singleton] at hr
              subst hr
              have hln : IsNum lst.sim := hnum lst hlstmem
              have h1 : GoFloat.le s lst.sim = true := by
                refine fle_of_not_lt hln hsn ?_
                rw [← hlow]; simpa using hin
              refine LawfulCmp.le_trans _ _ _ h1 ?_
              -- lst is the last
              obtain ⟨pre, hpre⟩ : ∃ pre, hits = pre ++ [lst] := by
                rw [List.getLast?_eq_some_iff] at hlst; exact hlst
              have hsrt := hI.sorted
              rw [hpre, List.pairwise_append] at hsrt
              rw [hpre, List.mem_append] at hh
              rcases hh with hh | hh
              · exact hsrt.2.2 h hh lst (by simp)
              · simp only [List.mem_singleton] at hh; subst hh; exact fle_refl hln
    · -- does not qualify
      have hfm : candidates query ignore [it] = [] := by
        simp [candidates, hig, hs, hq]
      rw [hfm, List.append_nil]
      refine ⟨st, hits, rest, ?_, hI⟩
      rw [if_neg]
      intro hin
      apply hq
      rcases Nat.lt_or_ge hits.length k with hlt | hge
      · rw [hI.low1 hlt] at hin; exact hin
      · have hlk : hits.length = k := by have := hI.len; omega
        obtain ⟨lst, hlst, hlow⟩ := hI.low2 hlk
        have hp := hI.pos lst (List.mem_of_getLast? hlst)
        rw [hlow] at hin
        exact flt_of_lt_of_le hp (fle_of_lt hin) (LawfulCmp.lt_num _ _ hin).2

theorem search_loop {k : Nat} (hk : 1 ≤ k) (query : Embedding F) (ignore : List Word)
    (items : List (Embedding F)) (st : SearchSt F) (cands : List (Word × F)) (hits : List (Neighbor F))
    (rest : List (Word × F)) (hI : SInv k cands st hits rest)
    (hc : ∀ it ∈ items, it.word ∉ ignore → ∃ s, cosine query.vector it.vector query.norm it.norm = .ok s) :
    ∃ st' hits' rest',
      forEach items st (searchStep query (ignore.foldl (fun m w => GoMap.set m w ()) GoMap.empty)) = .ok st' ∧
      SInv k (cands ++ candidates query ignore items) st' hits' rest' := by
  induction items generalizing st cands hits rest with
  | nil => exact ⟨st, hits, rest, rfl, by simpa [candidates] using hI⟩
  | cons it items ih =>
    obtain ⟨st1, hits1, rest1, h1, hI1⟩ := searchStep_inv hk query ignore it st cands hits rest hI
      (hc it (by simp))
    obtain ⟨st2, hits2, rest2, h2, hI2⟩ := ih st1 _ hits1 rest1 hI1 (fun i hi => hc i (by simp [hi]))
    refine ⟨st2, hits2, rest2, by rw [forEach_cons, h1]; exact h2, ?_⟩
    have e : candidates query ignore (it :: items) = candidates query ignore [it] ++ candidates query ignore items := by
      unfold candidates
      rw [← List.filterMap_append]; rfl
    rw [e, ← List.append_assoc]; exact hI2

omit [LawfulCmp F] in
theorem sInv_init {k : Nat} (hk : 1 ≤ k) :
    SInv k ([] : List (Word × F)) { neighbors := List.replicate k Neighbor.blank, low := fzero } [] [] := by
  refine ⟨by simp, by simp, by simp, by simp, by simp, by simp, by simp, by simp, by simp, ?_⟩
  intro h; simp at h; omega

end search
end Wego
