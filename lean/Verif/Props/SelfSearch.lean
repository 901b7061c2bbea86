import Verif.Props.SearchAngles
import Verif.Props.SearchRemove
import Verif.Props.SaveLoad

/-! # C115: searching by a word and searching by its vector -/

namespace Wego.Props
open Wego Spec

/-- **C115 (by word, by vector).** Searching for a word is searching for its vector among the items without the word: the same neighbours, ranks and
similarities, the same failures, in any arithmetic. (The vector is that of the first item with the word, with its norm computed as `Load` does.) -/
theorem C115_by_word {F : Type} [GoFloat F] (items pre post : List (Embedding F)) (e : Embedding F) (hsp : items = pre ++ e :: post)
    (hfirst : ∀ it ∈ pre, it.word ≠ e.word) (hw : e.word ≠ []) (hn : e.norm = norm e.vector) (k : Int) :
    (Searcher.mk items).searchInternal e.word k =
      (Searcher.mk (items.filter (fun it => decide (it.word ≠ e.word)))).searchVector e.vector k := by
  have hf : items.find? (fun it => decide (it.word = e.word)) = some e := by
    rw [hsp, List.find?_append, List.find?_eq_none.2 (by simpa using hfirst)]
    simp
  unfold Searcher.searchInternal Searcher.searchVector
  dsimp only
  rw [hf]
  dsimp only
  rw [if_neg hw, C112_ignore]
  have e1 : (fun it : Embedding F => decide (it.word ∉ [e.word])) = fun it => decide (it.word ≠ e.word) := by
    funext it; simp
  rw [e1, ← hn]
  rfl

/-- **C115 (the file).** For every word of a loaded file there is such an item. -/
theorem C115_loaded (other : Word → Option F64) (p : Pass) (embs : List (Embedding F64)) (h : load other p = .ok embs) (w : Word)
    (hw : w ∈ embs.map (·.word)) (k : Int) :
    ∃ e ∈ embs, e.word = w ∧
      (Searcher.mk embs).searchInternal w k = (Searcher.mk (embs.filter (fun it => decide (it.word ≠ w)))).searchVector e.vector k := by
  obtain ⟨-, ls, -, -, h4⟩ := (C52_load_iff other p embs).1 h
  have hv := C52_loaded_valid other p embs h
  have hnorm : ∀ e ∈ embs, e.norm = norm e.vector := by
    intro e he
    clear hv h hw
    generalize ((ls.map stripCR).filter (fun l => decide (l.head? ≠ some ' '))) = xs at h4
    induction h4 with
    | nil => simp at he
    | cons h1 _ ih =>
      rcases List.mem_cons.1 he with rfl | he
      · obtain ⟨_, _, _, _, _, h5⟩ := h1
        rw [h5]; rfl
      · exact ih he
  obtain ⟨a, ha, rfl⟩ := List.mem_map.1 hw
  have hs : (embs.find? (fun it => decide (it.word = a.word))).isSome := by
    rw [List.find?_isSome]; exact ⟨a, ha, by simp⟩
  obtain ⟨e, he⟩ := Option.isSome_iff_exists.1 hs
  obtain ⟨h1, pre, post, h2, h3⟩ := List.find?_eq_some_iff_append.1 he
  rw [decide_eq_true_eq] at h1
  have hm : e ∈ embs := by rw [h2]; simp
  refine ⟨e, hm, h1, ?_⟩
  rw [← h1]
  exact C115_by_word embs pre post e h2 (by intro it hit; have := h3 it hit; rw [h1]; simpa using this) (hv e hm).1 (hnorm e hm) k

theorem cosOf_le_one (a b : List ℝ) (h : a.length = b.length) : cosOf a b ≤ 1 := by
  obtain ⟨c, h1, -, h2, -⟩ := C59_cosine_laws a b h
  unfold CosIs at h1
  rw [norm_real, norm_real, cosine_cosOf a b h.le] at h1
  rw [Res.ok.inj h1]; exact h2

theorem cosOf_self (a : List ℝ) (h : dot a a ≠ 0) : cosOf a a = 1 := by
  unfold cosOf
  rw [if_neg (by tauto), Real.mul_self_sqrt (dot_self_nonneg a), div_self h]

/-- **C115 (a word finds itself).** In exact arithmetic, searching for the vector of a word, not all of it zero, finds a word at the first place whose
vector points in exactly the same direction, with similarity 1; all other similarities are at most 1. If no other word has a vector in this direction, it is the
word itself. -/
theorem C115_self (s : Searcher ℝ) (n : Nat) (hs : TrueItems n s) (e : Embedding ℝ) (he : e ∈ s.items) (h0 : ∃ x ∈ e.vector, x ≠ 0) (k : Int) (hk : 1 ≤ k) :
    ∃ res first rest, s.searchVector e.vector k = .ok res ∧ res.filter (fun n => decide (n.word ≠ [])) = first :: rest ∧ first.sim = 1 ∧
      (∀ m ∈ rest, m.sim ≤ 1) ∧ (∃ it ∈ s.items, it.word = first.word ∧ cosOf e.vector it.vector = 1) ∧
      ((∀ it ∈ s.items, cosOf e.vector it.vector = 1 → it.word = e.word) → first.word = e.word) := by
  obtain ⟨-, g2, -⟩ := hs e he
  have hs' : TrueItems e.vector.length s := by rw [g2]; exact hs
  have hpos : dot e.vector e.vector ≠ 0 := by
    intro hz
    obtain ⟨x, hx, hne⟩ := h0
    have : ∀ v : List ℝ, dot v v = 0 → ∀ x ∈ v, x = 0 := by
      intro v
      induction v with
      | nil => simp
      | cons y v ih =>
        intro h
        have e1 : dot (y :: v) (y :: v) = y * y + dot v v := by simp [dot]
        rw [e1] at h
        have := dot_self_nonneg v
        have hy : y * y = 0 := by nlinarith [mul_self_nonneg y]
        have hv : dot v v = 0 := by linarith
        intro x hx
        rcases List.mem_cons.1 hx with rfl | hx
        · simpa using hy
        · exact ih hv x hx
    exact hne (this _ hz x hx)
  obtain ⟨res, rest, h1, h2, h3, h4, h5, h6⟩ := C77_search_vector s e.vector hs' k hk
  have hmem : (e.word, (1 : ℝ)) ∈ (res.filter (fun n => decide (n.word ≠ []))).map (fun n => (n.word, n.sim)) ++ rest := by
    refine h2.mem_iff.2 (List.mem_filter.2 ⟨List.mem_map.2 ⟨e, he, ?_⟩, by simp⟩)
    rw [cosOf_self _ hpos]
  have hle : ∀ m ∈ res.filter (fun n => decide (n.word ≠ [])), ∃ it ∈ s.items, it.word = m.word ∧ cosOf e.vector it.vector = m.sim := by
    intro m hm
    have := h2.mem_iff.1 (List.mem_append_left _ (List.mem_map.2 ⟨m, hm, rfl⟩))
    obtain ⟨it, hit, hq⟩ := List.mem_map.1 (List.mem_filter.1 this).1
    exact ⟨it, hit, (Prod.mk.inj hq).1, (Prod.mk.inj hq).2⟩
  have hle1 : ∀ m ∈ res.filter (fun n => decide (n.word ≠ [])), m.sim ≤ 1 := by
    intro m hm
    obtain ⟨it, hit, -, h⟩ := hle m hm
    rw [← h]
    exact cosOf_le_one _ _ (hs' it hit).2.1.symm
  cases hh : res.filter (fun n => decide (n.word ≠ [])) with
  | nil =>
    rw [hh] at hmem h4
    simp only [List.map_nil, List.nil_append] at hmem
    have := h4 (List.ne_nil_of_mem hmem)
    simp at this
    omega
  | cons first tl =>
    rw [hh] at hmem h3 hle hle1 h6
    have hs1 : first.sim = 1 := by
      refine le_antisymm (hle1 first (by simp)) ?_
      rcases List.mem_append.1 hmem with hm | hm
      · obtain ⟨m, hm, hq⟩ := List.mem_map.1 hm
        rcases List.mem_cons.1 hm with rfl | hm
        · exact (Prod.mk.inj hq).2.symm.le
        · have := (List.pairwise_cons.1 h3).1 m hm
          rw [(Prod.mk.inj hq).2] at this
          exact this
      · exact h6 _ hm first (by simp)
    obtain ⟨it, hit, hw, hc⟩ := hle first (by simp)
    refine ⟨res, first, tl, h1, hh, hs1, fun m hm => hle1 m (by simp [hm]), ⟨it, hit, hw, by rw [hc, hs1]⟩, ?_⟩
    intro hu
    rw [← hw]
    exact hu it hit (by rw [hc, hs1])

/-- a searcher with three words; `a` and `b` point in different directions -/
noncomputable def selfItems : List (Embedding ℝ) :=
  [⟨['b'], 2, [0, 2], Real.sqrt (dot [0, 2] [0, 2])⟩, ⟨['a'], 2, [3, 4], Real.sqrt (dot [3, 4] [3, 4])⟩, ⟨['c'], 2, [-1, 0], Real.sqrt (dot [-1, 0] [-1, 0])⟩]

/-- `C115_self` on it: the vector of `a` finds `a` first. -/
example : ∃ res first rest, (Searcher.mk selfItems).searchVector [3, 4] 2 = .ok res ∧
    res.filter (fun n => decide (n.word ≠ [])) = first :: rest ∧ first.sim = 1 ∧ first.word = ['a'] := by
  obtain ⟨res, first, rest, h1, h2, h3, -, -, h4⟩ := C115_self (Searcher.mk selfItems) 2 (by
      intro it hit
      simp only [selfItems, List.mem_cons, List.not_mem_nil, or_false] at hit
      rcases hit with rfl | rfl | rfl <;> simp)
    ⟨['a'], 2, [3, 4], Real.sqrt (dot [3, 4] [3, 4])⟩ (by simp [selfItems]) ⟨3, by simp, by norm_num⟩ 2 (by decide)
  refine ⟨res, first, rest, h1, h2, h3, h4 ?_⟩
  intro it hit hc
  simp only [selfItems, List.mem_cons, List.not_mem_nil, or_false] at hit
  have e4 : Real.sqrt 4 = 2 := by rw [show (4 : ℝ) = 2 ^ 2 by norm_num]; exact Real.sqrt_sq (by norm_num)
  have e25 : Real.sqrt 25 = 5 := by rw [show (25 : ℝ) = 5 ^ 2 by norm_num]; exact Real.sqrt_sq (by norm_num)
  rcases hit with rfl | rfl | rfl
  · exfalso
    revert hc
    have d1 : dot [3, 4] [0, 2] = 8 := by norm_num [dot]
    have d2 : dot [3, 4] [3, 4] = 25 := by norm_num [dot]
    have d3 : dot [0, 2] [0, 2] = 4 := by norm_num [dot]
    unfold cosOf
    dsimp only
    rw [d1, d2, d3, e4, e25]
    norm_num
  · rfl
  · exfalso
    revert hc
    have d1 : dot [3, 4] [-1, 0] = -3 := by norm_num [dot]
    have d2 : dot [3, 4] [3, 4] = 25 := by norm_num [dot]
    have d3 : dot [-1, 0] [-1, 0] = 1 := by norm_num [dot]
    unfold cosOf
    dsimp only
    rw [d1, d2, d3, e25, Real.sqrt_one]
    norm_num

/-- `C115_by_word` on it. -/
example (k : Int) : (Searcher.mk selfItems).searchInternal ['a'] k =
    (Searcher.mk [⟨['b'], 2, [0, 2], Real.sqrt (dot [0, 2] [0, 2])⟩, ⟨['c'], 2, [-1, 0], Real.sqrt (dot [-1, 0] [-1, 0])⟩]).searchVector [3, 4] k :=
  C115_by_word selfItems [⟨['b'], 2, [0, 2], Real.sqrt (dot [0, 2] [0, 2])⟩] [⟨['c'], 2, [-1, 0], Real.sqrt (dot [-1, 0] [-1, 0])⟩]
    ⟨['a'], 2, [3, 4], Real.sqrt (dot [3, 4] [3, 4])⟩ rfl (by simp) (by simp) (norm_real _).symm k

/-- `C115_loaded`: a file that loads, with a word in it. -/
example : (match load (fun _ => none) ⟨"b 1.0 0.0\na 1.0 1.0\n".toList, false⟩ with
    | .ok embs => decide ("a".toList ∈ embs.map (·.word))
    | _ => false) = true := by decide +kernel

end Wego.Props
