import Verif.Props.SearchRemove
import Verif.Props.CosineF64
import Verif.Props.Query
import Verif.Model.ParseHex

/-! # C116: words with zero vectors -/

namespace Wego.Props
open Wego Spec

section
variable {F : Type} [GoFloat F] [LawfulCmp F]

theorem cosine_zero (v1 v2 : List F) (n1 n2 : F) (h : GoFloat.eq n1 fzero = true ∨ GoFloat.eq n2 fzero = true) : cosine v1 v2 n1 n2 = .ok fzero := by
  unfold cosine
  rw [if_pos (by simpa using h)]

theorem candidates_zero_query (query : Embedding F) (h0 : GoFloat.eq query.norm fzero = true) (ignore : List Word) (items : List (Embedding F)) :
    candidates query ignore items = [] := by
  unfold candidates
  rw [List.filterMap_eq_nil_iff]
  intro it _
  split
  · rfl
  · rw [cosine_zero _ _ _ _ (Or.inl h0)]
    simp [flt_irrefl]

theorem candidates_zero_item (query : Embedding F) (ignore : List Word) (items : List (Embedding F)) :
    candidates query ignore (items.filter (fun it => !GoFloat.eq it.norm fzero)) = candidates query ignore items := by
  induction items with
  | nil => rfl
  | cons it items ih =>
    by_cases h : GoFloat.eq it.norm fzero = true
    · rw [List.filter_cons_of_neg (by simp [h]), ih]
      conv_rhs => unfold candidates
      rw [List.filterMap_cons, cosine_zero _ _ _ _ (Or.inr h)]
      by_cases hi : it.word ∈ ignore
      · simp only [hi, if_true]; rfl
      · simp only [hi, if_false, flt_irrefl, Bool.false_eq_true]; rfl
    · rw [List.filter_cons_of_pos (by simp [h])]
      unfold candidates at ih ⊢
      rw [List.filterMap_cons, List.filterMap_cons, ih]

/-- **C116 (the query).** A query whose norm is zero finds no word at all. -/
theorem C116_query (s : Searcher F) (query : Embedding F) (h0 : GoFloat.eq query.norm fzero = true) (k : Int) (hk : 1 ≤ k) (ignore : List Word)
    (hw : ∀ it ∈ s.items, it.word ≠ []) (hc : ∀ it ∈ s.items, query.vector.length ≤ it.vector.length) :
    ∃ res, s.search query k ignore = .ok res ∧ ∀ n ∈ res, n.word = [] := by
  obtain ⟨res, rest, h1, h2, -⟩ := C54_search_top_k s query k hk ignore hw hc
  rw [candidates_zero_query query h0] at h2
  have := h2.eq_nil
  simp only [List.append_eq_nil_iff, List.map_eq_nil_iff, List.filter_eq_nil_iff, decide_eq_true_eq, not_not] at this
  exact ⟨res, h1, this.1⟩

/-- **C116 (the items).** An item whose norm is zero is never found, and the others are found as if it was not there. -/
theorem C116_item (items : List (Embedding F)) (query : Embedding F) (k : Int) (hk : 1 ≤ k) (ignore : List Word)
    (hw : ∀ it ∈ items, it.word ≠ []) (hc : ∀ it ∈ items, query.vector.length ≤ it.vector.length) :
    ∃ res res', (Searcher.mk items).search query k ignore = .ok res ∧
      (Searcher.mk (items.filter (fun it => !GoFloat.eq it.norm fzero))).search query k ignore = .ok res' ∧
      res.filter (fun n => decide (n.word ≠ [])) = res'.filter (fun n => decide (n.word ≠ [])) :=
  C112_positive (Searcher.mk items) (Searcher.mk (items.filter (fun it => !GoFloat.eq it.norm fzero))) query k hk ignore ignore hw
    (fun it hit => hw it (List.mem_filter.1 hit).1) hc (fun it hit => hc it (List.mem_filter.1 hit).1) (candidates_zero_item query ignore items).symm

end

/-- **C116 (which vectors).** In exact arithmetic the norm is zero only for the zero vector. -/
theorem C116_real (v : List ℝ) : GoFloat.eq (norm v) fzero = true ↔ ∀ x ∈ v, x = 0 := by
  have h : dot v v = 0 ↔ ∀ x ∈ v, x = 0 := by
    induction v with
    | nil => simp [dot]
    | cons y v ih =>
      have e1 : dot (y :: v) (y :: v) = y * y + dot v v := by simp [dot]
      rw [e1]
      constructor
      · intro h
        have := dot_self_nonneg v
        have hy : y * y = 0 := by nlinarith [mul_self_nonneg y]
        have hv : dot v v = 0 := by linarith
        intro x hx
        rcases List.mem_cons.1 hx with rfl | hx
        · simpa using hy
        · exact ih.1 hv x hx
      · intro h
        rw [ih.2 (fun x hx => h x (by simp [hx])), h y (by simp)]
        simp
  rw [real_eq, real_fzero, decide_eq_true_eq, norm_real, Real.sqrt_eq_zero (dot_self_nonneg v), h]

/-- **C116 (float64).** In float64 the norm is also zero for vectors that are not: their squares underflow. There is a file of two words with the same vector,
not zero, and neither finds the other. -/
theorem C116_float64 : ∃ text : List Char, ∃ embs : List (Embedding F64), load (goNumber goRest) ⟨text, false⟩ = .ok embs ∧
    embs.map (·.word) = [['x'], ['y']] ∧ (∀ e ∈ embs, ∀ v ∈ e.vector, GoFloat.lt (fzero : F64) v = true) ∧
    (∀ e ∈ embs, ∀ e' ∈ embs, e.vector = e'.vector) ∧ ∀ w ∈ embs.map (·.word), (Searcher.mk embs).searchInternal w 1 = .ok [] := by
  refine ⟨"x 1e-200\ny 1e-200\n".toList, match load (goNumber goRest) ⟨"x 1e-200\ny 1e-200\n".toList, false⟩ with | .ok e => e | _ => [], ?_, ?_, ?_, ?_, ?_⟩ <;>
    decide +kernel

/-- `C116_query` on two words and the query zero. -/
example := C116_query (Searcher.mk [mkEmb "a" [1, 2], mkEmb "z" [0, 0]]) (mkEmb "q" [0, 0]) (by decide +kernel) 2 (by decide) [] (by decide +kernel) (by decide +kernel)

/-- `C116_item`: `z` is not found, `a` is. -/
example : ((Searcher.mk [mkEmb "z" [0, 0], mkEmb "a" [1, 2]]).search (mkEmb "q" [1, 1]) 2 [] >>= fun r => Res.ok (r.map (·.word))) = .ok [['a']] ∧
    ∃ res res', (Searcher.mk [mkEmb "z" [0, 0], mkEmb "a" [1, 2]]).search (mkEmb "q" [1, 1]) 2 [] = .ok res ∧
      (Searcher.mk ([mkEmb "z" [0, 0], mkEmb "a" [1, 2]].filter (fun it => !GoFloat.eq it.norm fzero))).search (mkEmb "q" [1, 1]) 2 [] = .ok res' ∧
      res.filter (fun n => decide (n.word ≠ [])) = res'.filter (fun n => decide (n.word ≠ [])) :=
  ⟨by decide +kernel, C116_item _ (mkEmb "q" [1, 1]) 2 (by decide) [] (by decide +kernel) (by decide +kernel)⟩

end Wego.Props
