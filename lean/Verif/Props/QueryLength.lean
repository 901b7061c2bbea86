import Verif.Props.SearchAngles
import Verif.Props.CosineF64

/-! # C117: `SearchVector` with a vector of another length -/

namespace Wego.Props
open Wego Spec

theorem dotFrom_long {F : Type} [GoFloat F] (v2 : List F) (v1 : List F) (i : Nat) (acc : F) (hi : i ≤ v2.length) (h : v2.length < i + v1.length) :
    dotFrom v2 i acc v1 = .panic .indexOutOfRange := by
  induction v1 generalizing i acc with
  | nil => simp at h; omega
  | cons x v1 ih =>
    rw [dotFrom]
    by_cases hl : i < v2.length
    · have e : idx v2 i = .ok v2[i] := by unfold idx; rw [List.getElem?_eq_getElem hl]
      rw [e, Res.ok_bind]
      exact ih _ _ (by omega) (by simp at h; omega)
    · have e : idx v2 i = .panic .indexOutOfRange := by unfold idx; rw [List.getElem?_eq_none (by omega)]
      rw [e]; rfl

/-- **C117 (longer).** If the query has more values than the stored vectors, and neither its norm nor all of theirs are zero, `SearchVector` panics: there is no
check. Any arithmetic, any number of items, any rank. -/
theorem C117_longer {F : Type} [GoFloat F] [LawfulCmp F] (s : Searcher F) (q : List F) (k : Int) (hk : 0 ≤ k) (hl : ∀ it ∈ s.items, it.vector.length < q.length)
    (hq : GoFloat.eq (norm q) fzero = false) (hex : ∃ it ∈ s.items, GoFloat.eq it.norm fzero = false) :
    s.searchVector q k = .panic .indexOutOfRange := by
  unfold Searcher.searchVector Searcher.search
  rw [if_neg (by omega)]
  dsimp only [List.foldl_nil]
  have key : ∀ (items : List (Embedding F)) (ns : List (Neighbor F)), (∀ it ∈ items, it.vector.length < q.length) →
      (∃ it ∈ items, GoFloat.eq it.norm fzero = false) →
      forEach items ⟨ns, fzero⟩ (searchStep ⟨[], 0, q, norm q⟩ GoMap.empty) = .panic .indexOutOfRange := by
    intro items ns
    induction items with
    | nil => rintro - ⟨it, h, -⟩; simp at h
    | cons it items ih =>
      intro h1 h2
      rw [forEach_cons]
      have hg : ¬ ((GoMap.empty : GoMap Word Unit).get? it.word).isSome = true := by simp
      by_cases hz : GoFloat.eq it.norm fzero = true
      · have e : searchStep ⟨[], 0, q, norm q⟩ GoMap.empty it ⟨ns, fzero⟩ = .ok ⟨ns, fzero⟩ := by
          unfold searchStep cosine
          rw [if_neg hg]
          simp only [hz, Bool.or_true, if_true, Res.ok_bind, flt_irrefl, Bool.false_eq_true, if_false]
        rw [e, Res.ok_bind]
        refine ih (fun x hx => h1 x (by simp [hx])) ?_
        obtain ⟨x, hx, hx2⟩ := h2
        rcases List.mem_cons.1 hx with rfl | hx
        · rw [hz] at hx2; cases hx2
        · exact ⟨x, hx, hx2⟩
      · have e : searchStep ⟨[], 0, q, norm q⟩ GoMap.empty it ⟨ns, fzero⟩ = .panic .indexOutOfRange := by
          unfold searchStep cosine
          rw [if_neg hg]
          have := h1 it (by simp)
          simp only [hq, hz, Bool.or_false, Bool.false_eq_true, if_false]
          rw [dotFrom_long _ _ _ _ (by omega) (by omega)]
          rfl
        rw [e]; rfl
  rw [key s.items _ hl hex]
  rfl

/-- **C117 (shorter).** In exact arithmetic a query with fewer values than the stored vectors counts as if it was filled up with zeros: same neighbours, ranks and
similarities. -/
theorem C117_shorter (s : Searcher ℝ) (n : Nat) (hs : TrueItems n s) (q : List ℝ) (hq : q.length ≤ n) (k : Int) :
    s.searchVector q k = s.searchVector (q ++ List.replicate (n - q.length) 0) k := by
  have hd : ∀ (a b : List ℝ) (m : Nat), dot (a ++ List.replicate m 0) b = dot a b := by
    intro a
    induction a with
    | nil =>
      intro b m
      simp only [List.nil_append]
      induction m generalizing b with
      | zero => simp
      | succ m ih =>
        cases b with
        | nil => simp [dot]
        | cons y b => rw [List.replicate_succ]; simp only [dot, ih]; simp [dot]
    | cons x a ih =>
      intro b m
      cases b with
      | nil => simp [dot]
      | cons y b => simp only [List.cons_append, dot, ih]
  have hd2 : dot (q ++ List.replicate (n - q.length) 0) (q ++ List.replicate (n - q.length) 0) = dot q q := by
    rw [hd, dot_comm, hd]
  have hn : norm (q ++ List.replicate (n - q.length) 0) = norm q := by rw [norm_real, norm_real, hd2]
  unfold Searcher.searchVector
  rw [hn]
  refine search_congr s.items s.items _ _ k [] ?_
  rw [List.forall₂_same]
  intro it hit
  refine ⟨rfl, ?_⟩
  dsimp only
  obtain ⟨-, h1, h2⟩ := hs it hit
  have e1 := cosine_cosOf q it.vector (by omega)
  have e2 := cosine_cosOf (q ++ List.replicate (n - q.length) 0) it.vector (by simp; omega)
  rw [hd2] at e2
  rw [h2, norm_real, e1, e2]
  unfold cosOf
  rw [hd2, hd]

/-- `C117_longer`: a query of two values on vectors with one; the item with the zero vector is passed before. -/
example : (Searcher.mk [mkEmb "z" [0], mkEmb "a" [2]]).searchVector [F64.round 1, F64.round 1] 3 = .panic .indexOutOfRange :=
  C117_longer _ _ 3 (by decide) (by decide +kernel) (by decide +kernel) ⟨mkEmb "a" [2], by simp, by decide +kernel⟩

/-- `C117_shorter`: a query of one value on vectors with two. -/
example (k : Int) : (Searcher.mk [⟨['a'], 2, [3, 4], Real.sqrt (dot [3, 4] [3, 4])⟩]).searchVector [1] k =
    (Searcher.mk [⟨['a'], 2, [3, 4], Real.sqrt (dot [3, 4] [3, 4])⟩]).searchVector [1, 0] k :=
  C117_shorter _ 2 (by intro it hit; simp only [List.mem_singleton] at hit; subst hit; simp) [1] (by simp) k

end Wego.Props
