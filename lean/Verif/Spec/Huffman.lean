import Verif.Model.Huffman
import Mathlib.Data.Real.Basic
import Mathlib.Algebra.BigOperators.Group.List.Basic

/-! Specification vocabulary for prefix codes read off a linked tree. -/

namespace Wego.Spec
variable {F : Type}

/-- the parent pointer of node `b` -/
def parentOf (nodes : List (HNode F)) (b : Nat) : Option Nat := nodes[b]?.bind HNode.parent

/-- the `Code` of node `b` -/
def codeBit (nodes : List (HNode F)) (b : Nat) : Nat := (nodes[b]?.map HNode.code).getD 0

/-- `path` leads from a node without parent down to node `i`, each node being the parent of the next. -/
structure RootPath (nodes : List (HNode F)) (i : Nat) (path : List Nat) : Prop where
  last : path.getLast? = some i
  chain : path.IsChain (fun a b => parentOf nodes b = some a)
  root : ∀ r, path.head? = some r → r < nodes.length ∧ parentOf nodes r = none

/-- The code word along a path: the codes of all its nodes but the root. -/
def codeWord (nodes : List (HNode F)) (path : List Nat) : List Nat := path.tail.map (codeBit nodes)

/-- The path to a node is unique. -/
theorem RootPath.unique {nodes : List (HNode F)} {i : Nat} {p q : List Nat}
    (hp : RootPath nodes i p) (hq : RootPath nodes i q) : p = q := by
  suffices H : ∀ (n : Nat) (p q : List Nat) (i : Nat), p.length ≤ n → RootPath nodes i p → RootPath nodes i q → p = q from
    H _ p q i (Nat.le_refl _) hp hq
  intro n
  induction n with
  | zero =>
    intro p q i hn hp hq
    have : p = [] := List.length_eq_zero_iff.1 (by omega)
    subst this
    have := hp.last; simp at this
  | succ n ih =>
    intro p q i hn hp hq
    have hpl := hp.last
    have hql := hq.last
    rw [List.getLast?_eq_some_iff] at hpl hql
    obtain ⟨p', rfl⟩ := hpl
    obtain ⟨q', rfl⟩ := hql
    congr 1
    have up : ∀ (p' : List Nat), RootPath nodes i (p' ++ [i]) →
        (p' = [] ∧ parentOf nodes i = none) ∨ (∃ j, parentOf nodes i = some j ∧ RootPath nodes j p') := by
      intro p' h
      rcases List.eq_nil_or_concat p' with rfl | ⟨p'', j, rfl⟩
      · left; exact ⟨rfl, (h.root i (by simp)).2⟩
      · right
        have hc := h.chain
        simp only [List.concat_eq_append] at hc ⊢
        rw [List.isChain_append] at hc
        refine ⟨j, hc.2.2 j (by simp) i (by simp), ⟨by simp, hc.1, ?_⟩⟩
        intro r hr
        apply h.root r
        simp only [List.concat_eq_append, List.append_assoc]
        cases p'' with
        | nil => simpa using hr
        | cons a l => simpa using hr
    rcases up p' hp with ⟨rfl, h1⟩ | ⟨j, h1, h2⟩ <;> rcases up q' hq with ⟨rfl, h3⟩ | ⟨k, h3, h4⟩
    · rfl
    · rw [h1] at h3; simp at h3
    · rw [h1] at h3; simp at h3
    · rw [h1] at h3
      simp only [Option.some.injEq] at h3
      subst h3
      refine ih p' q' j ?_ h2 h4
      simp at hn; omega

end Wego.Spec
