import Mathlib.Tactic.Ring
import Mathlib.Tactic.Linarith
import Mathlib.Tactic.FieldSimp
import Mathlib.Data.Rat.Floor
import Mathlib.Data.Real.Basic
import Mathlib.Algebra.BigOperators.Group.List.Basic
import Mathlib.Algebra.BigOperators.Ring.List
import Mathlib.Algebra.Order.BigOperators.Group.List
import Verif.Go.Res

/-! Binary trees with weighted leaves: code words, Kraft sum, and optimality of greedy merging. -/

namespace Wego

/-- Trees over node ids. -/
inductive HTree where
  | leaf (id w : Nat)
  | node (id : Nat) (l r : HTree)
  deriving DecidableEq

namespace HTree

def root : HTree → Nat
  | leaf i _ => i
  | node i _ _ => i

def weight : HTree → Nat
  | leaf _ w => w
  | node _ l r => weight l + weight r

def ids : HTree → List Nat
  | leaf i _ => [i]
  | node i l r => i :: (ids l ++ ids r)

def inner : HTree → List Nat
  | leaf _ _ => []
  | node i l r => i :: (inner l ++ inner r)

def leaves : HTree → List (Nat × Nat)
  | leaf i w => [(i, w)]
  | node _ l r => leaves l ++ leaves r

/-- For every leaf: its id, its weight, the node ids from the root to it, and its code bits. -/
structure Walk where
  leaf : Nat
  w : Nat
  path : List Nat
  bits : List Nat
  deriving DecidableEq

def Walk.down (i : Nat) (b : Nat) (x : Walk) : Walk := { x with path := i :: x.path, bits := b :: x.bits }

def walks : HTree → List Walk
  | leaf i w => [⟨i, w, [i], []⟩]
  | node i l r => (walks l).map (Walk.down i 0) ++ (walks r).map (Walk.down i 1)

/-- Sum over the leaves of weight times depth. -/
def cost : HTree → Nat
  | leaf _ _ => 0
  | node _ l r => cost l + cost r + weight l + weight r

theorem walks_leaves (t : HTree) : (walks t).map (fun x => (x.leaf, x.w)) = leaves t := by
  induction t with
  | leaf i w => rfl
  | node i l r ihl ihr =>
    simp only [walks, leaves, List.map_append, List.map_map, ← ihl, ← ihr]
    congr 1

theorem weight_eq (t : HTree) : weight t = ((leaves t).map Prod.snd).sum := by
  induction t with
  | leaf i w => simp [weight, leaves]
  | node i l r ihl ihr => simp [weight, leaves, ihl, ihr]

theorem weight_walks (t : HTree) : weight t = ((walks t).map Walk.w).sum := by
  rw [weight_eq, ← walks_leaves, List.map_map]; rfl

theorem sum_down (i b : Nat) (l : List Walk) :
    ((l.map (Walk.down i b)).map (fun x => x.w * x.bits.length)).sum =
      (l.map (fun x => x.w * x.bits.length)).sum + (l.map Walk.w).sum := by
  induction l with
  | nil => rfl
  | cons a l ih =>
    simp only [List.map_cons, List.sum_cons, ih]
    simp only [Walk.down, List.length_cons]
    ring

theorem cost_eq (t : HTree) : cost t = ((walks t).map (fun x => x.w * x.bits.length)).sum := by
  induction t with
  | leaf i w => simp [cost, walks]
  | node i l r ihl ihr =>
    simp only [cost, walks, List.map_append, List.sum_append, sum_down, ihl, ihr, weight_walks]
    ring

/-- No code word is a prefix of the code word of another leaf. -/
theorem prefix_free (t : HTree) :
    (walks t).Pairwise (fun x y => ¬ x.bits <+: y.bits ∧ ¬ y.bits <+: x.bits) := by
  induction t with
  | leaf i w => simp [walks]
  | node i l r ihl ihr =>
    simp only [walks]
    rw [List.pairwise_append]
    refine ⟨?_, ?_, ?_⟩
    · rw [List.pairwise_map]; exact ihl.imp (by intro a b h; simpa [Walk.down] using h)
    · rw [List.pairwise_map]; exact ihr.imp (by intro a b h; simpa [Walk.down] using h)
    · intro x hx y hy
      obtain ⟨x, _, rfl⟩ := List.mem_map.1 hx
      obtain ⟨y, _, rfl⟩ := List.mem_map.1 hy
      simp [Walk.down]

theorem bits_lt_two (t : HTree) : ∀ x ∈ walks t, ∀ b ∈ x.bits, b < 2 := by
  induction t with
  | leaf i w => simp [walks]
  | node i l r ihl ihr =>
    simp only [walks, List.mem_append, List.mem_map]
    rintro x (⟨y, hy, rfl⟩ | ⟨y, hy, rfl⟩)
    · simp only [Walk.down, List.mem_cons]
      rintro b (rfl | h)
      · omega
      · exact ihl y hy b h
    · simp only [Walk.down, List.mem_cons]
      rintro b (rfl | h)
      · omega
      · exact ihr y hy b h

theorem kraft (t : HTree) : ((walks t).map (fun x => (1/2 : ℚ) ^ x.bits.length)).sum = 1 := by
  induction t with
  | leaf i w => simp [walks]
  | node i l r ihl ihr =>
    have key : ∀ (b : Nat) (L : List Walk),
        ((L.map (Walk.down i b)).map (fun x => (1/2 : ℚ) ^ x.bits.length)).sum =
        1/2 * (L.map (fun x => (1/2 : ℚ) ^ x.bits.length)).sum := by
      intro b L
      induction L with
      | nil => simp
      | cons a L ih =>
        simp only [List.map_cons, List.sum_cons, ih]
        simp only [Walk.down, List.length_cons, pow_succ]; ring
    simp only [walks, List.map_append, List.sum_append, key, ihl, ihr]
    norm_num

/-- Branch probabilities: `p i` for going left at inner node `i`, `1 - p i` for going right. -/
def branchProd (p : Nat → ℝ) : List Nat → List Nat → ℝ
  | i :: path, b :: bits => (if b = 0 then p i else 1 - p i) * branchProd p path bits
  | _, _ => 1

theorem sum_branchProd (p : Nat → ℝ) (t : HTree) :
    ((walks t).map (fun x => branchProd p x.path x.bits)).sum = 1 := by
  induction t with
  | leaf i w => simp [walks, branchProd]
  | node i l r ihl ihr =>
    have key : ∀ (b : Nat) (L : List Walk),
        ((L.map (Walk.down i b)).map (fun x => branchProd p x.path x.bits)).sum =
        (if b = 0 then p i else 1 - p i) * (L.map (fun x => branchProd p x.path x.bits)).sum := by
      intro b L
      induction L with
      | nil => simp
      | cons a L ih =>
        simp only [List.map_cons, List.sum_cons, ih]
        simp only [Walk.down, branchProd]; ring
    simp only [walks, List.map_append, List.sum_append, key, ihl, ihr]
    norm_num

theorem ids_perm (t : HTree) : (ids t).Perm ((leaves t).map Prod.fst ++ inner t) := by
  induction t with
  | leaf i w => simp [ids, leaves, inner]
  | node i l r ihl ihr =>
    simp only [ids, leaves, inner, List.map_append]
    have h1 := (ihl.append ihr).cons i
    refine h1.trans ?_
    have : ((i :: (((leaves l).map Prod.fst ++ inner l) ++ ((leaves r).map Prod.fst ++ inner r)))).Perm
        (((leaves l).map Prod.fst ++ (leaves r).map Prod.fst) ++ i :: (inner l ++ inner r)) := by
      rw [List.perm_iff_count]
      intro a
      simp [List.count_append, List.count_cons]; omega
    exact this

theorem length_inner (t : HTree) : (inner t).length + 1 = (leaves t).length := by
  induction t with
  | leaf i w => simp [leaves, inner]
  | node i l r ihl ihr => simp [leaves, inner]; omega

theorem root_mem (t : HTree) : t.root ∈ ids t := by
  cases t <;> simp [ids, root]

end HTree

/-! ### Optimality of greedy merging -/

/-- total weight × length -/
def wcost (l : List (Nat × Nat)) : Nat := (l.map (fun x => x.1 * x.2)).sum

/-- Kraft sum of the lengths -/
def kr (l : List (Nat × Nat)) : ℚ := (l.map (fun x => (1/2 : ℚ) ^ x.2)).sum

@[simp] theorem wcost_cons (x : Nat × Nat) (l : List (Nat × Nat)) : wcost (x :: l) = x.1 * x.2 + wcost l := rfl
@[simp] theorem kr_cons (x : Nat × Nat) (l : List (Nat × Nat)) : kr (x :: l) = (1/2) ^ x.2 + kr l := rfl

/-- Move the largest length to the smallest weight. -/
theorem swap_max (w : Nat) (rest : List (Nat × Nat)) (L : Nat) (hw : ∀ x ∈ rest, w ≤ x.1) :
    ∃ (L' : Nat) (rest' : List (Nat × Nat)),
      rest'.map Prod.fst = rest.map Prod.fst ∧
      kr ((w, L') :: rest') = kr ((w, L) :: rest) ∧
      wcost ((w, L') :: rest') ≤ wcost ((w, L) :: rest) ∧
      L ≤ L' ∧ (∀ x ∈ rest', x.2 ≤ L') ∧
      (∀ B, L ≤ B → (∀ x ∈ rest, x.2 ≤ B) → L' ≤ B ∧ ∀ x ∈ rest', x.2 ≤ B) := by
  induction rest generalizing L with
  | nil => exact ⟨L, [], rfl, rfl, le_refl _, le_refl _, by simp, by simp⟩
  | cons y rest ih =>
    obtain ⟨v, M⟩ := y
    have hv : w ≤ v := hw (v, M) (by simp)
    have hw' : ∀ x ∈ rest, w ≤ x.1 := fun x hx => hw x (by simp [hx])
    rcases Nat.lt_or_ge L M with hLM | hML
    · obtain ⟨L', rest', h1, h2, h3, h4, h5, h6⟩ := ih M hw'
      refine ⟨L', (v, L) :: rest', by simp [h1], ?_, ?_, by omega, ?_, ?_⟩
      · simp only [kr_cons] at h2 ⊢; linarith
      · simp only [wcost_cons] at h3 ⊢
        nlinarith
      · intro x hx
        rcases List.mem_cons.1 hx with rfl | hx
        · simp; omega
        · exact h5 x hx
      · intro B hB hr
        obtain ⟨b1, b2⟩ := h6 B (hr (v, M) (by simp)) (fun x hx => hr x (by simp [hx]))
        refine ⟨b1, fun x hx => ?_⟩
        rcases List.mem_cons.1 hx with rfl | hx
        · exact hB
        · exact b2 x hx
    · obtain ⟨L', rest', h1, h2, h3, h4, h5, h6⟩ := ih L hw'
      refine ⟨L', (v, M) :: rest', by simp [h1], ?_, ?_, h4, ?_, ?_⟩
      · simp only [kr_cons] at h2 ⊢; linarith
      · simp only [wcost_cons] at h3 ⊢
        omega
      · intro x hx
        rcases List.mem_cons.1 hx with rfl | hx
        · simp; omega
        · exact h5 x hx
      · intro B hB hr
        obtain ⟨b1, b2⟩ := h6 B hB (fun x hx => hr x (by simp [hx]))
        refine ⟨b1, fun x hx => ?_⟩
        rcases List.mem_cons.1 hx with rfl | hx
        · exact hr (v, M) (by simp)
        · exact b2 x hx

/-- Lengths bounded by `m` have a Kraft sum that is a multiple of `2^-m`. -/
theorem kr_multiple (l : List (Nat × Nat)) (m : Nat) (h : ∀ x ∈ l, x.2 ≤ m) :
    ∃ K : Nat, kr l = K * (1/2 : ℚ) ^ m := by
  induction l with
  | nil => exact ⟨0, by simp [kr]⟩
  | cons x l ih =>
    obtain ⟨K, hK⟩ := ih (fun y hy => h y (by simp [hy]))
    have hx := h x (by simp)
    refine ⟨2 ^ (m - x.2) + K, ?_⟩
    rw [kr_cons, hK]
    have : (1/2 : ℚ) ^ x.2 = 2 ^ (m - x.2) * (1/2) ^ m := by
      have e : (1/2 : ℚ) ^ m = (1/2) ^ (m - x.2) * (1/2) ^ x.2 := by rw [← pow_add]; congr 1; omega
      rw [e, ← mul_assoc, ← mul_pow]; norm_num
    rw [this]; push_cast; ring

/-- The exchange step: the two smallest weights can be merged. -/
theorem merge_lengths (a b : Nat) (rest : List (Nat × Nat)) (La Lb : Nat) (hab : a ≤ b)
    (hb : ∀ x ∈ rest, b ≤ x.1) (hk : kr ((a, La) :: (b, Lb) :: rest) ≤ 1) :
    ∃ (m : Nat) (rest' : List (Nat × Nat)), rest'.map Prod.fst = rest.map Prod.fst ∧
      kr ((a + b, m) :: rest') ≤ 1 ∧
      wcost ((a + b, m) :: rest') + (a + b) ≤ wcost ((a, La) :: (b, Lb) :: rest) := by
  obtain ⟨A, r1, e1, k1, c1, _, m1, _⟩ := swap_max a ((b, Lb) :: rest) La (by
    intro x hx
    rcases List.mem_cons.1 hx with rfl | hx
    · exact hab
    · exact le_trans hab (hb x hx))
  cases r1 with
  | nil => simp at e1
  | cons y r1 =>
    obtain ⟨b', B⟩ := y
    simp only [List.map_cons, List.cons.injEq] at e1
    obtain ⟨rfl, e1⟩ := e1
    have hb1 : ∀ x ∈ r1, b' ≤ x.1 := by
      intro x hx
      have : x.1 ∈ rest.map Prod.fst := by rw [← e1]; exact List.mem_map_of_mem hx
      obtain ⟨y, hy, e⟩ := List.mem_map.1 this
      rw [← e]; exact hb y hy
    obtain ⟨B', r2, e2, k2, c2, _, m2, p2⟩ := swap_max b' r1 B hb1
    obtain ⟨hBA, _⟩ := p2 A (m1 (b', B) (by simp)) (fun x hx => m1 x (by simp [hx]))
    have hkr : kr ((a, A) :: (b', B') :: r2) ≤ 1 := by
      have h1 : kr ((a, A) :: (b', B') :: r2) = kr ((a, A) :: (b', B) :: r1) := by
        simp only [kr_cons] at k2 ⊢; linarith
      rw [h1, k1]; exact hk
    have hcost : wcost ((a, A) :: (b', B') :: r2) ≤ wcost ((a, La) :: (b', Lb) :: rest) := by
      simp only [wcost_cons] at c1 c2 ⊢; omega
    -- the common length is at least 1, and `A` may be lowered to `B'`
    obtain ⟨K, hK⟩ := kr_multiple ((b', B') :: r2) B' (by
      intro x hx
      rcases List.mem_cons.1 hx with rfl | hx
      · exact le_refl _
      · exact m2 x hx)
    have hpos : (0 : ℚ) < (1/2 : ℚ) ^ B' := by positivity
    have hposA : (0 : ℚ) < (1/2 : ℚ) ^ A := by positivity
    have hinv : (2 : ℚ) ^ B' * (1/2 : ℚ) ^ B' = 1 := by rw [← mul_pow]; norm_num
    have hKlt : K + 1 ≤ 2 ^ B' := by
      rw [kr_cons, hK] at hkr
      have : (K : ℚ) * (1/2) ^ B' < 1 := by linarith
      have h2 : (K : ℚ) < 2 ^ B' := by
        have this : (K : ℚ) * (1/2) ^ B' < 2 ^ B' * (1/2) ^ B' := by rw [hinv]; linarith
        exact lt_of_mul_lt_mul_right this (le_of_lt hpos)
      have h3 : K < 2 ^ B' := by exact_mod_cast h2
      omega
    have hlow : (1/2 : ℚ) ^ B' + kr ((b', B') :: r2) ≤ 1 := by
      rw [hK]
      have : ((K + 1 : Nat) : ℚ) ≤ ((2 ^ B' : Nat) : ℚ) := by exact_mod_cast hKlt
      push_cast at this
      calc (1/2 : ℚ) ^ B' + K * (1/2) ^ B' = (K + 1) * (1/2) ^ B' := by ring
        _ ≤ 2 ^ B' * (1/2) ^ B' := by exact mul_le_mul_of_nonneg_right this (le_of_lt hpos)
        _ = 1 := hinv
    have hB1 : 1 ≤ B' := by
      by_contra hc
      have : B' = 0 := by omega
      subst this
      have h0 : 0 ≤ kr r2 := by
        unfold kr
        apply List.sum_nonneg
        intro x hx
        obtain ⟨y, _, rfl⟩ := List.mem_map.1 hx
        positivity
      rw [kr_cons] at hlow
      norm_num at hlow
      linarith
    refine ⟨B' - 1, r2, by rw [e2, e1], ?_, ?_⟩
    · rw [kr_cons] at hlow ⊢
      have : (1/2 : ℚ) ^ (B' - 1) = 2 * (1/2) ^ B' := by
        conv_rhs => rw [show B' = (B' - 1) + 1 by omega, pow_succ]
        ring
      simp only [this] at hlow ⊢
      linarith
    · simp only [wcost_cons] at hcost ⊢
      obtain ⟨C, rfl⟩ : ∃ C, B' = C + 1 := ⟨B' - 1, by omega⟩
      have e : a * (C + 1) ≤ a * A := Nat.mul_le_mul_left a hBA
      simp only [Nat.add_sub_cancel]
      nlinarith

end Wego
