import Verif.Model.Search
import Mathlib.Tactic.Positivity
import Mathlib.Tactic.FieldSimp
import Mathlib.Tactic.Linarith

/-! # C59: `searchutil.Cosine` with `embutil.Norm`, in real arithmetic -/

namespace Wego.Props
open Wego

/-- sum of the products of coordinates -/
def dot : List ℝ → List ℝ → ℝ
  | x :: a, y :: b => x * y + dot a b
  | _, _ => 0

theorem norm_real (v : List ℝ) : norm v = Real.sqrt (dot v v) := by
  have key : ∀ (v : List ℝ) (acc : ℝ), v.foldl (fun n v => n +. v *. v) acc = acc + dot v v := by
    intro v
    induction v with
    | nil => intro acc; simp [dot]
    | cons x v ih => intro acc; rw [List.foldl_cons, ih]; simp [dot]; ring
  unfold norm
  rw [key]; simp

theorem dotFrom_real (v1 : List ℝ) : ∀ (v2 pre : List ℝ) (acc : ℝ), v1.length ≤ v2.length →
    dotFrom (pre ++ v2) pre.length acc v1 = .ok (acc + dot v1 v2) := by
  induction v1 with
  | nil => intro v2 pre acc _; simp [dotFrom, dot]
  | cons x v1 ih =>
    intro v2 pre acc h
    cases v2 with
    | nil => simp at h
    | cons y v2 =>
      unfold dotFrom
      have h1 : idx (pre ++ y :: v2) pre.length = .ok y := by rw [idx_eq_ok]; simp
      rw [h1]
      have := ih v2 (pre ++ [y]) (acc +. x *. y) (by simpa using h)
      simp only [List.append_assoc, List.cons_append, List.nil_append, List.length_append,
        List.length_singleton] at this
      rw [Res.ok_bind, this]
      simp [dot]; ring

theorem dot_self_nonneg (a : List ℝ) : 0 ≤ dot a a := by
  induction a with
  | nil => simp [dot]
  | cons x a ih => simp only [dot]; nlinarith [mul_self_nonneg x]

theorem dot_comm (a b : List ℝ) : dot a b = dot b a := by
  induction a generalizing b with
  | nil => cases b <;> simp [dot]
  | cons x a ih => cases b with
    | nil => simp [dot]
    | cons y b => simp only [dot]; rw [ih]; ring

theorem dot_map_left (c : ℝ) (a b : List ℝ) : dot (a.map (c * ·)) b = c * dot a b := by
  induction a generalizing b with
  | nil => simp [dot]
  | cons x a ih => cases b with
    | nil => simp [dot]
    | cons y b => simp only [List.map_cons, dot]; rw [ih]; ring

theorem cauchy (a b : List ℝ) : dot a b ^ 2 ≤ dot a a * dot b b := by
  induction a generalizing b with
  | nil => simp [dot]
  | cons x a ih =>
    cases b with
    | nil => simp [dot]
    | cons y b =>
      have hA := dot_self_nonneg a
      have hB := dot_self_nonneg b
      have hD := ih b
      simp only [dot]
      set A := dot a a; set B := dot b b; set D := dot a b
      have h1 : 2 * (x * y * D) ≤ x * x * B + y * y * A := by
        have h2 : (2 * (x * y * D)) ^ 2 ≤ (x * x * B + y * y * A) ^ 2 := by
          have h3 : (x * y) ^ 2 * D ^ 2 ≤ (x * y) ^ 2 * (A * B) := mul_le_mul_of_nonneg_left hD (sq_nonneg _)
          nlinarith [sq_nonneg (x * x * B - y * y * A)]
        have h4 : 0 ≤ x * x * B + y * y * A := by nlinarith [mul_self_nonneg x, mul_self_nonneg y, mul_nonneg (mul_self_nonneg x) hB, mul_nonneg (mul_self_nonneg y) hA]
        exact le_trans (le_abs_self _) (abs_le_of_sq_le_sq h2 h4)
      nlinarith

theorem cosine_real (a b : List ℝ) (h : a.length ≤ b.length) :
    cosine a b (norm a) (norm b) =
      .ok (if dot a a = 0 ∨ dot b b = 0 then 0 else dot a b / Real.sqrt (dot a a) / Real.sqrt (dot b b)) := by
  unfold cosine
  have hd := dotFrom_real a b [] 0 h
  simp only [List.nil_append, List.length_nil, zero_add] at hd
  have h0 : ∀ v : List ℝ, norm v = 0 ↔ dot v v = 0 := by
    intro v; rw [norm_real, Real.sqrt_eq_zero (dot_self_nonneg v)]
  simp only [real_eq, real_fzero, Bool.or_eq_true, decide_eq_true_eq, h0]
  split
  · rfl
  · rw [hd, Res.ok_bind]; simp [norm_real]

/-- the value of `Cosine` on two vectors with the norms computed by `Norm` -/
def CosIs (a b : List ℝ) (c : ℝ) : Prop := cosine a b (norm a) (norm b) = .ok c

/-- **C59.** For real vectors of equal length, with norms computed by `Norm`: `Cosine` returns a value `c`
in `[-1, 1]`; the swapped call returns the same; it is 0 if one vector has norm 0; a vector of non-zero norm
has cosine 1 with itself; scaling the first vector by a positive factor changes nothing and negating it
negates the value. -/
theorem C59_cosine_laws (a b : List ℝ) (h : a.length = b.length) :
    ∃ c, CosIs a b c ∧ -1 ≤ c ∧ c ≤ 1 ∧ CosIs b a c ∧
      (norm a = 0 ∨ norm b = 0 → c = 0) ∧
      (norm a ≠ 0 → CosIs a a 1) ∧
      (∀ t > 0, CosIs (a.map (t * ·)) b c) ∧
      CosIs (a.map ((-1) * ·)) b (-c) := by
  have h0 : ∀ v : List ℝ, norm v = 0 ↔ dot v v = 0 := by
    intro v; rw [norm_real, Real.sqrt_eq_zero (dot_self_nonneg v)]
  have hscale : ∀ t : ℝ, dot (a.map (t * ·)) (a.map (t * ·)) = t ^ 2 * dot a a := by
    intro t; rw [dot_map_left, dot_comm, dot_map_left]; ring
  refine ⟨_, cosine_real a b (le_of_eq h), ?_, ?_, ?_, ?_, ?_, ?_, ?_⟩
  · split
    · norm_num
    · next hne =>
      push Not at hne
      have hA : 0 < dot a a := lt_of_le_of_ne (dot_self_nonneg a) (Ne.symm hne.1)
      have hB : 0 < dot b b := lt_of_le_of_ne (dot_self_nonneg b) (Ne.symm hne.2)
      rw [div_div, ← Real.sqrt_mul (le_of_lt hA), le_div_iff₀ (Real.sqrt_pos.2 (mul_pos hA hB))]
      have := Real.abs_le_sqrt (cauchy a b)
      have := (abs_le.1 this).1
      linarith
  · split
    · norm_num
    · next hne =>
      push Not at hne
      have hA : 0 < dot a a := lt_of_le_of_ne (dot_self_nonneg a) (Ne.symm hne.1)
      have hB : 0 < dot b b := lt_of_le_of_ne (dot_self_nonneg b) (Ne.symm hne.2)
      rw [div_div, ← Real.sqrt_mul (le_of_lt hA), div_le_iff₀ (Real.sqrt_pos.2 (mul_pos hA hB))]
      have := Real.abs_le_sqrt (cauchy a b)
      have := (abs_le.1 this).2
      linarith
  · unfold CosIs
    rw [cosine_real b a (le_of_eq h.symm), dot_comm b a]
    congr 1
    by_cases hc : dot a a = 0 ∨ dot b b = 0
    · rw [if_pos hc, if_pos hc.symm]
    · rw [if_neg hc, if_neg (fun h => hc h.symm), div_right_comm]
  · rw [h0, h0]
    intro hc; rw [if_pos hc]
  · intro hne
    rw [Ne, h0] at hne
    unfold CosIs
    rw [cosine_real a a (le_refl _), if_neg (by simpa using hne)]
    have hA : 0 < dot a a := lt_of_le_of_ne (dot_self_nonneg a) (Ne.symm hne)
    rw [div_div, Real.mul_self_sqrt (le_of_lt hA), div_self hne]
  · intro t ht
    unfold CosIs
    rw [cosine_real _ _ (by rw [List.length_map]; exact le_of_eq h), hscale, dot_map_left]
    congr 1
    have ht2 : (t ^ 2 * dot a a = 0 ∨ dot b b = 0) ↔ (dot a a = 0 ∨ dot b b = 0) := by
      rw [mul_eq_zero]; simp [ht.ne']
    simp only [ht2]
    split
    · rfl
    · rw [Real.sqrt_mul (sq_nonneg t), Real.sqrt_sq (le_of_lt ht), mul_div_mul_left _ _ ht.ne']
  · unfold CosIs
    rw [cosine_real _ _ (by rw [List.length_map]; exact le_of_eq h), hscale, dot_map_left]
    congr 1
    have ht2 : ((-1 : ℝ) ^ 2 * dot a a = 0 ∨ dot b b = 0) ↔ (dot a a = 0 ∨ dot b b = 0) := by
      rw [mul_eq_zero]; simp
    simp only [ht2]
    split
    · simp
    · norm_num [neg_div]

/-- `C59_cosine_laws` on (1, 2) and (3, 4). -/
example := C59_cosine_laws [1, 2] [3, 4] rfl

/-- A non-trivial instance: the vectors of the unit test have cosine 1/2. -/
example : CosIs [1, 1, 1, 1, 0, 0] [1, 1, 0, 0, 1, 1] (1 / 2) := by
  unfold CosIs
  rw [cosine_real _ _ (by simp)]
  norm_num [dot]
  have : Real.sqrt 4 = 2 := by rw [show (4 : ℝ) = 2 ^ 2 by norm_num]; exact Real.sqrt_sq (by norm_num)
  rw [this]; norm_num

end Wego.Props
