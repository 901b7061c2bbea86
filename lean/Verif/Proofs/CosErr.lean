import Verif.Proofs.F64Err
import Verif.Props.Cosine
import Mathlib.Algebra.BigOperators.Group.List.Basic

/-! Error of the loops of `embutil.Norm` and `searchutil.Cosine` in binary64. -/

namespace Wego
namespace F64

/-- the accumulation loop of both functions -/
def foldDot (l : List (F64 × F64)) (acc : F64) : F64 := l.foldl (fun d p => add d (mul p.1 p.2)) acc

/-- sum of the exact products -/
noncomputable def exSum (l : List (F64 × F64)) : ℝ := (l.map fun p => toReal p.1 * toReal p.2).sum
/-- sum of the magnitudes of the exact products, each padded by the smallest normal double -/
noncomputable def padSum (l : List (F64 × F64)) : ℝ := (l.map fun p => |toReal p.1 * toReal p.2| + sg).sum

theorem padSum_nonneg (l : List (F64 × F64)) : 0 ≤ padSum l := by
  unfold padSum
  apply List.sum_nonneg
  intro x hx
  obtain ⟨p, _, rfl⟩ := List.mem_map.1 hx
  have := sg_pos
  have := abs_nonneg (toReal p.1 * toReal p.2)
  linarith

theorem foldDot_err (l : List (F64 × F64)) : ∀ (acc : F64) (s S : ℝ) (j : Nat), IsFin acc →
    |toReal acc - s| ≤ ((1 + uu) ^ (j + 1) - 1) * S → |s| ≤ S →
    (∀ p ∈ l, IsFin p.1 ∧ IsFin p.2) →
    (1 + uu) ^ (j + 1 + l.length) * (S + padSum l) < 2 ^ 1023 →
    IsFin (foldDot l acc) ∧
    |toReal (foldDot l acc) - (s + exSum l)| ≤ ((1 + uu) ^ (j + 1 + l.length) - 1) * (S + padSum l) := by
  induction l with
  | nil =>
    intro acc s S j hf he hs _ _
    refine ⟨hf, ?_⟩
    simpa [foldDot, exSum, padSum] using he
  | cons p l ih =>
    intro acc s S j hf he hs hfin hB
    have hu := uu_pos
    have hsg := sg_pos
    obtain ⟨hx, hy⟩ := hfin p (by simp)
    set XY := toReal p.1 * toReal p.2 with hXY
    set w := |XY| + sg with hw
    have hw0 : 0 < w := by have := abs_nonneg XY; linarith
    have hS0 : 0 ≤ S := le_trans (abs_nonneg _) hs
    set g := (1 + uu) ^ (j + 1) with hg
    have hg1 : 1 + uu ≤ g := by
      rw [hg, pow_succ]
      have : 1 ≤ (1 + uu) ^ j := one_le_pow₀ (by linarith)
      nlinarith
    have hpad : padSum (p :: l) = w + padSum l := by simp [padSum, hw, hXY]
    have hex : exSum (p :: l) = XY + exSum l := by simp [exSum, hXY]
    have hpl := padSum_nonneg l
    have hbig : (g * (S + w) : ℝ) < 2 ^ 1023 := by
      refine lt_of_le_of_lt ?_ hB
      apply mul_le_mul
      · rw [hg]; exact pow_le_pow_right₀ (by linarith) (by omega)
      · rw [hpad]; linarith
      · linarith
      · exact pow_nonneg (by linarith) _
    have hXYw : |XY| ≤ w := by linarith
    have hm := mul_err p.1 p.2 hx hy (by
      rw [← hXY]
      refine lt_of_le_of_lt ?_ hbig
      nlinarith)
    obtain ⟨hmf, hme⟩ := hm
    rw [← hXY, ← hw] at hme
    have hd : |toReal acc| ≤ g * S := by
      have := abs_sub_abs_le_abs_sub (toReal acc) s
      have e : g * S = (g - 1) * S + S := by ring
      linarith
    have hp : |toReal (mul p.1 p.2)| ≤ (1 + uu) * w := by
      have := abs_sub_abs_le_abs_sub (toReal (mul p.1 p.2)) XY
      linarith
    have hdp : |toReal acc + toReal (mul p.1 p.2)| ≤ g * S + (1 + uu) * w :=
      le_trans (abs_add_le _ _) (by linarith)
    obtain ⟨haf, hae⟩ := add_err acc (mul p.1 p.2) hf hmf (by
      refine lt_of_le_of_lt hdp (lt_of_le_of_lt ?_ hbig)
      nlinarith)
    have hstep : |toReal (add acc (mul p.1 p.2)) - (s + XY)| ≤ ((1 + uu) ^ (j + 1 + 1) - 1) * (S + w) := by
      have e : toReal (add acc (mul p.1 p.2)) - (s + XY) =
          (toReal (add acc (mul p.1 p.2)) - (toReal acc + toReal (mul p.1 p.2))) + (toReal acc - s) +
          (toReal (mul p.1 p.2) - XY) := by ring
      rw [e]
      refine le_trans (abs_add_le _ _) ?_
      refine le_trans (add_le_add (abs_add_le _ _) (le_refl _)) ?_
      have h1 := mul_le_mul_of_nonneg_left hdp (le_of_lt hu)
      rw [pow_succ, ← hg]
      nlinarith [mul_nonneg (mul_nonneg (sub_nonneg.2 hg1) (by linarith : (0 : ℝ) ≤ 1 + uu)) (le_of_lt hw0)]
    have hsw : |s + XY| ≤ S + w := le_trans (abs_add_le _ _) (by linarith)
    obtain ⟨r1, r2⟩ := ih (add acc (mul p.1 p.2)) (s + XY) (S + w) (j + 1) haf hstep hsw
      (fun q hq => hfin q (List.mem_cons_of_mem _ hq)) (by
        have e1 : j + 1 + 1 + l.length = j + 1 + (p :: l).length := by simp; omega
        rw [e1]
        have e2 : S + w + padSum l = S + padSum (p :: l) := by rw [hpad]; ring
        rw [e2]; exact hB)
    refine ⟨r1, ?_⟩
    have e1 : j + 1 + (p :: l).length = j + 1 + 1 + l.length := by simp; omega
    rw [e1, hpad, hex]
    have e2 : s + (XY + exSum l) = s + XY + exSum l := by ring
    have e3 : S + (w + padSum l) = S + w + padSum l := by ring
    rw [e2, e3]
    exact r2

theorem fzero_fin : IsFin (fzero : F64) ∧ toReal (fzero : F64) = 0 := by
  have h := round_rel 0 false (by simp) 0 (by simp)
  refine ⟨h.1, ?_⟩
  have h2 := h.2
  simp only [Rat.cast_zero, sub_zero, abs_zero, mul_zero] at h2
  exact abs_nonpos_iff.1 h2

theorem foldDot_zero (l : List (F64 × F64)) (hfin : ∀ p ∈ l, IsFin p.1 ∧ IsFin p.2)
    (hB : (1 + uu) ^ (l.length + 1) * padSum l < 2 ^ 1023) :
    IsFin (foldDot l fzero) ∧
    |toReal (foldDot l fzero) - exSum l| ≤ ((1 + uu) ^ (l.length + 1) - 1) * padSum l := by
  have h := foldDot_err l fzero 0 0 0 fzero_fin.1 (by rw [fzero_fin.2]; simp) (by simp) hfin (by
    rw [zero_add, zero_add, add_comm 1 l.length]; exact hB)
  rw [zero_add, zero_add, zero_add, add_comm 1 l.length] at h
  exact h

/-- `(1 + u)^m` stays close to `1 + m u`. -/
theorem pow_bound (m : Nat) (h : (m : ℝ) * uu ≤ 1 / 17) : (1 + uu) ^ m ≤ 1 + 17 / 16 * (m * uu) := by
  have hu := uu_pos
  induction m with
  | zero => simp
  | succ m ih =>
    push_cast at h ⊢
    have hm : (m : ℝ) * uu ≤ 1 / 17 := by nlinarith
    have := ih hm
    rw [pow_succ]
    have h2 := mul_le_mul_of_nonneg_right this (by linarith : (0 : ℝ) ≤ 1 + uu)
    have h3 : (m : ℝ) * uu * uu ≤ 1 / 17 * uu := mul_le_mul_of_nonneg_right hm (le_of_lt hu)
    nlinarith

/-- an approximation with a mixed error is an exact factor and an exact remainder -/
theorem mixed_split (y q u t : ℝ) (ht : 0 < t) (h : |y - q| ≤ u * (|q| + t)) :
    ∃ d r, |d| ≤ u ∧ |r| ≤ u * t ∧ y = q * (1 + d) + r := by
  have hpos : 0 < |q| + t := by have := abs_nonneg q; linarith
  set r := (y - q) / (|q| + t) with hr
  have hr1 : |r| ≤ u := by
    rw [hr, abs_div, abs_of_pos hpos, div_le_iff₀ hpos]; exact h
  have e : y - q = r * |q| + r * t := by rw [hr]; field_simp
  have hrt : |r * t| ≤ u * t := by
    rw [abs_mul, abs_of_pos ht]; exact mul_le_mul_of_nonneg_right hr1 (le_of_lt ht)
  rcases le_total 0 q with h0 | h0
  · rw [abs_of_nonneg h0] at e
    exact ⟨r, r * t, hr1, hrt, by linarith⟩
  · rw [abs_of_nonpos h0] at e
    exact ⟨-r, r * t, by rw [abs_neg]; exact hr1, hrt, by linarith⟩

theorem rel_split (y q u : ℝ) (hq : 0 < q) (h : |y - q| ≤ u * q) : ∃ d, |d| ≤ u ∧ y = q * (1 + d) := by
  refine ⟨(y - q) / q, ?_, by field_simp; ring⟩
  rw [abs_div, abs_of_pos hq, div_le_iff₀ hq]; exact h

/-- a square root halves relative errors (bounded here without the half) -/
theorem sqrt_close (d A η : ℝ) (hd : 0 ≤ d) (hA : 0 < A) (h : |d - A| ≤ η * A) :
    |Real.sqrt d - Real.sqrt A| ≤ η * Real.sqrt A := by
  have hs : 0 < Real.sqrt A := Real.sqrt_pos.2 hA
  have hd0 := Real.sqrt_nonneg d
  have e1 := Real.mul_self_sqrt hd
  have e2 := Real.mul_self_sqrt (le_of_lt hA)
  set x := Real.sqrt d
  set y := Real.sqrt A
  have e : d - A = (x - y) * (x + y) := by rw [← e1, ← e2]; ring
  rw [e, abs_mul, abs_of_pos (by linarith : 0 < x + y), ← e2] at h
  have h2 : |x - y| * y ≤ |x - y| * (x + y) := mul_le_mul_of_nonneg_left (by linarith) (abs_nonneg _)
  have h3 : |x - y| * y ≤ (η * y) * y := by nlinarith
  exact le_of_mul_le_mul_right h3 hs

/-- the final step: from the errors of the parts to that of the quotient -/
theorem quotient_err (u E c e1 e2 e3 d1 d2 t : ℝ) (hu : 0 < u) (huE : 2 * u ≤ E) (hE : E ≤ 1 / 2 ^ 30)
    (hc : |c| ≤ 1) (h1 : |e1| ≤ 107 / 100 * E) (h2 : |e2| ≤ 107 / 100 * E + 101 / 100 * u)
    (h3 : |e3| ≤ 107 / 100 * E + 101 / 100 * u) (h4 : |d1| ≤ u) (h5 : |d2| ≤ u) (ht : |t| ≤ u / 100) :
    |(c + e1) * ((1 + d1) * (1 + d2)) / ((1 + e2) * (1 + e3)) + t - c| ≤ 4 * E + 4 * u := by
  have hE' : E ≤ 1 / 1000000 := le_trans hE (by norm_num)
  set P := (1 + d1) * (1 + d2) with hP
  set Q := (1 + e2) * (1 + e3) with hQ
  have hu' : u ≤ 1 / 1000000 := by linarith
  obtain ⟨a4, b4⟩ := abs_le.1 h4
  obtain ⟨a5, b5⟩ := abs_le.1 h5
  obtain ⟨a2, b2⟩ := abs_le.1 h2
  obtain ⟨a3, b3⟩ := abs_le.1 h3
  have hdd : |d1 * d2| ≤ u * u := by
    rw [abs_mul]; exact mul_le_mul h4 h5 (abs_nonneg _) (le_of_lt hu)
  set v := 107 / 100 * E + 101 / 100 * u with hv
  have hv0 : 0 < v := by rw [hv]; linarith
  have hv1 : v ≤ 1 / 100000 := by rw [hv]; linarith
  have hee : |e2 * e3| ≤ v * v := by
    rw [abs_mul]; exact mul_le_mul h2 h3 (abs_nonneg _) (le_of_lt hv0)
  obtain ⟨a6, b6⟩ := abs_le.1 hdd
  obtain ⟨a7, b7⟩ := abs_le.1 hee
  have huu : u * u ≤ u / 1000000 := by
    have := mul_le_mul_of_nonneg_left hu' (le_of_lt hu); linarith
  have hvv : v * v ≤ v / 100000 := by
    have := mul_le_mul_of_nonneg_left hv1 (le_of_lt hv0); linarith
  have hP1 : |P - 1| ≤ 201 / 100 * u := by
    have e : P - 1 = d1 + d2 + d1 * d2 := by rw [hP]; ring
    rw [e, abs_le]; constructor <;> linarith
  have hQ1 : |Q - 1| ≤ 201 / 100 * v := by
    have e : Q - 1 = e2 + e3 + e2 * e3 := by rw [hQ]; ring
    rw [e, abs_le]; constructor <;> linarith
  have hQ0 : 9999 / 10000 ≤ Q := by
    have := (abs_le.1 hQ1).1; linarith
  have hQp : 0 < Q := by linarith
  have hPle : |P| ≤ 10001 / 10000 := by
    obtain ⟨x, y⟩ := abs_le.1 hP1
    rw [abs_le]; constructor <;> linarith
  have e : (c + e1) * P / Q + t - c = (c * ((P - 1) - (Q - 1)) + e1 * P) / Q + t := by
    field_simp; ring
  rw [e]
  refine le_trans (abs_add_le _ _) ?_
  rw [abs_div, abs_of_pos hQp]
  have hnum : |c * ((P - 1) - (Q - 1)) + e1 * P| ≤ 201 / 100 * u + 201 / 100 * v + 107 / 100 * E * (10001 / 10000) := by
    refine le_trans (abs_add_le _ _) ?_
    rw [abs_mul, abs_mul]
    have i1 : |(P - 1) - (Q - 1)| ≤ 201 / 100 * u + 201 / 100 * v := le_trans (abs_sub _ _) (by linarith)
    have i2 : |c| * |(P - 1) - (Q - 1)| ≤ 1 * (201 / 100 * u + 201 / 100 * v) :=
      mul_le_mul hc i1 (abs_nonneg _) (by norm_num)
    have i3 : |e1| * |P| ≤ 107 / 100 * E * (10001 / 10000) :=
      mul_le_mul h1 hPle (abs_nonneg _) (by linarith)
    linarith
  have hdiv : |c * ((P - 1) - (Q - 1)) + e1 * P| / Q ≤ (4 * E + 4 * u - u / 100) := by
    rw [div_le_iff₀ hQp]
    refine le_trans hnum ?_
    have : (4 * E + 4 * u - u / 100) * (9999 / 10000) ≤ (4 * E + 4 * u - u / 100) * Q :=
      mul_le_mul_of_nonneg_left hQ0 (by linarith)
    refine le_trans ?_ this
    rw [hv]
    linarith
  linarith

end F64
end Wego
