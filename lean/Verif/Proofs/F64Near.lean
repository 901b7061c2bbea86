import Verif.Proofs.F64Err
import Verif.Props.CosineAccuracy

/-! Error propagation for numbers of moderate size. -/

namespace Wego
namespace F64

/-- `y` is finite and within `e` of the real number `r` -/
def Near (y : F64) (r e : ℝ) : Prop := IsFin y ∧ |toReal y - r| ≤ e

theorem big20 : (2 : ℝ) ^ 20 < 2 ^ 1023 := pow_lt_pow_right₀ (by norm_num) (by norm_num)

theorem toReal_neg (x : F64) : toReal (neg x) = - toReal x := by
  unfold toReal
  cases x with
  | nan => simp [neg, toRat]
  | inf s => simp [neg, toRat]
  | fin s n h => cases s <;> simp [neg, toRat]

theorem isFin_neg {x : F64} (h : IsFin x) : IsFin (neg x) := by
  obtain ⟨s, n, k, rfl⟩ := h.cases; trivial

theorem near_self {x : F64} (h : IsFin x) : Near x (toReal x) 0 := ⟨h, by simp⟩

theorem near_weaken {x : F64} {a e e' : ℝ} (h : Near x a e) (hle : e ≤ e') : Near x a e' := ⟨h.1, le_trans h.2 hle⟩

theorem near_move {x : F64} {a b e d : ℝ} (h : Near x a e) (hle : |a - b| ≤ d) : Near x b (e + d) := by
  refine ⟨h.1, ?_⟩
  have : toReal x - b = (toReal x - a) + (a - b) := by ring
  rw [this]
  exact le_trans (abs_add_le _ _) (add_le_add h.2 hle)

theorem near_abs {x : F64} {a e : ℝ} (h : Near x a e) : |toReal x| ≤ |a| + e := by
  have : toReal x = a + (toReal x - a) := by ring
  rw [this]
  exact le_trans (abs_add_le _ _) (add_le_add (le_refl _) h.2)

theorem uu_sg {q B : ℝ} (h : |q| ≤ B) : uu * (|q| + sg) ≤ uu * (B + 1) := by
  have h1 := Props.sg_le
  have h2 := uu_pos
  have h3 : uu ≤ 1 := le_trans Props.uu_le (by norm_num)
  exact mul_le_mul_of_nonneg_left (by linarith) (le_of_lt h2)

theorem near_add {x y : F64} {a b e1 e2 B : ℝ} (hx : Near x a e1) (hy : Near y b e2)
    (hB : |a + b| + e1 + e2 ≤ B) (hB2 : B ≤ 2 ^ 20) : Near (add x y) (a + b) (e1 + e2 + uu * B) := by
  have hs : |toReal x + toReal y - (a + b)| ≤ e1 + e2 := by
    have : toReal x + toReal y - (a + b) = (toReal x - a) + (toReal y - b) := by ring
    rw [this]
    exact le_trans (abs_add_le _ _) (add_le_add hx.2 hy.2)
  have hs2 : |toReal x + toReal y| ≤ B := by
    have : toReal x + toReal y = (a + b) + (toReal x + toReal y - (a + b)) := by ring
    rw [this]
    refine le_trans (abs_add_le _ _) ?_
    linarith
  obtain ⟨h1, h2⟩ := add_err x y hx.1 hy.1 (lt_of_le_of_lt (le_trans hs2 hB2) big20)
  have h3 : |toReal (add x y) - (toReal x + toReal y)| ≤ uu * B :=
    le_trans h2 (mul_le_mul_of_nonneg_left hs2 (le_of_lt uu_pos))
  refine near_weaken (near_move ⟨h1, h3⟩ hs) (by linarith)

theorem near_sub {x y : F64} {a b e1 e2 B : ℝ} (hx : Near x a e1) (hy : Near y b e2)
    (hB : |a - b| + e1 + e2 ≤ B) (hB2 : B ≤ 2 ^ 20) : Near (sub x y) (a - b) (e1 + e2 + uu * B) := by
  have hy' : Near (neg y) (-b) e2 := by
    refine ⟨isFin_neg hy.1, ?_⟩
    rw [toReal_neg]
    have : -toReal y - -b = -(toReal y - b) := by ring
    rw [this, abs_neg]; exact hy.2
  have := near_add hx hy' (B := B) (by rw [← sub_eq_add_neg]; exact hB) hB2
  rw [← sub_eq_add_neg] at this
  exact this

theorem near_mul {x y : F64} {a b e1 e2 A B : ℝ} (hx : Near x a e1) (hy : Near y b e2)
    (hA : |a| + e1 ≤ A) (hB : |b| ≤ B) (hP : A * (B + e2) ≤ 2 ^ 20) :
    Near (mul x y) (a * b) (e1 * B + A * e2 + uu * (A * (B + e2) + 1)) := by
  have he1 : 0 ≤ e1 := le_trans (abs_nonneg _) hx.2
  have he2 : 0 ≤ e2 := le_trans (abs_nonneg _) hy.2
  have hX : |toReal x| ≤ A := le_trans (near_abs hx) hA
  have hY : |toReal y| ≤ B + e2 := le_trans (near_abs hy) (by linarith)
  have hA0 : 0 ≤ A := le_trans (abs_nonneg _) hX
  have hp : |toReal x * toReal y| ≤ A * (B + e2) := by
    rw [abs_mul]; exact mul_le_mul hX hY (abs_nonneg _) hA0
  have hs : |toReal x * toReal y - a * b| ≤ e1 * B + A * e2 := by
    have : toReal x * toReal y - a * b = toReal x * (toReal y - b) + (toReal x - a) * b := by ring
    rw [this]
    refine le_trans (abs_add_le _ _) ?_
    rw [abs_mul, abs_mul]
    have h1 := mul_le_mul hX hy.2 (abs_nonneg _) hA0
    have h2 := mul_le_mul hx.2 hB (abs_nonneg _) he1
    linarith
  obtain ⟨h1, h2⟩ := mul_err x y hx.1 hy.1 (lt_of_le_of_lt (le_trans hp hP) big20)
  have h3 := le_trans h2 (uu_sg hp)
  exact near_weaken (near_move ⟨h1, h3⟩ hs) (by linarith)

/-- division, relative to the exact quotient of the two doubles -/
theorem near_div {x y : F64} {B : ℝ} (hx : IsFin x) (hy : IsFin y) (h0 : toReal y ≠ 0) (hB : |toReal x / toReal y| ≤ B)
    (hB2 : B ≤ 2 ^ 20) : Near (div x y) (toReal x / toReal y) (uu * (B + 1)) := by
  obtain ⟨h1, h2⟩ := div_err x y hx hy h0 (lt_of_le_of_lt (le_trans hB hB2) big20)
  exact ⟨h1, le_trans h2 (uu_sg hB)⟩

/-- an integer constant is exact -/
theorem near_nat (k : Nat) (hk : k ≤ 2 ^ 53) : Near (round (k : ℚ)) (k : ℝ) 0 := by
  have h := toRat_round_nat k hk
  have h2 := round_nat k hk
  refine ⟨?_, ?_⟩
  · rw [h2]; trivial
  · unfold toReal; rw [h]; simp

theorem toReal_nat (k : Nat) (hk : k ≤ 2 ^ 53) : toReal (round (k : ℚ)) = (k : ℝ) := by
  unfold toReal; rw [toRat_round_nat k hk]; simp

/-- truncation of a number that is not negative -/
theorem toInt_floor (y : F64) (hy : IsFin y) (h0 : 0 ≤ toReal y) (h1 : toReal y < 2 ^ 20) :
    0 ≤ toInt y ∧ (toInt y : ℝ) ≤ toReal y ∧ toReal y < (toInt y : ℝ) + 1 := by
  obtain ⟨s, n, h, rfl⟩ := hy.cases
  have hT := one1_posR
  have hTn := one1_pos
  have key : toReal (.fin s n h) = (n : ℝ) / one1 := by
    cases s
    · unfold toReal toRat; simp
    · unfold toReal toRat at h0 ⊢
      simp only [if_true] at h0 ⊢
      push_cast at h0 ⊢
      have h2 : (0 : ℝ) ≤ (n : ℝ) / one1 := by positivity
      have h3 : (n : ℝ) / one1 = 0 := by linarith
      rw [h3]; ring
  have hd1 : ((n / one1 : Nat) : ℝ) ≤ (n : ℝ) / one1 := Nat.cast_div_le
  have hd2 : (n : ℝ) / one1 < ((n / one1 : Nat) : ℝ) + 1 := by
    rw [div_lt_iff₀ hT]
    have := Nat.lt_mul_div_succ n hTn
    have h' : (n : ℝ) < (one1 : ℝ) * (((n / one1 : Nat) : ℝ) + 1) := by exact_mod_cast this
    linarith
  have hsm : n / one1 < 2 ^ 20 := by
    rw [key] at h1
    have : ((n / one1 : Nat) : ℝ) < 2 ^ 20 := lt_of_le_of_lt hd1 h1
    exact_mod_cast this
  have hval : toInt (.fin s n h) = ((n / one1 : Nat) : Int) := by
    have h63 : (2 : Int) ^ 63 = 9223372036854775808 := by norm_num
    have h20 : (2 : Nat) ^ 20 = 1048576 := by norm_num
    generalize hq : n / one1 = d at hsm
    cases s
    · simp only [toInt, Bool.false_eq_true, if_false, hq]
      rw [if_pos]
      rw [h63]; omega
    · have hd : d = 0 := by
        by_contra hc
        have hc1 : 1 ≤ d := Nat.one_le_iff_ne_zero.2 hc
        rw [key, ] at h0
        have h5 : toReal (.fin true n h) = -((n : ℝ) / one1) := by
          unfold toReal toRat; simp
        rw [key] at h5
        have h6 : (1 : ℝ) ≤ (n : ℝ) / one1 := by
          refine le_trans ?_ hd1
          rw [hq]; exact_mod_cast hc1
        linarith
      subst hd
      simp only [toInt, if_true, hq]
      rw [if_pos]
      · rfl
      · rw [h63]; omega
  rw [hval, key]
  refine ⟨Int.natCast_nonneg _, ?_, ?_⟩
  · exact_mod_cast hd1
  · push_cast; exact hd2

end F64
end Wego
