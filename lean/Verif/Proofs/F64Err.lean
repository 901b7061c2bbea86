import Verif.Proofs.F64Sqrt
import Verif.Proofs.F64Mul
import Mathlib.Data.Real.Sqrt
import Mathlib.Tactic.Linarith
import Mathlib.Tactic.FieldSimp
import Mathlib.Tactic.Ring

/-! Error bounds of the binary64 operations: each returns the exact real result with a relative error of at most
`2^-53`, plus half a unit where the result may be subnormal. -/

namespace Wego
namespace F64

/-- neither NaN nor infinite -/
def IsFin : F64 → Prop
  | .fin _ _ _ => True
  | _ => False

/-- the real number a finite double stands for -/
noncomputable def toReal (x : F64) : ℝ := ((toRat x : ℚ) : ℝ)

theorem IsFin.cases {x : F64} (h : IsFin x) : ∃ s n k, x = .fin s n k := by
  cases x with
  | nan => exact h.elim
  | inf _ => exact h.elim
  | fin s n k => exact ⟨s, n, k, rfl⟩

theorem ulp_le_real (m : Nat) : (ulp m : ℝ) ≤ 1 + (m : ℝ) / 2 ^ 52 := by
  by_cases h : Nat.log2 m ≤ 52
  · have : ulp m = 1 := by unfold ulp; rw [Nat.sub_eq_zero_of_le h]; rfl
    rw [this]
    have : (0 : ℝ) ≤ (m : ℝ) / 2 ^ 52 := by positivity
    push_cast; linarith
  · have hm : m ≠ 0 := by intro hc; rw [hc] at h; simp at h
    have h1 : ulp m * 2 ^ 52 ≤ m := by
      refine le_trans (le_of_eq ?_) (pow_log2_le hm)
      unfold ulp; rw [← Nat.pow_add]; congr 1; omega
    have h2 : (ulp m : ℝ) * 2 ^ 52 ≤ m := by exact_mod_cast h1
    have : (ulp m : ℝ) ≤ (m : ℝ) / 2 ^ 52 := by rw [le_div_iff₀ (by positivity)]; exact h2
    linarith

theorem ulp_le_rel (m : Nat) (h : 2 ^ 52 ≤ m) : (ulp m : ℝ) ≤ (m : ℝ) / 2 ^ 52 := by
  have hm : m ≠ 0 := by intro hc; rw [hc] at h; simp at h
  have hl : 52 ≤ Nat.log2 m := by
    rw [Nat.le_log2 hm]; exact h
  have h1 : ulp m * 2 ^ 52 ≤ m := by
    refine le_trans (le_of_eq ?_) (pow_log2_le hm)
    unfold ulp; rw [← Nat.pow_add]; congr 1; omega
  have h2 : (ulp m : ℝ) * 2 ^ 52 ≤ m := by exact_mod_cast h1
  rw [le_div_iff₀ (by positivity)]; exact h2

theorem roundMag_err_real (a b : Nat) (hb : 0 < b) :
    |(roundMag a b : ℝ) - (a : ℝ) / b| ≤ (ulp (a / b) : ℝ) / 2 := by
  have hb' : (0 : ℝ) < b := by exact_mod_cast hb
  obtain ⟨h1, h2⟩ := roundMag_err a b hb
  have h1' : (2 : ℝ) * a ≤ 2 * (roundMag a b * b) + b * ulp (a / b) := by exact_mod_cast h1
  have h2' : (2 : ℝ) * (roundMag a b * b) ≤ 2 * a + b * ulp (a / b) := by exact_mod_cast h2
  have e : (a : ℝ) = (a : ℝ) / b * b := by field_simp
  rw [abs_le]
  constructor
  · have : ((a : ℝ) / b - ulp (a / b) / 2) * b ≤ roundMag a b * b := by rw [sub_mul, ← e]; linarith
    have := le_of_mul_le_mul_right this hb'
    linarith
  · have : (roundMag a b : ℝ) * b ≤ ((a : ℝ) / b + ulp (a / b) / 2) * b := by rw [add_mul, ← e]; linarith
    have := le_of_mul_le_mul_right this hb'
    linarith

theorem div_floor_le (a b : Nat) : ((a / b : Nat) : ℝ) ≤ (a : ℝ) / b := Nat.cast_div_le

theorem roundMag_mixed (a b : Nat) (hb : 0 < b) :
    |(roundMag a b : ℝ) - (a : ℝ) / b| ≤ ((a : ℝ) / b + 2 ^ 52) / 2 ^ 53 := by
  refine le_trans (roundMag_err_real a b hb) ?_
  have h1 := ulp_le_real (a / b)
  have h2 := div_floor_le a b
  have h3 : ((a / b : Nat) : ℝ) / 2 ^ 52 ≤ (a : ℝ) / b / 2 ^ 52 := by
    rw [div_le_div_iff_of_pos_right (by positivity)]; exact h2
  have e : ((a : ℝ) / b + 2 ^ 52) / 2 ^ 53 = ((a : ℝ) / b / 2 ^ 52 + 1) / 2 := by
    generalize (a : ℝ) / b = x
    field_simp
  rw [e]; linarith

theorem roundMag_rel (a b : Nat) (hb : 0 < b) (h : b ∣ a) :
    |(roundMag a b : ℝ) - (a : ℝ) / b| ≤ (a : ℝ) / b / 2 ^ 53 := by
  have hb' : (0 : ℝ) < b := by exact_mod_cast hb
  by_cases hs : 2 ^ 52 ≤ a / b
  · refine le_trans (roundMag_err_real a b hb) ?_
    have h1 := ulp_le_rel (a / b) hs
    have h2 := div_floor_le a b
    have h3 : ((a / b : Nat) : ℝ) / 2 ^ 52 ≤ (a : ℝ) / b / 2 ^ 52 := by
      rw [div_le_div_iff_of_pos_right (by positivity)]; exact h2
    have e : (a : ℝ) / b / 2 ^ 53 = ((a : ℝ) / b / 2 ^ 52) / 2 := by
      generalize (a : ℝ) / b = x
      field_simp
    rw [e]; linarith
  · obtain ⟨N, rfl⟩ := h
    rw [Nat.mul_div_cancel_left _ hb] at hs
    have hu : ulp N ∣ N := ulp_dvd_of_lt (by omega)
    rw [roundMag_exact N (b * N) b hb hu (by ring)]
    push_cast
    have : (b : ℝ) * N / b = N := by field_simp
    rw [this]; simp only [sub_self, abs_zero]; positivity

/-! ### `round` -/

theorem one1_posR : (0 : ℝ) < (one1 : ℝ) := by exact_mod_cast one1_pos

theorem abs_q (q : ℚ) : |(q : ℝ)| = (q.num.natAbs : ℝ) / (q.den : ℝ) := by
  have h2 : |q| = (q.num.natAbs : ℚ) / (q.den : ℚ) := by
    rw [Rat.abs_def, Rat.divInt_eq_div, Int.cast_natCast, Int.cast_natCast]
  have : ((|q| : ℚ) : ℝ) = (((q.num.natAbs : ℚ) / (q.den : ℚ) : ℚ) : ℝ) := by rw [h2]
  push_cast at this
  exact this

/-- The result of rounding is finite when the number is below `2^1023`. -/
theorem round_fin (q : ℚ) (z : Bool) (h : |(q : ℝ)| < 2 ^ 1023) :
    IsFin (round q z) ∧ |toReal (round q z) - (q : ℝ)| =
      |(roundMag (q.num.natAbs * one1) q.den : ℝ) - ((q.num.natAbs * one1 : Nat) : ℝ) / q.den| / one1 := by
  have hT := one1_posR
  have hd : (0 : ℝ) < (q.den : ℝ) := by exact_mod_cast q.pos
  have hlt : q.num.natAbs * one1 / q.den < 2 ^ 2097 := by
    rw [Nat.div_lt_iff_lt_mul q.pos]
    rw [abs_q, div_lt_iff₀ hd] at h
    have h' : q.num.natAbs < 2 ^ 1023 * q.den := by exact_mod_cast h
    calc q.num.natAbs * one1 < 2 ^ 1023 * q.den * one1 := Nat.mul_lt_mul_of_pos_right h' one1_pos
      _ = 2 ^ 2097 * q.den := by
        rw [one1_eq, Nat.mul_right_comm, ← Nat.pow_add]
  have hrep : IsRep (roundMag (q.num.natAbs * one1) q.den) := by
    rw [isRep_of_lt (ulp_dvd_round q)]
    refine lt_of_le_of_lt (roundMag_le _ _) ?_
    rw [ovf_eq]
    apply Nat.pow_lt_pow_right (by omega)
    have : Nat.log2 (q.num.natAbs * one1 / q.den) ≤ 2096 := log2_lt_pow hlt
    omega
  have e : round q z = .fin (decide (q < 0) || (decide (q = 0) && z)) _ hrep := by
    unfold round ofMag; rw [dif_pos hrep]
  rw [e]
  refine ⟨trivial, ?_⟩
  generalize hN : roundMag (q.num.natAbs * one1) q.den = N at hrep
  have hq : ((q.num.natAbs * one1 : Nat) : ℝ) / q.den = |(q : ℝ)| * one1 := by
    rw [abs_q]; push_cast; ring
  rw [hq]
  have key : ∀ s : Bool, (q : ℝ) = (if s then -1 else 1) * |(q : ℝ)| →
      |toReal (.fin s N hrep) - (q : ℝ)| = |(N : ℝ) - |(q : ℝ)| * one1| / one1 := by
    intro s hs
    have h1 : toReal (.fin s N hrep) - (q : ℝ) = (if s then -1 else 1) * (((N : ℝ) - |(q : ℝ)| * one1) / one1) := by
      unfold toReal toRat
      conv_lhs => rw [hs]
      cases s
      · simp; field_simp
      · simp; field_simp; ring
    rw [h1, abs_mul, abs_div, abs_of_pos hT]
    cases s <;> simp
  have h0 : q = 0 → N = 0 := by
    intro hc; rw [← hN, hc]; simpa using roundMag_zero 1 (by omega)
  by_cases hneg : q < 0
  · have : (decide (q < 0) || (decide (q = 0) && z)) = true := by simp [hneg]
    simp only [this]
    apply key
    have : (q : ℝ) < 0 := by exact_mod_cast hneg
    rw [abs_of_neg this]; simp
  · by_cases hz : q = 0
    · have hq0 : (q : ℝ) = 0 := by rw [hz]; simp
      apply key
      rw [hq0]; simp
    · have : (decide (q < 0) || (decide (q = 0) && z)) = false := by simp [hneg, hz]
      simp only [this]
      apply key
      have : (0 : ℝ) ≤ q := by exact_mod_cast not_lt.1 hneg
      rw [abs_of_nonneg this]; simp

/-- half a relative unit `2^-53` -/
noncomputable def uu : ℝ := 1 / 2 ^ 53
/-- the smallest normal double -/
noncomputable def sg : ℝ := 2 ^ 52 / one1

theorem uu_pos : 0 < uu := by unfold uu; positivity
theorem sg_pos : 0 < sg := by unfold sg; exact div_pos (by positivity) one1_posR

theorem round_mixed (q : ℚ) (z : Bool) (h : |(q : ℝ)| < 2 ^ 1023) :
    IsFin (round q z) ∧ |toReal (round q z) - (q : ℝ)| ≤ uu * (|(q : ℝ)| + sg) := by
  obtain ⟨h1, h2⟩ := round_fin q z h
  refine ⟨h1, ?_⟩
  rw [h2, div_le_iff₀ one1_posR]
  refine le_trans (roundMag_mixed _ _ q.pos) ?_
  have hq : ((q.num.natAbs * one1 : Nat) : ℝ) / q.den = |(q : ℝ)| * one1 := by
    rw [abs_q]; push_cast; ring
  rw [hq]
  unfold uu sg
  have := one1_posR
  apply le_of_eq
  generalize |(q : ℝ)| = x
  generalize (one1 : ℝ) = t at *
  field_simp

theorem round_rel (q : ℚ) (z : Bool) (h : |(q : ℝ)| < 2 ^ 1023) (k : ℤ) (hk : q = (k : ℚ) / (one1 : ℚ)) :
    IsFin (round q z) ∧ |toReal (round q z) - (q : ℝ)| ≤ uu * |(q : ℝ)| := by
  obtain ⟨h1, h2⟩ := round_fin q z h
  refine ⟨h1, ?_⟩
  have hdvd : q.den ∣ q.num.natAbs * one1 := by
    have hT : (one1 : ℚ) ≠ 0 := by exact_mod_cast one1_pos.ne'
    have hd : (q.den : ℚ) ≠ 0 := by exact_mod_cast q.pos.ne'
    have h3 : (q.num : ℚ) / q.den = (k : ℚ) / one1 := by rw [Rat.num_div_den]; exact hk
    rw [div_eq_div_iff hd hT] at h3
    have h4 : q.num * (one1 : ℤ) = k * (q.den : ℤ) := by exact_mod_cast h3
    have h5 : (q.den : ℤ) ∣ q.num * (one1 : ℤ) := ⟨k, by rw [h4]; ring⟩
    have h6 := Int.natAbs_dvd_natAbs.2 h5
    rwa [Int.natAbs_mul, Int.natAbs_natCast, Int.natAbs_natCast] at h6
  rw [h2, div_le_iff₀ one1_posR]
  refine le_trans (roundMag_rel _ _ q.pos hdvd) ?_
  have hq : ((q.num.natAbs * one1 : Nat) : ℝ) / q.den = |(q : ℝ)| * one1 := by
    rw [abs_q]; push_cast; ring
  rw [hq]
  unfold uu
  apply le_of_eq
  ring

/-! ### operations -/

theorem toRat_int (s : Bool) (n : Nat) (h : IsRep n) :
    ∃ k : ℤ, toRat (.fin s n h) = (k : ℚ) / (one1 : ℚ) := by
  cases s
  · exact ⟨n, by unfold toRat; push_cast; simp⟩
  · exact ⟨-n, by unfold toRat; push_cast; simp; ring⟩

theorem add_err (x y : F64) (hx : IsFin x) (hy : IsFin y) (h : |toReal x + toReal y| < 2 ^ 1023) :
    IsFin (add x y) ∧ |toReal (add x y) - (toReal x + toReal y)| ≤ uu * |toReal x + toReal y| := by
  obtain ⟨s, n, hn, rfl⟩ := hx.cases
  obtain ⟨t, m, hm, rfl⟩ := hy.cases
  obtain ⟨k1, e1⟩ := toRat_int s n hn
  obtain ⟨k2, e2⟩ := toRat_int t m hm
  have e : toReal (.fin s n hn) + toReal (.fin t m hm) =
      ((toRat (.fin s n hn) + toRat (.fin t m hm) : ℚ) : ℝ) := by unfold toReal; push_cast; rfl
  rw [e] at h ⊢
  unfold add
  exact round_rel _ _ h (k1 + k2) (by rw [e1, e2]; push_cast; ring)

theorem mul_err (x y : F64) (hx : IsFin x) (hy : IsFin y) (h : |toReal x * toReal y| < 2 ^ 1023) :
    IsFin (mul x y) ∧ |toReal (mul x y) - toReal x * toReal y| ≤ uu * (|toReal x * toReal y| + sg) := by
  obtain ⟨s, n, hn, rfl⟩ := hx.cases
  obtain ⟨t, m, hm, rfl⟩ := hy.cases
  have e : toReal (.fin s n hn) * toReal (.fin t m hm) =
      ((toRat (.fin s n hn) * toRat (.fin t m hm) : ℚ) : ℝ) := by unfold toReal; push_cast; rfl
  rw [e] at h ⊢
  unfold mul
  exact round_mixed _ _ h

theorem div_err (x y : F64) (hx : IsFin x) (hy : IsFin y) (h0 : toReal y ≠ 0) (h : |toReal x / toReal y| < 2 ^ 1023) :
    IsFin (div x y) ∧ |toReal (div x y) - toReal x / toReal y| ≤ uu * (|toReal x / toReal y| + sg) := by
  obtain ⟨s, n, hn, rfl⟩ := hx.cases
  obtain ⟨t, m, hm, rfl⟩ := hy.cases
  have e : toReal (.fin s n hn) / toReal (.fin t m hm) =
      ((toRat (.fin s n hn) / toRat (.fin t m hm) : ℚ) : ℝ) := by unfold toReal; push_cast; rfl
  rw [e] at h ⊢
  unfold div
  dsimp only
  have : m ≠ 0 := by
    rintro rfl
    apply h0; unfold toReal toRat; simp
  rw [if_neg this]
  exact round_mixed _ _ h

theorem sqrtRnd_err (a u : Nat) (hu : 0 < u) :
    |(sqrtRnd a u * u : ℝ) - Real.sqrt a| ≤ (u : ℝ) / 2 := by
  have hu' : (0 : ℝ) < u := by exact_mod_cast hu
  set s := Real.sqrt a with hs
  have hs0 : 0 ≤ s := Real.sqrt_nonneg _
  have hss : s * s = a := Real.mul_self_sqrt (by positivity)
  set q := Nat.sqrt (a / (u * u)) with hq
  have hq1 : q * u * (q * u) ≤ a := by
    have h1 : q * q ≤ a / (u * u) := Nat.sqrt_le _
    calc q * u * (q * u) = q * q * (u * u) := by ring
      _ ≤ a / (u * u) * (u * u) := Nat.mul_le_mul_right _ h1
      _ ≤ a := Nat.div_mul_le_self _ _
  have hq2 : a ≤ (q + 1) * u * ((q + 1) * u) := by
    have h1 : a / (u * u) < (q + 1) * (q + 1) := Nat.lt_succ_sqrt _
    rw [Nat.div_lt_iff_lt_mul (by positivity)] at h1
    calc a ≤ (q + 1) * (q + 1) * (u * u) := le_of_lt h1
      _ = _ := by ring
  have hl : (q : ℝ) * u ≤ s := by
    apply Real.le_sqrt_of_sq_le
    have : ((q : ℝ) * u * (q * u)) ≤ a := by exact_mod_cast hq1
    rw [pow_two]; exact this
  have hr : s ≤ ((q : ℝ) + 1) * u := by
    rw [hs, Real.sqrt_le_left (by positivity), pow_two]
    exact_mod_cast hq2
  have hval : (sqrtRnd a u : ℝ) = q ∨ (sqrtRnd a u : ℝ) = q + 1 := by
    unfold sqrtRnd; dsimp only; rw [← hq]
    split
    · left; rfl
    · split
      · right; push_cast; rfl
      · rcases Nat.mod_two_eq_zero_or_one q with h | h <;> rw [h]
        · left; simp
        · right; push_cast; rfl
  have h2l : (sqrtRnd a u : ℝ) = q → 2 * s ≤ (2 * q + 1) * u := by
    intro h
    have hle : 4 * a ≤ (2 * q + 1) * u * ((2 * q + 1) * u) := by
      by_contra hc
      push Not at hc
      have : sqrtRnd a u = q + 1 := by
        unfold sqrtRnd; dsimp only; rw [← hq, if_neg (by omega), if_pos hc]
      rw [this] at h; push_cast at h; linarith
    have hle' : (4 : ℝ) * a ≤ (2 * q + 1) * u * ((2 * q + 1) * u) := by exact_mod_cast hle
    rw [← hss] at hle'
    refine le_of_sq_le_sq ?_ (by positivity)
    nlinarith
  have h2r : (sqrtRnd a u : ℝ) = q + 1 → (2 * q + 1) * u ≤ 2 * s := by
    intro h
    have hle : (2 * q + 1) * u * ((2 * q + 1) * u) ≤ 4 * a := by
      by_contra hc
      push Not at hc
      have : sqrtRnd a u = q := by
        unfold sqrtRnd; dsimp only; rw [← hq, if_pos hc]
      rw [this] at h; linarith
    have hle' : ((2 : ℝ) * q + 1) * u * ((2 * q + 1) * u) ≤ 4 * a := by exact_mod_cast hle
    rw [← hss] at hle'
    refine le_of_sq_le_sq ?_ (by positivity)
    nlinarith
  rcases hval with h | h
  · rw [h, abs_le]
    have := h2l h
    constructor <;> linarith
  · rw [h, abs_le]
    have := h2r h
    constructor <;> linarith

theorem sqrt_err (x : F64) (hx : IsFin x) (h : 0 < toReal x) :
    IsFin (sqrt x) ∧ 0 ≤ toReal (sqrt x) ∧ |toReal (sqrt x) - Real.sqrt (toReal x)| ≤ uu * Real.sqrt (toReal x) := by
  have hT := one1_posR
  obtain ⟨s, n, hn, rfl⟩ := hx.cases
  have hn0 : n ≠ 0 := by rintro rfl; unfold toReal toRat at h; simp at h
  have hs : s = false := by
    cases s
    · rfl
    · exfalso
      unfold toReal toRat at h
      simp only [if_true] at h
      push_cast at h
      have : (0 : ℝ) ≤ (n : ℝ) / one1 := by positivity
      linarith
  subst hs
  set a := n * one1 with ha
  have hv : toReal (.fin false n hn) = (n : ℝ) / one1 := by
    unfold toReal toRat; simp
  have hsq : Real.sqrt (toReal (.fin false n hn)) = Real.sqrt a / one1 := by
    rw [hv, ha]
    push_cast
    rw [show (n : ℝ) / one1 = (n * one1) / (one1 * one1) by field_simp, Real.sqrt_div (by positivity),
      Real.sqrt_mul_self (le_of_lt hT)]
  have hbig : 2 ^ 52 ≤ Nat.sqrt a := by
    rw [Nat.le_sqrt, ← Nat.pow_add, ha]
    calc 2 ^ (52 + 52) ≤ 2 ^ 1074 := Nat.pow_le_pow_right (by omega) (by omega)
      _ = one1 := one1_eq.symm
      _ ≤ n * one1 := Nat.le_mul_of_pos_left _ (Nat.pos_of_ne_zero hn0)
  have hrep : IsRep (roundSqrtMag a) := by
    rw [isRep_of_lt (ulp_dvd_roundSqrtMag a)]
    refine lt_of_le_of_lt (roundSqrtMag_le a) ?_
    have h1 : Nat.sqrt a < 2 ^ 1586 := by
      rw [Nat.sqrt_lt, ← Nat.pow_add, ha]
      calc n * one1 < ovf * one1 := Nat.mul_lt_mul_of_pos_right hn.2 one1_pos
        _ = 2 ^ (1586 + 1586) := by rw [ovf_eq, one1_eq, ← Nat.pow_add]
    have h2 : Nat.log2 (Nat.sqrt a) ≤ 1585 := log2_lt_pow h1
    rw [ovf_eq]
    exact Nat.pow_lt_pow_right (by omega) (by omega)
  have e : sqrt (.fin false n hn) = .fin false (roundSqrtMag a) hrep := by
    unfold sqrt; dsimp only
    rw [if_neg hn0]
    simp only [Bool.false_eq_true, if_false]
    unfold ofMag; rw [dif_pos hrep]
  rw [hsq, e]
  have hv2 : toReal (.fin false (roundSqrtMag a) hrep) = (roundSqrtMag a : ℝ) / one1 := by
    unfold toReal toRat; simp
  refine ⟨trivial, ?_, ?_⟩
  · rw [hv2]; positivity
  · rw [hv2, ← sub_div, abs_div, abs_of_pos hT, ← mul_div_assoc, div_le_div_iff_of_pos_right hT]
    have h1 := sqrtRnd_err a (ulp (Nat.sqrt a)) (ulp_pos _)
    have h2 := ulp_le_rel _ hbig
    have h3 : (Nat.sqrt a : ℝ) ≤ Real.sqrt a := Real.nat_sqrt_le_real_sqrt
    have h4 : (Nat.sqrt a : ℝ) / 2 ^ 52 ≤ Real.sqrt a / 2 ^ 52 := by
      rw [div_le_div_iff_of_pos_right (by positivity)]; exact h3
    rw [roundSqrtMag_eq]
    push_cast
    refine le_trans h1 ?_
    have e2 : uu * Real.sqrt a = Real.sqrt a / 2 ^ 52 / 2 := by
      unfold uu; generalize Real.sqrt a = y; field_simp
    rw [e2]; linarith

end F64
end Wego
