import Mathlib.Tactic.Ring
import Mathlib.Tactic.Linarith
import Mathlib.Tactic.FieldSimp
import Verif.Go.F64

/-! Lemmas about the binary64 model. -/

namespace Wego

/-! ### nearest natural number -/

theorem rne_le (a b : Nat) : rne a b ≤ a / b + 1 := by
  unfold rne; dsimp only; split
  · omega
  · split <;> omega

theorem le_rne (a b : Nat) : a / b ≤ rne a b := by
  unfold rne; dsimp only; split
  · omega
  · split <;> omega

theorem rne_exact (m b : Nat) (hb : 0 < b) : rne (m * b) b = m := by
  unfold rne
  simp [Nat.mul_div_cancel _ hb, hb]

theorem rne_err (a b : Nat) (hb : 0 < b) :
    2 * a ≤ 2 * (rne a b * b) + b ∧ 2 * (rne a b * b) ≤ 2 * a + b := by
  have h := Nat.div_add_mod a b
  have hr := Nat.mod_lt a hb
  unfold rne; dsimp only
  set q := a / b
  set r := a % b
  have e : b * q = q * b := Nat.mul_comm _ _
  split
  · constructor <;> nlinarith
  · split
    · rw [Nat.add_mul]; constructor <;> nlinarith
    · rcases Nat.mod_two_eq_zero_or_one q with hq | hq <;> rw [hq] <;> rw [Nat.add_mul] <;>
        constructor <;> nlinarith

theorem rne_mono (a b c d : Nat) (hb : 0 < b) (hd : 0 < d) (h : a * d ≤ c * b) :
    rne a b ≤ rne c d := by
  have hq : a / b ≤ c / d := by
    rw [Nat.le_div_iff_mul_le hd]
    have h1 : a / b * b ≤ a := Nat.div_mul_le_self a b
    have : a / b * d * b ≤ c * b := by nlinarith
    exact Nat.le_of_mul_le_mul_right this hb
  rcases Nat.lt_or_ge (a / b) (c / d) with hlt | hge
  · exact le_trans (rne_le a b) (le_trans hlt (le_rne c d))
  · have e : a / b = c / d := le_antisymm hq hge
    have h1 := Nat.div_add_mod a b
    have h2 := Nat.div_add_mod c d
    have hr : a % b * d ≤ c % d * b := by
      have : (b * (a / b) + a % b) * d ≤ (d * (c / d) + c % d) * b := by rw [h1, h2]; exact h
      rw [← e] at this
      nlinarith
    unfold rne; dsimp only
    rw [← e]
    by_cases c1 : 2 * (a % b) < b
    · rw [if_pos c1]; split
      · exact le_refl _
      · split <;> omega
    · have c3 : ¬ 2 * (c % d) < d := by
        intro hc; nlinarith
      rw [if_neg c1, if_neg c3]
      by_cases c2 : b < 2 * (a % b)
      · have c4 : d < 2 * (c % d) := by
          by_contra hc; nlinarith
        rw [if_pos c2, if_pos c4]
      · rw [if_neg c2]; split
        · omega
        · exact le_refl _

/-! ### rounding magnitudes -/

theorem ulp_pos (n : Nat) : 0 < ulp n := by unfold ulp; positivity

theorem log2_lt_pow {n k : Nat} (h : n < 2 ^ (k + 1)) : Nat.log2 n ≤ k := by
  by_cases hn : n = 0
  · subst hn; simp
  · have := (Nat.log2_lt hn).2 h; omega

theorem pow_log2_le {n : Nat} (hn : n ≠ 0) : 2 ^ Nat.log2 n ≤ n := Nat.log2_self_le hn

theorem lt_pow_log2 (n : Nat) : n < 2 ^ (Nat.log2 n + 1) := Nat.lt_log2_self

theorem log2_mono {a b : Nat} (h : a ≤ b) : Nat.log2 a ≤ Nat.log2 b := by
  by_cases hb : b = 0
  · subst hb; simp at h; subst h; exact le_refl _
  · exact log2_lt_pow (lt_of_le_of_lt h (lt_pow_log2 b))

theorem ulp_mono {a b : Nat} (h : a ≤ b) : ulp a ≤ ulp b := by
  unfold ulp
  exact Nat.pow_le_pow_right (by omega) (by have := log2_mono h; omega)

/-- Bounds of the rounded magnitude. -/
theorem roundMag_le (a b : Nat) : roundMag a b ≤ 2 ^ (max (Nat.log2 (a / b)) 52 + 1) := by
  unfold roundMag; dsimp only
  have h1 : a / (b * ulp (a / b)) < 2 ^ 53 := by
    rw [← Nat.div_div_eq_div_mul, Nat.div_lt_iff_lt_mul (ulp_pos _)]
    refine lt_of_lt_of_le (lt_pow_log2 (a / b)) ?_
    unfold ulp
    rw [← Nat.pow_add]
    exact Nat.pow_le_pow_right (by omega) (by omega)
  have h2 := rne_le a (b * ulp (a / b))
  have h3 : rne a (b * ulp (a / b)) ≤ 2 ^ 53 := by omega
  calc rne a (b * ulp (a / b)) * ulp (a / b) ≤ 2 ^ 53 * ulp (a / b) := Nat.mul_le_mul_right _ h3
    _ = 2 ^ (max (Nat.log2 (a / b)) 52 + 1) := by
        unfold ulp; rw [← Nat.pow_add]; congr 1; omega

theorem le_roundMag (a b : Nat) (h : 52 ≤ Nat.log2 (a / b)) :
    2 ^ Nat.log2 (a / b) ≤ roundMag a b := by
  unfold roundMag; dsimp only
  have hn : a / b ≠ 0 := by intro hc; rw [hc] at h; simp at h
  have h1 : 2 ^ 52 ≤ a / (b * ulp (a / b)) := by
    rw [← Nat.div_div_eq_div_mul, Nat.le_div_iff_mul_le (ulp_pos _)]
    refine le_trans ?_ (pow_log2_le hn)
    unfold ulp
    rw [← Nat.pow_add]
    exact Nat.pow_le_pow_right (by omega) (by omega)
  have h3 := le_trans h1 (le_rne a (b * ulp (a / b)))
  calc 2 ^ Nat.log2 (a / b) = 2 ^ 52 * ulp (a / b) := by
        unfold ulp; rw [← Nat.pow_add]; congr 1; omega
    _ ≤ _ := Nat.mul_le_mul_right _ h3

theorem ulp_dvd_roundMag (a b : Nat) : ulp (roundMag a b) ∣ roundMag a b := by
  have hle := roundMag_le a b
  by_cases hbig : roundMag a b = 2 ^ (max (Nat.log2 (a / b)) 52 + 1)
  · rw [hbig]
    unfold ulp
    apply Nat.pow_dvd_pow
    rw [Nat.log2_two_pow]; omega
  · have hlt : roundMag a b < 2 ^ (max (Nat.log2 (a / b)) 52 + 1) := lt_of_le_of_ne hle hbig
    have h1 : Nat.log2 (roundMag a b) ≤ max (Nat.log2 (a / b)) 52 := log2_lt_pow hlt
    have h2 : ulp (roundMag a b) ∣ ulp (a / b) := by
      unfold ulp; apply Nat.pow_dvd_pow; omega
    refine dvd_trans h2 ?_
    unfold roundMag; dsimp only
    exact Dvd.intro_left _ rfl

theorem roundMag_mono (a b c d : Nat) (hb : 0 < b) (hd : 0 < d) (h : a * d ≤ c * b) :
    roundMag a b ≤ roundMag c d := by
  have hq : a / b ≤ c / d := by
    rw [Nat.le_div_iff_mul_le hd]
    have h1 : a / b * b ≤ a := Nat.div_mul_le_self a b
    have : a / b * d * b ≤ c * b := by nlinarith
    exact Nat.le_of_mul_le_mul_right this hb
  have hl := log2_mono hq
  by_cases hu : ulp (a / b) = ulp (c / d)
  · unfold roundMag; dsimp only
    rw [← hu]
    apply Nat.mul_le_mul_right
    apply rne_mono _ _ _ _ (Nat.mul_pos hb (ulp_pos _)) (Nat.mul_pos hd (ulp_pos _))
    calc a * (d * ulp (a / b)) = (a * d) * ulp (a / b) := by ring
      _ ≤ (c * b) * ulp (a / b) := Nat.mul_le_mul_right _ h
      _ = _ := by ring
  · have h2 : max (Nat.log2 (a / b)) 52 + 1 ≤ Nat.log2 (c / d) := by
      by_contra hc
      apply hu
      unfold ulp; congr 1; omega
    exact le_trans (roundMag_le a b) (le_trans (Nat.pow_le_pow_right (by omega) h2)
      (le_roundMag c d (by omega)))

theorem roundMag_exact (N a b : Nat) (hb : 0 < b) (hN : ulp N ∣ N) (h : a = N * b) :
    roundMag a b = N := by
  unfold roundMag; dsimp only
  rw [h, Nat.mul_div_cancel _ hb]
  obtain ⟨m, hm⟩ := hN
  have : N * b = m * (b * ulp N) := by
    conv_lhs => rw [hm]
    ring
  rw [this, rne_exact _ _ (Nat.mul_pos hb (ulp_pos _))]
  conv_rhs => rw [hm]
  ring

theorem roundMag_err (a b : Nat) (hb : 0 < b) :
    2 * a ≤ 2 * (roundMag a b * b) + b * ulp (a / b) ∧
    2 * (roundMag a b * b) ≤ 2 * a + b * ulp (a / b) := by
  have := rne_err a (b * ulp (a / b)) (Nat.mul_pos hb (ulp_pos _))
  unfold roundMag; dsimp only
  set r := rne a (b * ulp (a / b))
  have e : r * ulp (a / b) * b = r * (b * ulp (a / b)) := by ring
  rw [e]; exact this

theorem isRep_of_lt {N : Nat} (hN : ulp N ∣ N) : IsRep N ↔ N < ovf := by simp [IsRep, hN]

theorem ulp_dvd_of_lt {n : Nat} (h : n ≤ 2 ^ 53) : ulp n ∣ n := by
  rcases Nat.lt_or_ge n (2 ^ 53) with hn | hn
  · have := log2_lt_pow (k := 52) hn
    unfold ulp; rw [show Nat.log2 n - 52 = 0 by omega]; simp
  · have e : n = 2 ^ 53 := le_antisymm h hn
    subst e
    unfold ulp; rw [Nat.log2_two_pow]; exact Nat.pow_dvd_pow 2 (by omega)

theorem log2_mul_pow (n k : Nat) (hn : n ≠ 0) : Nat.log2 (n * 2 ^ k) = Nat.log2 n + k := by
  have hnk : n * 2 ^ k ≠ 0 := Nat.mul_ne_zero hn (by positivity)
  apply le_antisymm
  · apply log2_lt_pow
    calc n * 2 ^ k < 2 ^ (Nat.log2 n + 1) * 2 ^ k :=
          Nat.mul_lt_mul_of_pos_right (lt_pow_log2 n) (by positivity)
      _ = 2 ^ (Nat.log2 n + k + 1) := by rw [← Nat.pow_add]; congr 1; omega
  · by_contra hc
    have h1 : Nat.log2 (n * 2 ^ k) + 1 ≤ Nat.log2 n + k := by omega
    have h2 := lt_pow_log2 (n * 2 ^ k)
    have h3 : 2 ^ Nat.log2 n * 2 ^ k ≤ n * 2 ^ k := Nat.mul_le_mul_right _ (pow_log2_le hn)
    rw [← Nat.pow_add] at h3
    have h4 := Nat.pow_le_pow_right (show 0 < 2 by omega) h1
    omega

/-- Scaling by a power of two keeps representability of the significand. -/
theorem ulp_dvd_mul_pow {n : Nat} (k : Nat) (h : ulp n ∣ n) : ulp (n * 2 ^ k) ∣ n * 2 ^ k := by
  by_cases hn : n = 0
  · subst hn; simp
  · have h1 : ulp (n * 2 ^ k) ∣ ulp n * 2 ^ k := by
      unfold ulp
      rw [log2_mul_pow n k hn, ← Nat.pow_add]
      exact Nat.pow_dvd_pow 2 (by omega)
    exact dvd_trans h1 (Nat.mul_dvd_mul_right h _)

theorem one1_eq : one1 = 2 ^ 1074 := by unfold one1; rfl

theorem ovf_eq : ovf = 2 ^ 2098 := by unfold ovf; rfl

theorem isRep_nat {n : Nat} (h : n ≤ 2 ^ 53) : IsRep (n * one1) := by
  have h1 := ulp_dvd_mul_pow 1074 (ulp_dvd_of_lt h)
  have h2 : 2 ^ 53 * 2 ^ 1074 < 2 ^ 2098 := by
    rw [← Nat.pow_add]; exact Nat.pow_lt_pow_right (by omega) (by omega)
  rw [← one1_eq] at h1
  rw [← one1_eq, ← ovf_eq] at h2
  exact ⟨h1, lt_of_le_of_lt (Nat.mul_le_mul_right _ h) h2⟩

theorem one1_pos : 0 < one1 := by unfold one1; exact Nat.two_pow_pos _

theorem ovf_pos : 0 < ovf := by unfold ovf; exact Nat.two_pow_pos _

theorem ulp_dvd_ovf : ulp ovf ∣ ovf := by
  unfold ulp ovf; rw [Nat.log2_two_pow]; exact Nat.pow_dvd_pow 2 (by omega)

namespace F64

/-! ### signed rounding -/

@[simp] theorem ofRat_eq (q : ℚ) : (GoFloat.ofRat q : F64) = round q := rfl


/-- The rounded position of a rational number, overflow clipped. -/
def rkey (q : ℚ) : Int :=
  let m : Int := (min (roundMag (q.num.natAbs * one1) q.den) ovf : Nat)
  if q < 0 then -m else m

theorem ulp_dvd_round (q : ℚ) : ulp (roundMag (q.num.natAbs * one1) q.den) ∣
    roundMag (q.num.natAbs * one1) q.den := ulp_dvd_roundMag _ _

theorem roundMag_zero (b : Nat) (hb : 0 < b) : roundMag 0 b = 0 :=
  roundMag_exact 0 0 b hb (by simp) (by simp)

theorem key_round (q : ℚ) (z : Bool) : key (round q z) = some (rkey q) := by
  unfold round ofMag rkey
  dsimp only
  by_cases hr : IsRep (roundMag (q.num.natAbs * one1) q.den)
  · rw [dif_pos hr]
    have hlt := hr.2
    rw [Nat.min_eq_left (le_of_lt hlt)]
    by_cases h0 : q < 0
    · simp [key, h0]
    · by_cases hz : q = 0
      · subst hz
        have : roundMag 0 1 = 0 := roundMag_zero 1 (by omega)
        cases z <;> simp [key, this]
      · simp [key, h0, hz]
  · rw [dif_neg hr]
    have hge : ovf ≤ roundMag (q.num.natAbs * one1) q.den := by
      by_contra hc
      exact hr ((isRep_of_lt (ulp_dvd_round q)).2 (by omega))
    rw [Nat.min_eq_right hge]
    by_cases h0 : q < 0
    · simp [key, h0]
    · by_cases hz : q = 0
      · subst hz
        exfalso
        apply hr
        have : roundMag ((0 : ℚ).num.natAbs * one1) (0 : ℚ).den = 0 := by
          simpa using roundMag_zero 1 (by omega)
        rw [this]
        exact ⟨by simp, ovf_pos⟩
      · simp [key, h0, hz]

theorem rkey_nonneg {q : ℚ} (h : 0 ≤ q) : 0 ≤ rkey q := by
  unfold rkey; dsimp only
  rw [if_neg (not_lt.2 h)]; exact Int.natCast_nonneg _

theorem rkey_nonpos {q : ℚ} (h : q ≤ 0) : rkey q ≤ 0 := by
  unfold rkey; dsimp only
  by_cases h0 : q < 0
  · rw [if_pos h0]; have := Int.natCast_nonneg (min (roundMag (q.num.natAbs * one1) q.den) ovf); omega
  · have : q = 0 := le_antisymm h (not_lt.1 h0)
    subst this
    have : roundMag 0 1 = 0 := roundMag_zero 1 (by omega)
    simp [this]

theorem natAbs_cross {p q : ℚ} (hp : 0 ≤ p) (h : p ≤ q) :
    p.num.natAbs * q.den ≤ q.num.natAbs * p.den := by
  have h1 := (Rat.le_iff p q).1 h
  have hp' : 0 ≤ p.num := Rat.num_nonneg.2 hp
  have hq' : 0 ≤ q.num := Rat.num_nonneg.2 (le_trans hp h)
  zify
  rw [abs_of_nonneg hp', abs_of_nonneg hq']
  exact h1

/-- Rounding is monotone. -/
theorem rkey_mono {p q : ℚ} (h : p ≤ q) : rkey p ≤ rkey q := by
  rcases le_or_gt 0 p with hp | hp
  · have hq : 0 ≤ q := le_trans hp h
    unfold rkey; dsimp only
    rw [if_neg (not_lt.2 hp), if_neg (not_lt.2 hq)]
    have hc := natAbs_cross hp h
    have := roundMag_mono (p.num.natAbs * one1) p.den (q.num.natAbs * one1) q.den p.pos q.pos
      (by calc p.num.natAbs * one1 * q.den = (p.num.natAbs * q.den) * one1 := by ring
            _ ≤ (q.num.natAbs * p.den) * one1 := Nat.mul_le_mul_right _ hc
            _ = _ := by ring)
    exact_mod_cast min_le_min_right ovf this
  · rcases le_or_gt 0 q with hq | hq
    · exact le_trans (rkey_nonpos (le_of_lt hp)) (rkey_nonneg hq)
    · have hc := natAbs_cross (p := -q) (q := -p) (by linarith) (by linarith)
      simp only [Rat.num_neg_eq_neg_num, Int.natAbs_neg, Rat.neg_den] at hc
      have := roundMag_mono (q.num.natAbs * one1) q.den (p.num.natAbs * one1) p.den q.pos p.pos
        (by calc q.num.natAbs * one1 * p.den = (q.num.natAbs * p.den) * one1 := by ring
              _ ≤ (p.num.natAbs * q.den) * one1 := Nat.mul_le_mul_right _ hc
              _ = _ := by ring)
      unfold rkey; dsimp only
      rw [if_pos hp, if_pos hq]
      have h2 : min (roundMag (q.num.natAbs * one1) q.den) ovf ≤
        min (roundMag (p.num.natAbs * one1) p.den) ovf := min_le_min_right ovf this
      omega

/-- Rounding is exact on representable values. -/
theorem roundMag_rat (q : ℚ) (N : Nat) (hN : ulp N ∣ N) (h : |q| = (N : ℚ) / (one1 : ℚ)) :
    roundMag (q.num.natAbs * one1) q.den = N := by
  apply roundMag_exact N _ _ q.pos hN
  have h1 : (0 : ℚ) < (one1 : ℚ) := by exact_mod_cast one1_pos
  have h2 : |q| = (q.num.natAbs : ℚ) / (q.den : ℚ) := by
    rw [Rat.abs_def, Rat.divInt_eq_div, Int.cast_natCast, Int.cast_natCast]
  have h3 : (0 : ℚ) < (q.den : ℚ) := by exact_mod_cast q.pos
  rw [h2, div_eq_div_iff (ne_of_gt h3) (ne_of_gt h1)] at h
  exact_mod_cast h

theorem round_of_rep (q : ℚ) (z : Bool) (N : Nat) (hN : IsRep N) (h : |q| = (N : ℚ) / (one1 : ℚ)) :
    round q z = .fin (decide (q < 0) || (decide (q = 0) && z)) N hN := by
  unfold round ofMag
  have := roundMag_rat q N hN.1 h
  simp only [this, hN, dif_pos]

theorem abs_toRat_fin (s : Bool) (n : Nat) (h : IsRep n) :
    |toRat (.fin s n h)| = (n : ℚ) / (one1 : ℚ) := by
  have h1 : (0 : ℚ) < (one1 : ℚ) := by exact_mod_cast one1_pos
  have h2 : (0 : ℚ) ≤ (n : ℚ) / (one1 : ℚ) := by positivity
  unfold toRat
  cases s
  · simp [abs_of_nonneg h2]
  · simp [abs_of_nonneg h2]

/-- A finite double is a fixed point of rounding (its sign is kept when it is not zero). -/
theorem round_toRat (s z : Bool) (n : Nat) (h : IsRep n) (hz : n = 0 → z = s) :
    round (toRat (.fin s n h)) z = .fin s n h := by
  rw [round_of_rep _ _ n h (abs_toRat_fin s n h)]
  have h1 : (0 : ℚ) < (one1 : ℚ) := by exact_mod_cast one1_pos
  congr 1
  unfold toRat
  by_cases hn : n = 0
  · subst hn; simp [hz rfl]
  · have h2 : (0 : ℚ) < (n : ℚ) / (one1 : ℚ) := by
      have : (0 : ℚ) < (n : ℚ) := by exact_mod_cast Nat.pos_of_ne_zero hn
      positivity
    cases s
    · simp [hn, not_lt.2 (le_of_lt h2), Nat.pos_iff_ne_zero.1 one1_pos]
    · simp [hn, h2, Nat.pos_iff_ne_zero.1 one1_pos]

/-- Small naturals are exact. -/
theorem round_nat (k : Nat) (hk : k ≤ 2 ^ 53) : round (k : ℚ) = .fin false (k * one1) (isRep_nat hk) := by
  have h1 : (0 : ℚ) < (one1 : ℚ) := by exact_mod_cast one1_pos
  rw [round_of_rep (k : ℚ) false (k * one1) (isRep_nat hk) (by push_cast; rw [abs_of_nonneg (by positivity)]; field_simp)]
  congr 1
  have : ¬ ((k : ℚ) < 0) := not_lt.2 (by positivity)
  simp [this]

theorem toRat_round_nat (k : Nat) (hk : k ≤ 2 ^ 53) : toRat (round (k : ℚ)) = k := by
  have h1 : (0 : ℚ) < (one1 : ℚ) := by exact_mod_cast one1_pos
  rw [round_nat k hk]
  simp [toRat]; field_simp

/-! ### comparisons -/

theorem cmp_iff (r : Int → Int → Bool) (x y : F64) :
    cmp r x y = true ↔ ∃ a b, key x = some a ∧ key y = some b ∧ r a b = true := by
  unfold cmp
  cases key x <;> cases key y <;> simp

theorem le_iff (x y : F64) : GoFloat.le x y = true ↔ ∃ a b, key x = some a ∧ key y = some b ∧ a ≤ b := by
  show cmp _ x y = true ↔ _
  rw [cmp_iff]; simp

theorem lt_iff (x y : F64) : GoFloat.lt x y = true ↔ ∃ a b, key x = some a ∧ key y = some b ∧ a < b := by
  show cmp _ x y = true ↔ _
  rw [cmp_iff]; simp

theorem eq_iff (x y : F64) : GoFloat.eq x y = true ↔ ∃ a, key x = some a ∧ key y = some a := by
  show cmp _ x y = true ↔ _
  rw [cmp_iff]
  constructor
  · rintro ⟨a, b, h1, h2, h3⟩
    have : a = b := by simpa using h3
    subst this
    exact ⟨a, h1, h2⟩
  · rintro ⟨a, h1, h2⟩; exact ⟨a, a, h1, h2, by simp⟩

theorem isNum_iff (x : F64) : IsNum x ↔ x ≠ .nan := by
  unfold IsNum
  rw [eq_iff]
  cases x <;> simp [key]

theorem isNum_iff_key (x : F64) : IsNum x ↔ ∃ a, key x = some a := by
  unfold IsNum
  rw [eq_iff]; simp

end F64

instance : LawfulCmp F64 where
  zero_num := by
    rw [F64.isNum_iff_key]
    exact ⟨_, F64.key_round 0 false⟩
  lt_num := by
    intro x y h
    rw [F64.lt_iff] at h
    obtain ⟨a, b, h1, h2, _⟩ := h
    exact ⟨(F64.isNum_iff_key x).2 ⟨a, h1⟩, (F64.isNum_iff_key y).2 ⟨b, h2⟩⟩
  le_total := by
    intro x y hx hy
    obtain ⟨a, ha⟩ := (F64.isNum_iff_key x).1 hx
    obtain ⟨b, hb⟩ := (F64.isNum_iff_key y).1 hy
    rcases le_total a b with h | h
    · exact .inl ((F64.le_iff x y).2 ⟨a, b, ha, hb, h⟩)
    · exact .inr ((F64.le_iff y x).2 ⟨b, a, hb, ha, h⟩)
  le_trans := by
    intro x y z h1 h2
    rw [F64.le_iff] at *
    obtain ⟨a, b, ha, hb, h⟩ := h1
    obtain ⟨b', c, hb', hc, h'⟩ := h2
    rw [hb] at hb'
    simp at hb'
    subst hb'
    exact ⟨a, c, ha, hc, le_trans h h'⟩
  lt_iff := by
    intro x y hx hy
    obtain ⟨a, ha⟩ := (F64.isNum_iff_key x).1 hx
    obtain ⟨b, hb⟩ := (F64.isNum_iff_key y).1 hy
    show F64.cmp _ x y = true ↔ F64.cmp _ y x = false
    simp [F64.cmp, ha, hb]

end Wego
