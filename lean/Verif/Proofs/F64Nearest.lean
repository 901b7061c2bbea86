import Verif.Proofs.F64Mul

/-! Rounding gives a nearest representable value; printing with six decimals is stable under reading back. -/

namespace Wego

theorem rne_abs (a b : Nat) (hb : 0 < b) : 2 * |(rne a b : ℤ) * b - a| ≤ b := by
  obtain ⟨h1, h2⟩ := rne_err a b hb
  rw [show (2 : ℤ) * |(rne a b : ℤ) * b - a| = |2 * ((rne a b : ℤ) * b - a)| by rw [abs_mul]; rfl, abs_le]
  have h1' : (2 * a : ℤ) ≤ 2 * (rne a b * b) + b := by exact_mod_cast h1
  have h2' : (2 * (rne a b * b) : ℤ) ≤ 2 * a + b := by exact_mod_cast h2
  constructor <;> linarith

/-- `rne` is a nearest integer. -/
theorem rne_nearest (a b k : Nat) (hb : 0 < b) : |(rne a b : ℤ) * b - a| ≤ |(k : ℤ) * b - a| := by
  by_cases e : k = rne a b
  · rw [e]
  · have h := rne_abs a b hb
    have h1 : (b : ℤ) ≤ |(k : ℤ) * b - (rne a b : ℤ) * b| := by
      rw [← sub_mul, abs_mul]
      have : (1 : ℤ) ≤ |(k : ℤ) - rne a b| := by
        apply Int.one_le_abs; omega
      have h3 : |(b : ℤ)| = b := by simp
      rw [h3]; nlinarith
    have h2 := abs_sub_le ((k : ℤ) * b) a ((rne a b : ℤ) * b)
    rw [abs_sub_comm (a : ℤ)] at h2
    linarith

/-- An integer strictly closer than one half is the rounding. -/
theorem rne_of_near (a b N : Nat) (hb : 0 < b) (h : 2 * |(N : ℤ) * b - a| < b) : rne a b = N := by
  by_contra e
  have h0 := rne_abs a b hb
  have h1 : (b : ℤ) ≤ |(N : ℤ) * b - (rne a b : ℤ) * b| := by
    rw [← sub_mul, abs_mul]
    have : (1 : ℤ) ≤ |(N : ℤ) - rne a b| := by
      apply Int.one_le_abs; omega
    have h3 : |(b : ℤ)| = b := by simp
    rw [h3]; nlinarith
  have h2 := abs_sub_le ((N : ℤ) * b) a ((rne a b : ℤ) * b)
  rw [abs_sub_comm (a : ℤ)] at h2
  linarith

/-- `roundMag a b` is a nearest value with 53 significant bits to `a / b`. -/
theorem roundMag_nearest (a b n : Nat) (hb : 0 < b) (hn : ulp n ∣ n) :
    |(roundMag a b : ℤ) * b - a| ≤ |(n : ℤ) * b - a| := by
  have key : ∀ k : Nat, ulp (a / b) ∣ k → |(roundMag a b : ℤ) * b - a| ≤ |(k : ℤ) * b - a| := by
    rintro k ⟨c, rfl⟩
    have := rne_nearest a (b * ulp (a / b)) c (Nat.mul_pos hb (ulp_pos _))
    unfold roundMag; dsimp only
    push_cast at this ⊢
    convert this using 2 <;> ring
  by_cases hd : ulp (a / b) ∣ n
  · exact key n hd
  · -- n lies below the binade of a/b
    have hlog : Nat.log2 n < Nat.log2 (a / b) := by
      by_contra hc
      apply hd
      refine dvd_trans ?_ hn
      unfold ulp; exact Nat.pow_dvd_pow 2 (by omega)
    have h52 : 52 < Nat.log2 (a / b) := by
      by_contra hc
      apply hd
      unfold ulp
      rw [show Nat.log2 (a / b) - 52 = 0 by omega]; simp
    have hq0 : a / b ≠ 0 := by intro hc; rw [hc] at h52; simp at h52
    have hP := key (2 ^ Nat.log2 (a / b)) (by unfold ulp; exact Nat.pow_dvd_pow 2 (by omega))
    have h1 : 2 ^ Nat.log2 (a / b) * b ≤ a :=
      le_trans (Nat.mul_le_mul_right _ (pow_log2_le hq0)) (Nat.div_mul_le_self a b)
    have h2 : n < 2 ^ Nat.log2 (a / b) := lt_of_lt_of_le (lt_pow_log2 n) (Nat.pow_le_pow_right (by omega) hlog)
    have h3 : n * b ≤ 2 ^ Nat.log2 (a / b) * b := Nat.mul_le_mul_right _ h2.le
    refine le_trans hP ?_
    generalize 2 ^ Nat.log2 (a / b) = P at *
    have h1' : (P * b : ℤ) ≤ a := by exact_mod_cast h1
    have h3' : (n * b : ℤ) ≤ P * b := by exact_mod_cast h3
    rw [abs_of_nonpos (by linarith), abs_of_nonpos (by linarith)]
    linarith

theorem five_not_dvd_one1 : ¬ 5 ∣ one1 := by
  rw [one1_eq]; intro h
  exact absurd (Nat.Prime.dvd_of_dvd_pow Nat.prime_five h) (by decide)

/-- Printing a double with six decimals, reading the text back and printing again gives the same six
decimals. -/
theorem six_stable (n : Nat) (hn : ulp n ∣ n) :
    rne (roundMag (rne (n * 1000000) one1 * one1) 1000000 * 1000000) one1 = rne (n * 1000000) one1 := by
  set N := rne (n * 1000000) one1 with hN
  set m := roundMag (N * one1) 1000000 with hm
  have hnear := roundMag_nearest (N * one1) 1000000 n (by norm_num) hn
  rw [← hm] at hnear
  have herr := rne_abs (n * 1000000) one1 one1_pos
  rw [← hN] at herr
  rw [abs_sub_comm] at herr
  push_cast at herr hnear
  by_cases hlt : 2 * |(m : ℤ) * 1000000 - N * one1| < one1
  · apply rne_of_near _ _ _ one1_pos
    rw [abs_sub_comm]; push_cast; exact hlt
  · have e1 : |(m : ℤ) * 1000000 - N * one1| = |(n : ℤ) * 1000000 - N * one1| := by
      push Not at hlt; linarith
    have e2 : 2 * |(n : ℤ) * 1000000 - N * one1| = one1 := by push Not at hlt; linarith
    have hmn : m = n := by
      rcases abs_eq_abs.mp e1 with h | h
      · have : (m : ℤ) = n := by linarith
        exact_mod_cast this
      · exfalso
        have h5 : (5 : ℤ) ∣ one1 := by
          rcases abs_choice ((n : ℤ) * 1000000 - N * one1) with hc | hc
          · rw [hc] at e2
            have : ((n : ℤ) - m) * 1000000 = one1 := by linarith
            exact ⟨((n : ℤ) - m) * 200000, by rw [← this]; ring⟩
          · rw [hc] at e2
            have : ((m : ℤ) - n) * 1000000 = one1 := by linarith
            exact ⟨((m : ℤ) - n) * 200000, by rw [← this]; ring⟩
        exact five_not_dvd_one1 (by exact_mod_cast h5)
    rw [hmn, ← hN]

/-- Reading back the six decimals of a finite double does not overflow. -/
theorem six_rep (n : Nat) (hn : IsRep n) : IsRep (roundMag (rne (n * 1000000) one1 * one1) 1000000) := by
  refine ⟨ulp_dvd_roundMag _ _, ?_⟩
  set N := rne (n * 1000000) one1 with hN
  set m := roundMag (N * one1) 1000000 with hm
  have hnear := roundMag_nearest (N * one1) 1000000 n (by norm_num) hn.1
  rw [← hm] at hnear
  have herr := rne_abs (n * 1000000) one1 one1_pos
  rw [← hN, abs_sub_comm] at herr
  push_cast at herr hnear
  have hd : (m : ℤ) < n + one1 := by
    have h1 := abs_sub_le ((m : ℤ) * 1000000) (N * one1) ((n : ℤ) * 1000000)
    rw [abs_sub_comm ((N : ℤ) * one1)] at h1
    have h2 := le_abs_self ((m : ℤ) * 1000000 - (n : ℤ) * 1000000)
    have h3 : (0 : ℤ) < one1 := by exact_mod_cast one1_pos
    nlinarith
  have hgap : n + one1 ≤ ovf := by
    by_contra hc
    push Not at hc
    have hno : n < ovf := hn.2
    have h1 : 2 ^ 2097 ≤ n := by
      have : 2 ^ 2097 + one1 ≤ ovf := by
        rw [one1_eq, ovf_eq, show (2098 : Nat) = 2097 + 1 from rfl, Nat.pow_succ 2 2097]
        have := Nat.pow_le_pow_right (show 0 < 2 by omega) (show 1074 ≤ 2097 by omega)
        generalize 2 ^ 1074 = x at *
        generalize 2 ^ 2097 = y at *
        omega
      generalize 2 ^ 2097 = y at *
      omega
    have h2 : 2097 ≤ Nat.log2 n := (Nat.le_log2 (by
      have := Nat.two_pow_pos 2097
      generalize 2 ^ 2097 = y at *
      omega)).2 h1
    have hu : 2 ^ 2045 ∣ ulp n := by unfold ulp; exact Nat.pow_dvd_pow 2 (by omega)
    have hu1 : one1 ∣ n := by
      refine dvd_trans ?_ (dvd_trans hu hn.1)
      rw [one1_eq]; exact Nat.pow_dvd_pow 2 (by omega)
    have hu2 : one1 ∣ ovf := by
      rw [one1_eq, ovf_eq]; exact Nat.pow_dvd_pow 2 (by omega)
    have hs : one1 ∣ ovf - n := Nat.dvd_sub hu2 hu1
    have := Nat.le_of_dvd (by omega) hs
    omega
  omega

end Wego
