import Verif.Proofs.F64

/-! Square root and the other operations of binary64 as monotone functions of positions. -/

namespace Wego

/-- the rounding decision of `roundSqrtMag` for a fixed unit -/
def sqrtRnd (a u : Nat) : Nat :=
  let q := Nat.sqrt (a / (u * u))
  let t := (2 * q + 1) * u
  if 4 * a < t * t then q else if t * t < 4 * a then q + 1 else q + q % 2

theorem roundSqrtMag_eq (a : Nat) : roundSqrtMag a = sqrtRnd a (ulp (Nat.sqrt a)) * ulp (Nat.sqrt a) := rfl

theorem le_sqrtRnd (a u : Nat) : Nat.sqrt (a / (u * u)) ≤ sqrtRnd a u := by
  unfold sqrtRnd; dsimp only; split
  · exact le_refl _
  · split <;> omega

theorem sqrtRnd_le (a u : Nat) : sqrtRnd a u ≤ Nat.sqrt (a / (u * u)) + 1 := by
  unfold sqrtRnd; dsimp only; split
  · omega
  · split <;> omega

theorem sqrtRnd_mono {a b : Nat} (u : Nat) (h : a ≤ b) : sqrtRnd a u ≤ sqrtRnd b u := by
  have hq : Nat.sqrt (a / (u * u)) ≤ Nat.sqrt (b / (u * u)) := Nat.sqrt_le_sqrt (Nat.div_le_div_right h)
  rcases Nat.lt_or_eq_of_le hq with hlt | heq
  · exact le_trans (sqrtRnd_le a u) (le_trans hlt (le_sqrtRnd b u))
  · unfold sqrtRnd
    rw [heq]
    dsimp only
    generalize (2 * (b / (u * u)).sqrt + 1) * u * ((2 * (b / (u * u)).sqrt + 1) * u) = T
    split_ifs <;> omega

theorem roundSqrtMag_le (a : Nat) : roundSqrtMag a ≤ 2 ^ (max (Nat.log2 (Nat.sqrt a)) 52 + 1) := by
  rw [roundSqrtMag_eq]
  set L := Nat.log2 (Nat.sqrt a) with hL
  have hu : ulp (Nat.sqrt a) = 2 ^ (L - 52) := rfl
  rw [hu]
  have h1 : Nat.sqrt (a / (2 ^ (L - 52) * 2 ^ (L - 52))) < 2 ^ 53 := by
    rw [Nat.sqrt_lt, Nat.div_lt_iff_lt_mul (by positivity)]
    have h2 : Nat.sqrt a < 2 ^ (L + 1) := lt_pow_log2 _
    rw [Nat.sqrt_lt] at h2
    refine lt_of_lt_of_le h2 ?_
    rw [← Nat.pow_add, ← Nat.pow_add, ← Nat.pow_add, ← Nat.pow_add]
    exact Nat.pow_le_pow_right (by omega) (by omega)
  have h3 : sqrtRnd a (2 ^ (L - 52)) ≤ 2 ^ 53 := le_trans (sqrtRnd_le _ _) h1
  calc sqrtRnd a (2 ^ (L - 52)) * 2 ^ (L - 52) ≤ 2 ^ 53 * 2 ^ (L - 52) := Nat.mul_le_mul_right _ h3
    _ = 2 ^ (max L 52 + 1) := by rw [← Nat.pow_add]; congr 1; omega

theorem le_roundSqrtMag (a : Nat) (h : 52 ≤ Nat.log2 (Nat.sqrt a)) :
    2 ^ Nat.log2 (Nat.sqrt a) ≤ roundSqrtMag a := by
  rw [roundSqrtMag_eq]
  set L := Nat.log2 (Nat.sqrt a) with hL
  have hu : ulp (Nat.sqrt a) = 2 ^ (L - 52) := rfl
  rw [hu]
  have hn : Nat.sqrt a ≠ 0 := by intro hc; rw [hL, hc] at h; simp at h
  have h1 : 2 ^ 52 ≤ Nat.sqrt (a / (2 ^ (L - 52) * 2 ^ (L - 52))) := by
    rw [Nat.le_sqrt, Nat.le_div_iff_mul_le (by positivity)]
    have h2 : 2 ^ L ≤ Nat.sqrt a := pow_log2_le hn
    rw [Nat.le_sqrt] at h2
    refine le_trans ?_ h2
    rw [← Nat.pow_add, ← Nat.pow_add, ← Nat.pow_add, ← Nat.pow_add]
    exact Nat.pow_le_pow_right (by omega) (by omega)
  calc 2 ^ L = 2 ^ 52 * 2 ^ (L - 52) := by rw [← Nat.pow_add]; congr 1; omega
    _ ≤ _ := Nat.mul_le_mul_right _ (le_trans h1 (le_sqrtRnd _ _))

theorem ulp_dvd_roundSqrtMag (a : Nat) : ulp (roundSqrtMag a) ∣ roundSqrtMag a := by
  have hle := roundSqrtMag_le a
  by_cases hbig : roundSqrtMag a = 2 ^ (max (Nat.log2 (Nat.sqrt a)) 52 + 1)
  · rw [hbig]
    unfold ulp
    apply Nat.pow_dvd_pow
    rw [Nat.log2_two_pow]; omega
  · have hlt := lt_of_le_of_ne hle hbig
    have h1 := log2_lt_pow hlt
    have h2 : ulp (roundSqrtMag a) ∣ ulp (Nat.sqrt a) := by
      unfold ulp; apply Nat.pow_dvd_pow; omega
    refine dvd_trans h2 ?_
    rw [roundSqrtMag_eq]
    exact Dvd.intro_left _ rfl

theorem roundSqrtMag_mono {a b : Nat} (h : a ≤ b) : roundSqrtMag a ≤ roundSqrtMag b := by
  have hq : Nat.sqrt a ≤ Nat.sqrt b := Nat.sqrt_le_sqrt h
  by_cases hu : ulp (Nat.sqrt a) = ulp (Nat.sqrt b)
  · rw [roundSqrtMag_eq, roundSqrtMag_eq, hu]
    exact Nat.mul_le_mul_right _ (sqrtRnd_mono _ h)
  · have h2 : max (Nat.log2 (Nat.sqrt a)) 52 + 1 ≤ Nat.log2 (Nat.sqrt b) := by
      have := log2_mono hq
      by_contra hc
      apply hu
      unfold ulp; congr 1; omega
    exact le_trans (roundSqrtMag_le a) (le_trans (Nat.pow_le_pow_right (by omega) h2)
      (le_roundSqrtMag b (by omega)))

namespace F64

theorem key_ofMag (n : Nat) (h : ulp n ∣ n) : key (ofMag false n) = some ((min n ovf : Nat) : Int) := by
  unfold ofMag
  by_cases hr : IsRep n
  · rw [dif_pos hr]
    simp [key, Nat.min_eq_left (le_of_lt hr.2)]
  · rw [dif_neg hr]
    have : ovf ≤ n := by
      by_contra hc
      exact hr ⟨h, by omega⟩
    simp [key, Nat.min_eq_right this]

/-- Position of the square root of a non-negative position. -/
def skey (n : Nat) : Nat := if n < ovf then min (roundSqrtMag (n * one1)) ovf else ovf

theorem skey_zero : skey 0 = 0 := by
  simp [skey, ovf_pos, roundSqrtMag, ulp]

theorem key_sqrt (x : F64) (n : Nat) (h : key x = some (n : Int)) : key (sqrt x) = some (skey n : Int) := by
  cases x with
  | nan => simp [key] at h
  | inf s =>
    cases s with
    | false =>
      simp only [key, Bool.false_eq_true, if_false, Option.some.injEq] at h
      have : n = ovf := by exact_mod_cast h.symm
      subst this
      simp [sqrt, key, skey]
    | true =>
      simp only [key, if_true, Option.some.injEq] at h
      have := ovf_pos
      omega
  | fin s m hm =>
    by_cases hm0 : m = 0
    · subst hm0
      have : n = 0 := by cases s <;> simp [key] at h <;> omega
      subst this
      simp only [sqrt, if_true, skey_zero]
      cases s <;> simp [key]
    · cases s with
      | true => simp [key] at h; omega
      | false =>
        simp only [key, Bool.false_eq_true, if_false, Option.some.injEq, Nat.cast_inj] at h
        subst h
        simp only [sqrt, hm0, if_false, Bool.false_eq_true]
        rw [key_ofMag _ (ulp_dvd_roundSqrtMag _), skey, if_pos hm.2]

theorem skey_mono {a b : Nat} (h : a ≤ b) : skey a ≤ skey b := by
  unfold skey
  split
  · split
    · have := roundSqrtMag_mono (Nat.mul_le_mul_right one1 h)
      omega
    · omega
  · split
    · omega
    · omega

theorem toRat_of_key {s : Bool} {n : Nat} {h : IsRep n} {a : Int} (hk : key (.fin s n h) = some a) :
    toRat (.fin s n h) = (a : ℚ) / (one1 : ℚ) := by
  cases s
  · simp only [key, Bool.false_eq_true, if_false, Option.some.injEq] at hk
    subst hk
    simp [toRat]
  · simp only [key, if_true, Option.some.injEq] at hk
    subst hk
    simp [toRat]; ring

/-- Subtraction is monotone in the first and antitone in the second argument (positions). -/
theorem key_one_sub (y : F64) (b : Nat) (h : key y = some (b : Int)) :
    key ((GoFloat.ofRat 1 : F64) -. y) = some (if b < ovf then rkey (1 - (b : ℚ) / one1) else -(ovf : Int)) := by
  have h1 : (GoFloat.ofRat 1 : F64) = .fin false (1 * one1) (isRep_nat (by norm_num)) := by
    have := round_nat 1 (by norm_num)
    simpa using this
  rw [h1]
  show key (add _ (neg y)) = _
  have hp : (0 : ℚ) < one1 := by exact_mod_cast one1_pos
  cases y with
  | nan => simp [key] at h
  | inf s =>
    cases s with
    | false =>
      simp only [key, Bool.false_eq_true, if_false, Option.some.injEq] at h
      have : b = ovf := by exact_mod_cast h.symm
      subst this
      simp [neg, add, key]
    | true =>
      simp only [key, if_true, Option.some.injEq] at h
      have := ovf_pos
      omega
  | fin s n hn =>
    have hb : b < ovf := by
      have := hn.2
      cases s <;> simp [key] at h <;> omega
    rw [if_pos hb]
    simp only [neg, add]
    rw [key_round]
    congr 2
    have e1 : toRat (.fin false (1 * one1) (isRep_nat (by norm_num))) = 1 := by
      simp [toRat, hp.ne']
    have e2 : toRat (.fin (!s) n hn) = - ((b : ℚ) / one1) := by
      have := toRat_of_key h
      cases s
      · simp [toRat] at this ⊢; exact this
      · simp [toRat] at this ⊢; linarith
    rw [e1, e2]; ring

theorem key_div_nat (x : F64) (a : Nat) (h : key x = some (a : Int)) (k : Nat) (hk : 0 < k) (hk2 : k ≤ 2 ^ 53) :
    ∃ b : Nat, key (x /. (GoFloat.ofRat (k : ℚ) : F64)) = some (b : Int) ∧
      (b : Int) = if a < ovf then rkey ((a : ℚ) / one1 / k) else (ovf : Int) := by
  have hp : (0 : ℚ) < one1 := by exact_mod_cast one1_pos
  rw [ofRat_eq, round_nat k hk2]
  show ∃ b : Nat, key (div x _) = _ ∧ _
  have hkn : k * one1 ≠ 0 := Nat.mul_ne_zero (by omega) (by have := one1_pos; omega)
  cases x with
  | nan => simp [key] at h
  | inf s =>
    cases s with
    | false =>
      simp only [key, Bool.false_eq_true, if_false, Option.some.injEq] at h
      have : a = ovf := by exact_mod_cast h.symm
      subst this
      exact ⟨ovf, by simp [div, key], by simp⟩
    | true =>
      simp only [key, if_true, Option.some.injEq] at h
      have := ovf_pos
      omega
  | fin s n hn =>
    have ha : a < ovf := by
      have := hn.2
      cases s <;> simp [key] at h <;> omega
    simp only [div, hkn, if_false, ha, if_true]
    rw [key_round, toRat_of_key h]
    have e1 : toRat (.fin false (k * one1) (isRep_nat hk2)) = k := by
      simp [toRat, hp.ne']
    rw [e1]
    have hnn : 0 ≤ rkey (((a : Int) : ℚ) / one1 / k) := rkey_nonneg (by positivity)
    obtain ⟨b, hb⟩ := Int.eq_ofNat_of_zero_le hnn
    exact ⟨b, by rw [hb], by rw [← hb]; simp⟩

end F64
end Wego
