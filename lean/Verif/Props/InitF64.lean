import Verif.Props.InitVectors
import Verif.Proofs.F64Mul
import Verif.Proofs.F64Err

/-! # C78 in float64: the range of the starting values -/

namespace Wego.Props
open Wego Wego.Spec

/-- the position of a quotient by a natural number -/
theorem key_div_dim {s : Bool} {n : Nat} {h : IsRep n} {a : Int} (hk : F64.key (.fin s n h) = some a) (k : Nat) (h0 : 0 < k)
    (h2 : k ≤ 2 ^ 53) : F64.key ((F64.fin s n h) /. (GoFloat.ofRat (k : ℚ) : F64)) = some (F64.rkey ((a : ℚ) / one1 / k)) := by
  have hp : (0 : ℚ) < one1 := by exact_mod_cast one1_pos
  rw [F64.ofRat_eq, F64.round_nat k h2]
  show F64.key (F64.div _ _) = _
  have hkn : k * one1 ≠ 0 := Nat.mul_ne_zero (by omega) (by have := one1_pos; omega)
  simp only [F64.div, hkn, if_false]
  rw [F64.key_round, F64.toRat_of_key hk]
  have e1 : F64.toRat (.fin false (k * one1) (isRep_nat h2)) = k := by
    simp [F64.toRat, hp.ne']
  rw [e1]

theorem isRep_half : IsRep (one1 / 2) := by decide +kernel
theorem round_half : F64.round (1 / 2) = .fin false (one1 / 2) isRep_half := by decide +kernel
theorem neg_half : F64.toRat (F64.neg (.fin false (one1 / 2) isRep_half)) = -(1 / 2) := by decide +kernel
theorem round_neg_half : F64.round (-(1 / 2)) = F64.neg (.fin false (one1 / 2) isRep_half) := by decide +kernel
theorem rkey_half : F64.rkey (1 / 2) = ((one1 / 2 : Nat) : Int) := by
  have := F64.key_round (1 / 2) false
  rw [round_half] at this
  exact (Option.some.inj this).symm
theorem rkey_neg_half : F64.rkey (-(1 / 2)) = -((one1 / 2 : Nat) : Int) := by
  have := F64.key_round (-(1 / 2)) false
  rw [round_neg_half] at this
  exact (Option.some.inj this).symm
theorem half_div : ((one1 / 2 : Nat) : ℚ) / one1 = 1 / 2 := by
  have h : one1 = 2 * (one1 / 2) := by decide +kernel
  have hp : (0 : ℚ) < one1 := by exact_mod_cast one1_pos
  rw [div_eq_iff hp.ne']
  generalize one1 / 2 = m at h ⊢
  rw [h]; push_cast; ring

theorem fin_of_key {x : F64} {a : Int} (h : F64.key x = some a) (ha : a.natAbs < ovf) : ∃ s n k, x = .fin s n k := by
  cases x with
  | nan => cases h
  | inf s =>
    exfalso
    have := Option.some.inj h
    cases s <;> simp at this <;> omega
  | fin s n k => exact ⟨s, n, k, rfl⟩

theorem centred_eq (dim : Nat) (x : F64) : centred dim x = (x -. GoFloat.ofRat (1 / 2)) /. GoFloat.ofRat dim := rfl

/-- **C78 (range, float64).** With `rand.Float64()` returning a float64 in `[0, 1)` and `1 <= Dim <= 2^53`, no starting value is
NaN or infinite; those of word2vec and LexVec lie between the float64 numbers nearest to `-1/(2 Dim)` and `1/(2 Dim)`, those
of GloVe between 0 and the float64 number nearest to `1/Dim`. -/
theorem C78_range_float64 (dim : Nat) (hd : 1 ≤ dim) (hd2 : dim ≤ 2 ^ 53) (x : F64) (h0 : GoFloat.le fzero x = true)
    (h1 : GoFloat.lt x (GoFloat.ofRat 1) = true) :
    (GoFloat.le (GoFloat.ofRat (-(1 / (2 * dim)))) (centred dim x) = true ∧
      GoFloat.le (centred dim x) (GoFloat.ofRat (1 / (2 * dim))) = true ∧ F64.IsFin (centred dim x)) ∧
    (GoFloat.le fzero (x /. GoFloat.ofRat (dim : ℚ)) = true ∧
      GoFloat.le (x /. GoFloat.ofRat (dim : ℚ)) (GoFloat.ofRat (1 / dim)) = true ∧ F64.IsFin (x /. GoFloat.ofRat (dim : ℚ))) := by
  have hp : (0 : ℚ) < one1 := by exact_mod_cast one1_pos
  have hdq : (0 : ℚ) < dim := by exact_mod_cast hd
  have hd1 : (1 : ℚ) ≤ dim := by exact_mod_cast hd
  have hov := F64.one1_lt_ovf
  obtain ⟨z, a, k1, k2, k3⟩ := (F64.le_iff _ _).1 h0
  rw [F64.key_fzero] at k1
  have hz := Option.some.inj k1
  obtain ⟨a', o, k4, k5, k6⟩ := (F64.lt_iff _ _).1 h1
  rw [k2] at k4
  rw [F64.key_one] at k5
  have ha' := Option.some.inj k4
  have ho := Option.some.inj k5
  have ha0 : 0 ≤ a := by omega
  have ha1 : a < one1 := by omega
  have hq0 : (0 : ℚ) ≤ (a : ℚ) / one1 := div_nonneg (by exact_mod_cast ha0) hp.le
  have hq1 : (a : ℚ) / one1 ≤ 1 := by
    rw [div_le_one hp]; exact_mod_cast ha1.le
  obtain ⟨s, n, hn, rfl⟩ := fin_of_key k2 (by omega)
  have unit : ∀ q : ℚ, |q| ≤ 1 → (F64.rkey q).natAbs < ovf := by
    intro q hq
    rw [abs_le] at hq
    have e1 := F64.rkey_mono hq.2
    have e2 := F64.rkey_mono hq.1
    have e3 : F64.rkey (-1) = -(one1 : Int) := by
      have := F64.key_round (-1) false
      have e : F64.round (-1) = F64.neg (F64.round 1) := by decide +kernel
      have k1 : F64.key (F64.round 1) = some (one1 : Int) := F64.key_one
      obtain ⟨s', n', h', e'⟩ := fin_of_key k1 (by omega)
      rw [e, e'] at this
      rw [e'] at k1
      cases s' <;> simp [F64.neg, F64.key] at this k1 <;> omega
    rw [F64.rkey_one] at e1
    rw [e3] at e2
    omega
  have finish : ∀ v : F64, ∀ q lo hi : ℚ, F64.key v = some (F64.rkey q) → lo ≤ q → q ≤ hi → |q| ≤ 1 →
      GoFloat.le (GoFloat.ofRat lo) v = true ∧ GoFloat.le v (GoFloat.ofRat hi) = true ∧ F64.IsFin v := by
    intro v q lo hi hv hlo hhi hu
    refine ⟨(F64.le_iff _ _).2 ⟨_, _, F64.key_round lo false, hv, F64.rkey_mono hlo⟩,
      (F64.le_iff _ _).2 ⟨_, _, hv, F64.key_round hi false, F64.rkey_mono hhi⟩, ?_⟩
    obtain ⟨s, n, h, rfl⟩ := fin_of_key hv (unit q hu)
    trivial
  constructor
  · -- `x - 0.5`
    have hsub : F64.key ((F64.fin s n hn) -. (GoFloat.ofRat (1 / 2) : F64)) = some (F64.rkey ((a : ℚ) / one1 - 1 / 2)) := by
      rw [F64.ofRat_eq, round_half]
      show F64.key (F64.round (F64.toRat (.fin s n hn) + F64.toRat (F64.neg (.fin false (one1 / 2) isRep_half))) _) = _
      rw [F64.key_round, F64.toRat_of_key k2, neg_half, sub_eq_add_neg]
    have hb : |(a : ℚ) / one1 - 1 / 2| ≤ 1 / 2 := by rw [abs_le]; constructor <;> linarith
    obtain ⟨s2, n2, hn2, e2⟩ := fin_of_key hsub (unit _ (le_trans hb (by norm_num)))
    rw [centred_eq, e2]
    rw [e2] at hsub
    rw [abs_le] at hb
    obtain ⟨b, hbdef⟩ : ∃ b, b = F64.rkey ((a : ℚ) / one1 - 1 / 2) := ⟨_, rfl⟩
    have u1 : b ≤ ((one1 / 2 : Nat) : Int) := by
      rw [hbdef]; exact le_trans (F64.rkey_mono hb.2) (le_of_eq rkey_half)
    have u2 : -((one1 / 2 : Nat) : Int) ≤ b := by
      rw [hbdef]; exact le_trans (le_of_eq rkey_neg_half.symm) (F64.rkey_mono hb.1)
    rw [← hbdef] at hsub
    have v1 : (b : ℚ) / one1 ≤ 1 / 2 := by
      rw [← half_div]
      exact div_le_div_of_nonneg_right (by have := Int.cast_le (R := ℚ).2 u1; rwa [Int.cast_natCast] at this) hp.le
    have v2 : -(1 / 2) ≤ (b : ℚ) / one1 := by
      rw [← half_div, ← neg_div]
      exact div_le_div_of_nonneg_right (by have := Int.cast_le (R := ℚ).2 u2; rwa [Int.cast_neg, Int.cast_natCast] at this) hp.le
    refine finish _ _ _ _ (key_div_dim hsub dim hd hd2) ?_ ?_ ?_
    · rw [le_div_iff₀ hdq]
      have : -(1 / (2 * (dim : ℚ))) * dim = -(1 / 2) := by field_simp
      rw [this]; exact v2
    · rw [div_le_iff₀ hdq]
      have : (1 / (2 * (dim : ℚ))) * dim = 1 / 2 := by field_simp
      rw [this]; exact v1
    · rw [abs_div, abs_of_pos hdq, div_le_one hdq, abs_le]
      constructor <;> linarith
  · have hk := key_div_dim k2 dim hd hd2
    have := finish _ _ 0 (1 / dim) hk (by positivity) (div_le_div_of_nonneg_right hq1 hdq.le) (by
      rw [abs_div, abs_of_pos hdq, div_le_one hdq, abs_of_nonneg hq0]; linarith)
    exact this

/-- `C78_range_float64` for dimension 10 and a draw of 0.3. -/
example := C78_range_float64 10 (by decide) (by decide) (F64.round (3 / 10)) (by decide +kernel) (by decide +kernel)

end Wego.Props
