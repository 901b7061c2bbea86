import Mathlib.Analysis.SpecialFunctions.Sigmoid
import Mathlib.Analysis.Calculus.Deriv.MeanValue
import Verif.Model.Sigmoid
import Verif.Proofs.F64Sqrt

/-! # C32, C33: the sigmoid table -/

namespace Wego.Props
open Wego

/-! ### C32: real arithmetic -/

theorem sigEntry_real (i : Nat) : (sigEntry i : ℝ) = Real.sigmoid ((i : ℝ) * (12 / 1000) - 6) := by
  unfold sigEntry maxExp expTableSize
  simp only [real_ofRat, real_div, real_mul, real_sub, real_add, real_exp]
  push_cast
  have e : ((i : ℝ) / 1000 * 2 - 1) * 6 = (i : ℝ) * (12 / 1000) - 6 := by ring
  rw [e, Real.sigmoid_def, Real.exp_neg]
  have := Real.exp_pos ((i : ℝ) * (12 / 1000) - 6)
  field_simp

theorem sigIndex_real (x : ℝ) (h : -6 ≤ x) : sigIndex x = ⌊(x + 6) * (1000 / 12)⌋ := by
  unfold sigIndex sigCache maxExp expTableSize
  simp only [real_ofRat, real_div, real_mul, real_add, real_toInt]
  push_cast
  have e : (x + 6) * (1000 / 6 / 2) = (x + 6) * (1000 / 12) := by ring
  rw [e, if_pos]
  have : 0 ≤ x + 6 := by linarith
  positivity

theorem sigmoid_lipschitz (x y : ℝ) (h : x ≤ y) : Real.sigmoid y - Real.sigmoid x ≤ (y - x) / 4 := by
  have hd : ∀ z, HasDerivAt (fun z => z / 4 - Real.sigmoid z) (1 / 4 - Real.sigmoid z * (1 - Real.sigmoid z)) z := by
    intro z
    exact ((hasDerivAt_id z).div_const 4).sub (Real.hasDerivAt_sigmoid z)
  have hm : Monotone (fun z => z / 4 - Real.sigmoid z) := by
    apply monotone_of_deriv_nonneg (fun z => (hd z).differentiableAt)
    intro z
    rw [(hd z).deriv]
    nlinarith [sq_nonneg (Real.sigmoid z - 1/2)]
  have := hm h
  simp only at this
  linarith

/-- **C32.** In real arithmetic, for every `x` in `(-6, 6)` the lookup succeeds and returns a value in
`(0,1)` that is at most the logistic function of `x` and less than 0.003 below it. -/
theorem C32_sigmoid_accuracy (x : ℝ) (h1 : -6 < x) (h2 : x < 6) :
    ∃ v : ℝ, sigmoidAt sigTable x = .ok v ∧ 0 < v ∧ v < 1 ∧
      v ≤ 1 / (1 + Real.exp (-x)) ∧ 1 / (1 + Real.exp (-x)) - v < 0.003 := by
  have hidx := sigIndex_real x (le_of_lt h1)
  set k := ⌊(x + 6) * (1000 / 12)⌋ with hk
  have hk0 : 0 ≤ k := Int.floor_nonneg.2 (by have : 0 ≤ x + 6 := by linarith
                                             positivity)
  have hk1 : k < 1000 := by
    rw [hk, Int.floor_lt]; push_cast; linarith
  obtain ⟨n, hn⟩ := Int.eq_ofNat_of_zero_le hk0
  have hn1 : n < 1000 := by omega
  have hfl := Int.floor_le ((x + 6) * (1000 / 12))
  have hlt := Int.lt_floor_add_one ((x + 6) * (1000 / 12))
  rw [← hk, hn] at hfl hlt
  push_cast at hfl hlt
  refine ⟨sigEntry n, ?_, ?_, ?_, ?_, ?_⟩
  · unfold sigmoidAt idxI
    rw [hidx, hn]
    have : ¬ ((Int.ofNat n) < 0) := by simp
    simp only [Int.ofNat_eq_natCast] at *
    rw [if_neg (by omega), Int.toNat_natCast, idx_eq_ok]
    simp [sigTable, expTableSize, hn1]
  · rw [sigEntry_real]; exact Real.sigmoid_pos _
  · rw [sigEntry_real]; exact Real.sigmoid_lt_one _
  · rw [sigEntry_real, one_div, ← Real.sigmoid_def]
    apply Real.sigmoid_le
    linarith
  · rw [sigEntry_real, one_div, ← Real.sigmoid_def]
    have hx : (n : ℝ) * (12 / 1000) - 6 ≤ x := by linarith
    have := sigmoid_lipschitz _ _ hx
    have h3 : x - ((n : ℝ) * (12 / 1000) - 6) < 12 / 1000 := by linarith
    calc _ ≤ (x - ((n : ℝ) * (12 / 1000) - 6)) / 4 := this
      _ < 0.003 := by norm_num; linarith

/-- `C32_sigmoid_accuracy` at 1/2. -/
example := C32_sigmoid_accuracy (1/2) (by norm_num) (by norm_num)

/-! ### C33: binary64 -/

/-- The largest float64 below 6. -/
def lastBelow6 : F64 := GoFloat.ofRat (6 - 1 / 2 ^ 50)

theorem lastBelow6_key : F64.key lastBelow6 = some ((6 * 2 ^ 50 - 1) * 2 ^ 1024 : Nat) := by decide +kernel

theorem sig_last : sigIndex lastBelow6 = 1000 := by decide +kernel

/-- The float64 before `lastBelow6`. -/
def prevBelow6 : F64 := GoFloat.ofRat (6 - 1 / 2 ^ 49)

theorem sig_prev : sigIndex prevBelow6 = 999 := by decide +kernel

theorem rkey_nat (k : Nat) (hk : k ≤ 2 ^ 53) : F64.rkey (k : ℚ) = (k * one1 : Nat) := by
  have h1 := F64.key_round (k : ℚ) false
  rw [F64.round_nat k hk] at h1
  simpa [F64.key] using h1.symm

theorem bound_lt_ovf : 2 ^ 53 * one1 < ovf := (isRep_nat (le_refl _)).2

/-- Rounding a rational between 0 and `2^53` gives a finite double at position `rkey q`. -/
theorem round_small (q : ℚ) (z : Bool) (h0 : 0 ≤ q) (h1 : q ≤ 2 ^ 53) :
    ∃ s n h, F64.round q z = .fin s n h ∧ F64.key (.fin s n h) = some (F64.rkey q) ∧
      0 ≤ F64.rkey q ∧ (n : Int) = F64.rkey q := by
  have hk := F64.key_round q z
  have hnn := F64.rkey_nonneg h0
  have hle : F64.rkey q ≤ (2 ^ 53 * one1 : Nat) := by
    rw [← rkey_nat (2 ^ 53) (le_refl _)]
    apply F64.rkey_mono
    push_cast; exact h1
  have := bound_lt_ovf
  cases hr : F64.round q z with
  | nan => rw [hr] at hk; simp [F64.key] at hk
  | inf s =>
    rw [hr] at hk
    cases s
    · simp only [F64.key, Bool.false_eq_true, if_false, Option.some.injEq] at hk
      omega
    · simp only [F64.key, if_true, Option.some.injEq] at hk
      have := ovf_pos
      omega
  | fin s n h =>
    rw [hr] at hk
    refine ⟨s, n, h, rfl, hk, hnn, ?_⟩
    cases s
    · simpa [F64.key] using hk
    · simp only [F64.key, if_true, Option.some.injEq] at hk; omega

theorem toRat_round_small (q : ℚ) (z : Bool) (h0 : 0 ≤ q) (h1 : q ≤ 2 ^ 53) :
    F64.toRat (F64.round q z) = (F64.rkey q : ℚ) / one1 := by
  obtain ⟨s, n, h, e, hk, _, _⟩ := round_small q z h0 h1
  rw [e, F64.toRat_of_key hk]

theorem toInt_round_small (q : ℚ) (z : Bool) (h0 : 0 ≤ q) (h1 : q ≤ 2 ^ 53) :
    F64.toInt (F64.round q z) = F64.rkey q / (one1 : Int) := by
  obtain ⟨s, n, h, e, hk, h2, h3⟩ := round_small q z h0 h1
  rw [e]
  have hle : F64.rkey q ≤ (2 ^ 53 * one1 : Nat) := by
    rw [← rkey_nat (2 ^ 53) (le_refl _)]
    apply F64.rkey_mono
    push_cast; exact h1
  have hn : n / one1 ≤ 2 ^ 53 := by
    apply Nat.div_le_of_le_mul
    rw [Nat.mul_comm]
    rw [← h3] at hle
    exact_mod_cast hle
  have h53 : (2 : Nat) ^ 53 = 9007199254740992 := by norm_num
  have h63 : (2 : Int) ^ 63 = 9223372036854775808 := by norm_num
  rw [← h3, ← Int.natCast_ediv]
  generalize hq : n / one1 = d at hn ⊢
  cases s
  · simp only [F64.toInt, Bool.false_eq_true, if_false, hq]
    rw [if_pos]
    rw [h63]; omega
  · have hn0 : n = 0 := by
      simp only [F64.key, if_true, Option.some.injEq] at hk
      omega
    have hd : d = 0 := by rw [← hq, hn0]; simp
    subst hd
    simp only [F64.toInt, if_true, hq]
    rw [if_pos]
    · rfl
    · rw [h63]; omega

/-- the constant `cache` in float64 -/
def cacheQ : ℚ := F64.toRat (sigCache : F64)

theorem cache_fin : ∃ n h, (sigCache : F64) = .fin false n h ∧ 0 < cacheQ ∧ cacheQ ≤ 100 := by
  refine ⟨_, _, (?_ : _ = F64.fin false (5864062014805333 * 2 ^ 1028) ?_), ?_, ?_⟩
  · decide +kernel
  · decide +kernel
  · decide +kernel
  · decide +kernel

/-- The index as a function of the exact value of `x`. -/
def idxQ (q : ℚ) : Int := F64.rkey ((F64.rkey (q + 6) : ℚ) / one1 * cacheQ) / (one1 : Int)

theorem rkey_le_nat {q : ℚ} (k : Nat) (hk : k ≤ 2 ^ 53) (h : q ≤ k) : (F64.rkey q : ℚ) / one1 ≤ k := by
  have hp : (0 : ℚ) < one1 := by exact_mod_cast one1_pos
  have h1 := F64.rkey_mono h
  rw [rkey_nat k hk] at h1
  rw [div_le_iff₀ hp]
  exact_mod_cast h1

theorem max_fin : ∃ h, (maxExp : F64) = .fin false (6 * one1) h :=
  ⟨isRep_nat (by norm_num), by simpa [maxExp] using F64.round_nat 6 (by norm_num)⟩

theorem index_gen (x m c : F64) (s : Bool) (n mn cn : Nat) (h : IsRep n) (hm : IsRep mn) (hc : IsRep cn)
    (ex : x = .fin s n h) (em : m = .fin false mn hm) (ec : c = .fin false cn hc)
    (mq : F64.toRat m = 6) (cq0 : 0 < F64.toRat c) (cq1 : F64.toRat c ≤ 100)
    (h1 : -6 ≤ F64.toRat x) (h2 : F64.toRat x ≤ 6) :
    F64.toInt (F64.mul (F64.add x m) c) =
      F64.rkey ((F64.rkey (F64.toRat x + 6) : ℚ) / one1 * F64.toRat c) / (one1 : Int) := by
  have hp : (0 : ℚ) < one1 := by exact_mod_cast one1_pos
  have hadd : F64.add x m = F64.round (F64.toRat x + 6) (s && false) := by
    rw [← mq, ex, em]; rfl
  generalize hq : F64.toRat x = q at *
  obtain ⟨s1, n1, k1, e1, _, _, _⟩ := round_small (q + 6) (s && false) (by linarith) (by linarith)
  have hr1 := toRat_round_small (q + 6) (s && false) (by linarith) (by linarith)
  have hb : (F64.rkey (q + 6) : ℚ) / one1 ≤ (12 : Nat) := rkey_le_nat 12 (by norm_num) (by push_cast; linarith)
  have hb0 : 0 ≤ (F64.rkey (q + 6) : ℚ) / one1 := by
    have : 0 ≤ F64.rkey (q + 6) := F64.rkey_nonneg (by linarith)
    have : (0 : ℚ) ≤ F64.rkey (q + 6) := by exact_mod_cast this
    positivity
  have hmul : F64.mul (F64.add x m) c =
      F64.round ((F64.rkey (q + 6) : ℚ) / one1 * F64.toRat c) (xor s1 false) := by
    rw [← hr1, hadd, e1, ec]; rfl
  rw [hmul]
  apply toInt_round_small
  · positivity
  · push_cast at hb
    calc (F64.rkey (q + 6) : ℚ) / one1 * F64.toRat c ≤ 12 * 100 :=
          mul_le_mul hb cq1 (le_of_lt cq0) (by norm_num)
      _ ≤ 2 ^ 53 := by norm_num

theorem sigIndex_f64 (x : F64) : sigIndex x = F64.toInt (F64.mul (F64.add x maxExp) sigCache) := by
  unfold sigIndex
  generalize (maxExp : F64) = m
  generalize (sigCache : F64) = c
  rfl

theorem sigIndex_fin (s : Bool) (n : Nat) (h : IsRep n) (h1 : -6 ≤ F64.toRat (.fin s n h))
    (h2 : F64.toRat (.fin s n h) ≤ 6) : sigIndex (F64.fin s n h) = idxQ (F64.toRat (.fin s n h)) := by
  obtain ⟨mh, hm⟩ := max_fin
  obtain ⟨cn, ch, hc, hc0, hc1⟩ := cache_fin
  have hp : (0 : ℚ) < one1 := by exact_mod_cast one1_pos
  rw [sigIndex_f64]
  unfold idxQ
  unfold cacheQ at hc0 hc1 ⊢
  generalize (sigCache : F64) = c at *
  generalize (maxExp : F64) = m at *
  exact index_gen _ m c s n _ cn h mh ch rfl hm hc
    (by rw [hm]; simp [F64.toRat, hp.ne']) hc0 hc1 h1 h2

theorem idxQ_mono {p q : ℚ} (h : p ≤ q) : idxQ p ≤ idxQ q := by
  obtain ⟨_, _, _, hc0, _⟩ := cache_fin
  have hp : (0 : ℚ) < one1 := by exact_mod_cast one1_pos
  unfold idxQ
  apply Int.ediv_le_ediv (by exact_mod_cast one1_pos)
  apply F64.rkey_mono
  have h1 : F64.rkey (p + 6) ≤ F64.rkey (q + 6) := F64.rkey_mono (by linarith)
  have h2 : (F64.rkey (p + 6) : ℚ) ≤ F64.rkey (q + 6) := by exact_mod_cast h1
  exact mul_le_mul_of_nonneg_right (div_le_div_of_nonneg_right h2 (le_of_lt hp)) (le_of_lt hc0)

theorem idxQ_nonneg {p : ℚ} (h : -6 ≤ p) : 0 ≤ idxQ p := by
  obtain ⟨_, _, _, hc0, _⟩ := cache_fin
  have hp : (0 : ℚ) < one1 := by exact_mod_cast one1_pos
  unfold idxQ
  apply Int.ediv_nonneg _ (by omega)
  apply F64.rkey_nonneg
  have h1 : 0 ≤ F64.rkey (p + 6) := F64.rkey_nonneg (by linarith)
  have : (0 : ℚ) ≤ F64.rkey (p + 6) := by exact_mod_cast h1
  positivity

/-- the spacing of doubles around 6, in units of `2^-1074` -/
@[irreducible] def u6 : Nat := 2 ^ 1024

theorem u6_eq : u6 = 2 ^ 1024 := by unfold u6; rfl
theorem u6_pos : 0 < u6 := by rw [u6_eq]; exact Nat.two_pow_pos _
theorem one1_u6 : one1 = 2 ^ 50 * u6 := by rw [one1_eq, u6_eq, ← Nat.pow_add]

theorem pow_split (a : Nat) : 2 ^ (1074 + a) = 2 ^ a * one1 := by
  rw [one1_eq, ← Nat.pow_add, Nat.add_comm]

/-- A representable position below 6 is at most the one of `lastBelow6`, and below that at most the
one of `prevBelow6`. -/
theorem rep_below6 (n : Nat) (h : IsRep n) (hlt : n < 6 * one1) :
    n ≤ (6 * 2 ^ 50 - 2) * u6 ∨ n = (6 * 2 ^ 50 - 1) * u6 := by
  have h0 := one1_pos
  by_cases h4 : n < 4 * one1
  · left
    refine le_trans (le_of_lt h4) ?_
    rw [one1_u6, ← Nat.mul_assoc]
    exact Nat.mul_le_mul_right _ (by norm_num)
  · have hn0 : n ≠ 0 := by omega
    have hl : Nat.log2 n = 1074 + 2 := by
      apply Nat.le_antisymm
      · apply log2_lt_pow
        refine lt_of_lt_of_le hlt ?_
        rw [Nat.add_assoc, pow_split]
        exact Nat.mul_le_mul_right _ (by norm_num)
      · rw [Nat.le_log2 hn0, pow_split]
        have : 2 ^ 2 = 4 := rfl
        rw [this]; omega
    have hd := h.1
    have hu : ulp n = u6 := by unfold ulp; rw [hl, u6_eq]
    rw [hu] at hd
    obtain ⟨m, hm⟩ := hd
    rw [one1_u6, ← Nat.mul_assoc, hm, Nat.mul_comm u6 m] at hlt
    have hm6 : m < 6 * 2 ^ 50 := Nat.lt_of_mul_lt_mul_right hlt
    rw [hm, Nat.mul_comm u6 m]
    rcases Nat.lt_or_ge m (6 * 2 ^ 50 - 1) with h5 | h5
    · left; exact Nat.mul_le_mul_right _ (by omega)
    · right; congr 1; omega

theorem prev_fin : ∃ h, prevBelow6 = .fin false ((6 * 2 ^ 50 - 2) * u6) h := by
  rw [u6_eq]
  refine ⟨(?_ : IsRep _), ?_⟩ <;> decide +kernel

theorem last_fin : ∃ h, lastBelow6 = .fin false ((6 * 2 ^ 50 - 1) * u6) h := by
  rw [u6_eq]
  refine ⟨(?_ : IsRep _), ?_⟩ <;> decide +kernel

theorem prev_q : F64.toRat prevBelow6 ≤ 6 ∧ -6 ≤ F64.toRat prevBelow6 ∧ 0 ≤ F64.toRat prevBelow6 := by
  decide +kernel

theorem idxQ_prev : idxQ (F64.toRat prevBelow6) = 999 := by
  have hq := prev_q
  have hs := sig_prev
  obtain ⟨h, hf⟩ := prev_fin
  have := sigIndex_fin false ((6 * 2 ^ 50 - 2) * u6) h (by rw [← hf]; exact hq.2.1) (by rw [← hf]; exact hq.1)
  rw [← hf] at this
  rw [← this, hs]

/-- **C33.** In float64 arithmetic, for every `x` with `-6 < x < 6` the table index is between 0 and 1000
(the table has 1000 entries), and it is 1000, so that the lookup panics, exactly for the largest float64
below 6. -/
theorem C33_sigmoid_index (x : F64) (h1 : GoFloat.lt (GoFloat.ofRat (-6)) x = true)
    (h2 : GoFloat.lt x (GoFloat.ofRat 6) = true) :
    0 ≤ sigIndex x ∧ sigIndex x ≤ 1000 ∧ (sigIndex x = 1000 ↔ x = lastBelow6) := by
  have hp : (0 : ℚ) < one1 := by exact_mod_cast one1_pos
  rw [F64.lt_iff] at h1 h2
  obtain ⟨a, b, ha, hb, hab⟩ := h1
  obtain ⟨b', c, hb', hc, hbc⟩ := h2
  rw [hb] at hb'
  simp only [Option.some.injEq] at hb'
  subst hb'
  have h6 : F64.rkey 6 = (6 * one1 : Nat) := by simpa using rkey_nat 6 (by norm_num)
  have hm6 : F64.rkey (-6) = -(6 * one1 : Nat) := by
    have e : F64.round (-6) = F64.fin true (6 * one1) (isRep_nat (by norm_num)) := by
      rw [F64.round_of_rep (-6) false (6 * one1) (isRep_nat (by norm_num)) (by
        push_cast; rw [abs_neg, abs_of_nonneg (by norm_num)]; field_simp)]
      congr 1
    have := F64.key_round (-6) false
    rw [e] at this
    simpa [F64.key] using this.symm
  rw [F64.ofRat_eq, F64.key_round] at ha hc
  simp only [Option.some.injEq] at ha hc
  rw [hm6] at ha; rw [h6] at hc
  have hovf : 6 * one1 < ovf := (isRep_nat (n := 6) (by norm_num) : IsRep (6 * one1)).2
  cases x with
  | nan => simp [F64.key] at hb
  | inf s => cases s <;> simp [F64.key] at hb <;> omega
  | fin s n hn =>
    have hq := F64.toRat_of_key hb
    have hq1 : -6 ≤ F64.toRat (.fin s n hn) := by
      rw [hq, le_div_iff₀ hp]
      have : -((6 * one1 : Nat) : Int) ≤ b := by omega
      have : ((-((6 * one1 : Nat) : Int) : Int) : ℚ) ≤ (b : ℚ) := by exact_mod_cast this
      push_cast at this; linarith
    have hq2 : F64.toRat (.fin s n hn) ≤ 6 := by
      rw [hq, div_le_iff₀ hp]
      have : b ≤ ((6 * one1 : Nat) : Int) := by omega
      have : (b : ℚ) ≤ (((6 * one1 : Nat) : Int) : ℚ) := by exact_mod_cast this
      push_cast at this; linarith
    have hidx := sigIndex_fin s n hn hq1 hq2
    have hlast : sigIndex lastBelow6 = 1000 := sig_last
    -- all but the last are at most prevBelow6
    obtain ⟨hpr, hprevfin⟩ := prev_fin
    obtain ⟨hlr, hlastfin⟩ := last_fin
    have hprevq := prev_q
    have hprev := idxQ_prev
    rw [hidx]
    refine ⟨idxQ_nonneg hq1, ?_⟩
    have hcase : F64.toRat (.fin s n hn) ≤ F64.toRat prevBelow6 ∨ F64.fin s n hn = lastBelow6 := by
      cases s with
      | true =>
        left
        have h0 : F64.toRat (.fin true n hn) ≤ 0 := by
          simp only [F64.toRat, if_true]
          have : (0 : ℚ) ≤ (n : ℚ) / one1 := by positivity
          linarith
        exact le_trans h0 hprevq.2.2
      | false =>
        simp only [F64.key, Bool.false_eq_true, if_false, Option.some.injEq] at hb
        have hn6 : n < 6 * one1 := by omega
        rcases rep_below6 n hn hn6 with h | h
        · left
          rw [hprevfin]
          simp only [F64.toRat, Bool.false_eq_true, if_false, one_mul]
          exact div_le_div_of_nonneg_right (Nat.cast_le.2 h) (le_of_lt hp)
        · right
          rw [hlastfin]
          congr
    rcases hcase with h | h
    · have h3 := idxQ_mono h
      rw [hprev] at h3
      refine ⟨by omega, ?_⟩
      constructor
      · intro hc; omega
      · intro hc
        rw [hc] at hidx
        rw [hlast] at hidx
        rw [← hc] at hidx
        omega
    · rw [← hidx, h, hlast]
      exact ⟨by omega, by simp⟩

/-- `C33_sigmoid_index` at the double 1/2. -/
example := C33_sigmoid_index (GoFloat.ofRat (1/2)) (by decide +kernel) (by decide +kernel)

/-- **C33 (lookup).** So a lookup in a table of 1000 entries succeeds for every float64 strictly between
-6 and 6 except the largest one below 6; there, and for NaN, it panics. -/
theorem C33_lookup_partial (table : List F64) (ht : table.length = 1000) (x : F64)
    (h1 : GoFloat.lt (GoFloat.ofRat (-6)) x = true) (h2 : GoFloat.lt x (GoFloat.ofRat 6) = true)
    (hx : x ≠ lastBelow6) : ∃ v, sigmoidAt table x = .ok v := by
  obtain ⟨h3, h4, h5⟩ := C33_sigmoid_index x h1 h2
  have : sigIndex x ≠ 1000 := fun h => hx (h5.1 h)
  unfold sigmoidAt idxI
  rw [if_neg (by omega), idx_of_lt _ _ (by omega)]
  exact ⟨_, rfl⟩

/-- `C33_lookup_partial` at the double 1/2, for a table of 1000 entries. -/
example := C33_lookup_partial (List.replicate 1000 (GoFloat.ofRat (1/2))) (List.length_replicate ..)
  (GoFloat.ofRat (1/2)) (by decide +kernel) (by decide +kernel) (by decide +kernel)

/-- **C33 is false** at one number that passes the guards of `optim`, and for NaN. -/
theorem C33_false (table : List F64) (ht : table.length = 1000) :
    GoFloat.lt (GoFloat.ofRat (-6)) lastBelow6 = true ∧ GoFloat.lt lastBelow6 (GoFloat.ofRat 6) = true ∧
      sigmoidAt table lastBelow6 = .panic .indexOutOfRange ∧
      sigmoidAt table F64.nan = .panic .indexOutOfRange := by
  refine ⟨by decide +kernel, by decide +kernel, ?_, ?_⟩
  · unfold sigmoidAt idxI
    rw [sig_last, if_neg (by omega), idx_of_ge _ _ (by omega)]
  · unfold sigmoidAt idxI
    have : sigIndex F64.nan = -(2 ^ 63 : Int) := by decide +kernel
    rw [this, if_pos (by norm_num)]

/-- `C33_false` for a table of 1000 entries. -/
example := C33_false (List.replicate 1000 (GoFloat.ofRat (1/2))) (List.length_replicate ..)

end Wego.Props
