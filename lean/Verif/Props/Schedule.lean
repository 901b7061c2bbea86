import Verif.Props.LearningRate

/-! # C81: the exact learning-rate schedule of one iteration

`observeAlone cfg n (0, r0)` (`Verif/Model/LearningRate.lean`) is the observer of an iteration that starts with the rate `r0` and receives `n` words. -/

namespace Wego.Props
open Wego

/-- the linear schedule: the rate for `c` words counted -/
noncomputable def scheduled (cfg : LrCfg ℝ) (c : Nat) : ℝ := cfg.initlr * (1 - c / cfg.len)

theorem scheduled_anti {cfg : LrCfg ℝ} (hi : 0 ≤ cfg.initlr) {a b : Nat} (h : a ≤ b) : scheduled cfg b ≤ scheduled cfg a := by
  unfold scheduled
  have h1 : (a : ℝ) / cfg.len ≤ (b : ℝ) / cfg.len := by
    apply div_le_div_of_nonneg_right _ (by positivity)
    exact_mod_cast h
  nlinarith

theorem newLr_real (cfg : LrCfg ℝ) (c : Nat) (lr : ℝ) : newLr cfg c lr = if lr < cfg.minLR then cfg.minLR else scheduled cfg c := by
  unfold newLr scheduled
  by_cases h : lr < cfg.minLR
  · rw [if_pos h, if_pos (by simpa using h)]
  · rw [if_neg h, if_neg (by simpa using h)]
    simp

/-- the rate after `q` updates, starting from `r0` -/
noncomputable def rateAfter (cfg : LrCfg ℝ) (B : Nat) (r0 : ℝ) : Nat → ℝ
  | 0 => r0
  | q + 1 => if rateAfter cfg B r0 q < cfg.minLR then cfg.minLR else scheduled cfg ((q + 1) * B)

theorem observe_rateAfter (cfg : LrCfg ℝ) (B : Nat) (hB : 1 ≤ B) (hcfg : cfg.updateLRBatch = B) (r0 : ℝ) (n : Nat) :
    observeAlone cfg n (0, r0) = .ok (n, rateAfter cfg B r0 (n / B)) := by
  induction n with
  | zero => simp [observeAlone, rateAfter]
  | succ n ih =>
    rw [observeAlone_add, ih, Res.ok_bind]
    have hb : cfg.updateLRBatch ≠ 0 := by omega
    show (observeOne cfg n _ >>= fun st => .ok st) = _
    by_cases hd : B ∣ n + 1
    · rw [observeOne_of_dvd hb _ (by rw [hcfg]; exact_mod_cast hd), Res.ok_bind, newLr_real]
      have e : (n + 1) / B = n / B + 1 := by rw [Nat.succ_div, if_pos hd]
      have e2 : (n / B + 1) * B = n + 1 := by rw [← e]; exact Nat.div_mul_cancel hd
      rw [e]
      simp only [rateAfter, e2]
    · rw [observeOne_of_not_dvd hb _ (by rw [hcfg]; exact_mod_cast hd), Res.ok_bind]
      rw [Nat.succ_div, if_neg hd]; rfl

section
variable {cfg : LrCfg ℝ} {B : Nat} {r0 : ℝ}

theorem rateAfter_above (h1 : cfg.minLR ≤ cfg.initlr) (h0 : 0 ≤ cfg.minLR) {q : Nat} (hq : 1 ≤ q) (hm : cfg.minLR ≤ scheduled cfg (q * B)) :
    rateAfter cfg B r0 q = if q = 1 ∧ r0 < cfg.minLR then cfg.minLR else scheduled cfg (q * B) := by
  induction q with
  | zero => omega
  | succ q ih =>
    rcases Nat.eq_zero_or_pos q with rfl | hq0
    · simp only [rateAfter]
      by_cases h : r0 < cfg.minLR <;> simp [h]
    · have hm' : cfg.minLR ≤ scheduled cfg (q * B) := hm.trans (scheduled_anti (h0.trans h1) (Nat.mul_le_mul_right _ (by omega)))
      rw [if_neg (by omega)]
      simp only [rateAfter]
      rw [if_neg]
      rw [ih hq0 hm']
      split <;> simp [hm']

/-- **C81 (schedule above the minimum).** As long as the linear schedule `Initlr * (1 - c/Len)` has not fallen below `MinLR` at the last multiple `c = UpdateLRBatch * q` of the words
counted, the rate is the scheduled one; only the first update of an iteration that starts with a rate below `MinLR` gives `MinLR`. -/
theorem C81_linear (cfg : LrCfg ℝ) (B : Nat) (hB : 1 ≤ B) (hcfg : cfg.updateLRBatch = B) (h0 : 0 ≤ cfg.minLR) (h1 : cfg.minLR ≤ cfg.initlr) (r0 : ℝ) (n : Nat)
    (hm : cfg.minLR ≤ scheduled cfg (n / B * B)) :
    observeAlone cfg n (0, r0) = .ok (n, if n < B then r0 else if n < 2 * B ∧ r0 < cfg.minLR then cfg.minLR else scheduled cfg (n / B * B)) := by
  rw [observe_rateAfter cfg B hB hcfg]
  congr 2
  by_cases hn : n < B
  · rw [if_pos hn, Nat.div_eq_of_lt hn]; rfl
  · have hq : 1 ≤ n / B := (Nat.one_le_div_iff (by omega)).2 (by omega)
    rw [if_neg hn, rateAfter_above h1 h0 hq hm]
    have : n / B = 1 ↔ n < 2 * B := by
      constructor
      · intro h
        have := Nat.lt_mul_of_div_lt (show n / B < 2 by omega) (by omega : 0 < B)
        omega
      · intro h
        have : n / B < 2 := Nat.div_lt_of_lt_mul (by omega)
        omega
    simp only [this]

/-- `C81_linear` after 25 words of 100, updating every 10. -/
example (r0 : ℝ) := C81_linear ⟨1/40, 1/100, 10, 100⟩ 10 (by decide) rfl (by norm_num) (by norm_num) r0 25 (by norm_num [scheduled])

/-- **C81 (schedule below the minimum).** Let the `K`-th update be the first whose scheduled rate is below `MinLR`. From there on the rate alternates: after an even number of further
updates it is the scheduled rate, below `MinLR`; after an odd number it is `MinLR`. -/
theorem C81_alternates (cfg : LrCfg ℝ) (B : Nat) (hB : 1 ≤ B) (hcfg : cfg.updateLRBatch = B) (h0 : 0 ≤ cfg.minLR) (h1 : cfg.minLR ≤ cfg.initlr) (r0 : ℝ) (K : Nat)
    (hK : scheduled cfg (K * B) < cfg.minLR) (hfirst : ∀ k < K, cfg.minLR ≤ scheduled cfg (k * B)) (hr : cfg.minLR ≤ r0 ∨ 2 ≤ K) (n : Nat) (hn : K * B ≤ n) :
    observeAlone cfg n (0, r0) = .ok (n, if (n / B - K) % 2 = 0 then scheduled cfg (n / B * B) else cfg.minLR) ∧ scheduled cfg (n / B * B) < cfg.minLR := by
  have hKq : K ≤ n / B := (Nat.le_div_iff_mul_le (by omega)).2 hn
  have hlow : ∀ q, K ≤ q → scheduled cfg (q * B) < cfg.minLR := fun q hq =>
    lt_of_le_of_lt (scheduled_anti (h0.trans h1) (Nat.mul_le_mul_right _ hq)) hK
  refine ⟨?_, hlow _ hKq⟩
  rw [observe_rateAfter cfg B hB hcfg]
  congr 2
  have hK0 : K ≠ 0 := by
    rintro rfl
    simp [scheduled] at hK
    linarith
  have hat : rateAfter cfg B r0 K = scheduled cfg (K * B) := by
    obtain ⟨k, rfl⟩ : ∃ k, K = k + 1 := ⟨K - 1, by omega⟩
    simp only [rateAfter]
    rw [if_neg]
    rw [not_lt]
    rcases Nat.eq_zero_or_pos k with rfl | hk
    · rcases hr with hr | hr
      · exact hr
      · omega
    · rw [rateAfter_above h1 h0 hk (hfirst k (by omega))]
      split
      · exact le_rfl
      · exact hfirst k (by omega)
  have key : ∀ d, rateAfter cfg B r0 (K + d) = if d % 2 = 0 then scheduled cfg ((K + d) * B) else cfg.minLR := by
    intro d
    induction d with
    | zero => simpa using hat
    | succ d ih =>
      rw [← Nat.add_assoc]
      simp only [rateAfter]
      rw [ih]
      by_cases hd : d % 2 = 0
      · rw [if_pos hd, if_pos (hlow _ (by omega)), if_neg (by omega)]
      · rw [if_neg hd, if_neg (lt_irrefl _), if_pos (by omega)]
  have := key (n / B - K)
  rw [show K + (n / B - K) = n / B by omega] at this
  exact this

/-- **C81 (not monotone).** Whenever the schedule falls below `MinLR` at all (update `K`), the next update raises the rate; and the first update of the next iteration raises it again, up to the
initial schedule after two updates: the rate does not decay over the training run. -/
theorem C81_rises_again (cfg : LrCfg ℝ) (B : Nat) (hB : 1 ≤ B) (hcfg : cfg.updateLRBatch = B) (h0 : 0 ≤ cfg.minLR) (h1 : cfg.minLR ≤ cfg.initlr) (r0 : ℝ) (K : Nat)
    (hK : scheduled cfg (K * B) < cfg.minLR) (hfirst : ∀ k < K, cfg.minLR ≤ scheduled cfg (k * B)) (hr : cfg.minLR ≤ r0 ∨ 2 ≤ K) :
    (∃ r r', observeAlone cfg (K * B) (0, r0) = .ok (K * B, r) ∧ observeAlone cfg ((K + 1) * B) (0, r0) = .ok ((K + 1) * B, r') ∧ r < r') ∧
    (3 ≤ K → ∀ r1, observeAlone cfg (2 * B) (0, r1) = .ok (2 * B, scheduled cfg (2 * B))) := by
  have hd : ∀ k, k * B / B = k := fun k => Nat.mul_div_cancel k (by omega)
  constructor
  · obtain ⟨e1, l1⟩ := C81_alternates cfg B hB hcfg h0 h1 r0 K hK hfirst hr (K * B) le_rfl
    obtain ⟨e2, l2⟩ := C81_alternates cfg B hB hcfg h0 h1 r0 K hK hfirst hr ((K + 1) * B) (Nat.mul_le_mul_right _ (by omega))
    refine ⟨_, _, e1, e2, ?_⟩
    rw [hd, hd, if_pos (by omega), if_neg (by omega)]
    exact hK
  · intro h3 r1
    rw [C81_linear cfg B hB hcfg h0 h1 r1 (2 * B) (by rw [hd]; exact hfirst 2 (by omega)), hd, if_neg (by omega), if_neg (by omega)]

end

/-- The hypotheses are met: 100 words, an update every 10 words, rates from 0.025 down to 0.01: the 7th update is the first below the minimum. -/
example :
    let cfg : LrCfg ℝ := ⟨1/40, 1/100, 10, 100⟩
    0 ≤ cfg.minLR ∧ cfg.minLR ≤ cfg.initlr ∧ scheduled cfg (7 * 10) < cfg.minLR ∧ (∀ k < 7, cfg.minLR ≤ scheduled cfg (k * 10)) ∧ 3 ≤ 7 := by
  intro cfg
  refine ⟨by norm_num [cfg], by norm_num [cfg], by norm_num [cfg, scheduled], ?_, by norm_num⟩
  intro k hk
  simp only [scheduled, cfg]
  have : (k : ℝ) ≤ 6 := by exact_mod_cast (by omega : k ≤ 6)
  push_cast
  nlinarith

end Wego.Props
