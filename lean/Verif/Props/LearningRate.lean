import Verif.Model.LearningRate
import Verif.Model.Options
import Verif.Proofs.F64Mul
import Mathlib.Tactic.Linarith
import Mathlib.Tactic.Positivity
import Mathlib.Tactic.FieldSimp

/-! # C34, C35: the learning rate -/

namespace Wego.Props
open Wego

section gen
variable {F : Type} [GoFloat F]

theorem lrDue_ok {cfg : LrCfg F} (hb : cfg.updateLRBatch ≠ 0) (c : Nat) :
    lrDue cfg c = .ok (decide (cfg.updateLRBatch ∣ (c : Int))) := by
  unfold lrDue
  rw [if_neg hb]
  congr 1
  rw [Bool.eq_iff_iff]
  simp [Int.dvd_iff_tmod_eq_zero]

theorem lrDue_true {cfg : LrCfg F} {c : Nat} (h : lrDue cfg c = .ok true) : cfg.updateLRBatch ∣ (c : Int) := by
  by_cases hb : cfg.updateLRBatch = 0
  · simp [lrDue, hb] at h
  · rw [lrDue_ok hb] at h; simpa using h

theorem observeOne_of_dvd {cfg : LrCfg F} (hb : cfg.updateLRBatch ≠ 0) {c : Nat} (lr : F)
    (h : cfg.updateLRBatch ∣ ((c + 1 : Nat) : Int)) :
    observeOne cfg c lr = .ok (c + 1, newLr cfg (c + 1) lr) := by
  simp only [observeOne, lrDue_ok hb, h, decide_true, Res.ok_bind, if_true]

theorem observeOne_of_not_dvd {cfg : LrCfg F} (hb : cfg.updateLRBatch ≠ 0) {c : Nat} (lr : F)
    (h : ¬ cfg.updateLRBatch ∣ ((c + 1 : Nat) : Int)) :
    observeOne cfg c lr = .ok (c + 1, lr) := by
  simp only [observeOne, lrDue_ok hb, h, decide_false, Res.ok_bind, Bool.false_eq_true, if_false]

theorem observeAlone_add (cfg : LrCfg F) (m n : Nat) (st : Nat × F) :
    observeAlone cfg (m + n) st = observeAlone cfg m st >>= observeAlone cfg n := by
  induction m generalizing st with
  | zero => simp [observeAlone]
  | succ m ih =>
    rw [Nat.succ_add]
    simp only [observeAlone]
    rw [bind_assoc]
    congr 1
    funext st'
    exact ih st'

/-- words that are no multiple of the batch leave the rate alone -/
theorem observeAlone_skip {cfg : LrCfg F} (hb : cfg.updateLRBatch ≠ 0) (c n : Nat) (lr : F)
    (h : ∀ k, c < k → k ≤ c + n → ¬ cfg.updateLRBatch ∣ (k : Int)) :
    observeAlone cfg n (c, lr) = .ok (c + n, lr) := by
  induction n generalizing c with
  | zero => rfl
  | succ n ih =>
    simp only [observeAlone]
    rw [observeOne_of_not_dvd hb lr (h (c + 1) (by omega) (by omega)), Res.ok_bind,
      ih (c + 1) (fun k h1 h2 => h k (by omega) (by omega))]
    congr 2; omega

/-- With `UpdateLRBatch(0)` the first trained word panics, and with any other value observing never panics. -/
theorem C35_batch_zero_panics (cfg : LrCfg F) (c : Nat) (lr : F) :
    observeOne cfg c lr = .panic .divByZero ↔ cfg.updateLRBatch = 0 := by
  constructor
  · intro h; by_contra hb
    simp [observeOne, lrDue_ok hb] at h
  · intro hb; simp [observeOne, lrDue, hb]

/-- The rate changes only when the observer's count reaches a multiple of `UpdateLRBatch`, whatever the arithmetic
(float64 included). -/
theorem C35_only_at_multiples (cfg : LrCfg F) (c : Nat) (lr : F) (c' : Nat) (lr' : F)
    (h : observeOne cfg c lr = .ok (c', lr')) :
    c' = c + 1 ∧ (¬ cfg.updateLRBatch ∣ (c' : Int) → lr' = lr) := by
  have hb : cfg.updateLRBatch ≠ 0 := by
    intro hb; simp [observeOne, lrDue, hb] at h
  by_cases hd : cfg.updateLRBatch ∣ ((c + 1 : Nat) : Int)
  · rw [observeOne_of_dvd hb lr hd] at h; injection h with h; injection h with h1 h2
    subst h1; exact ⟨rfl, fun hn => absurd hd hn⟩
  · rw [observeOne_of_not_dvd hb lr hd] at h; injection h with h; injection h with h1 h2
    exact ⟨h1.symm, fun _ => h2.symm⟩

/-- `C35_only_at_multiples`: 3 is not a multiple of 2, the rate stays. -/
example (lr lr' : ℝ) (h : observeOne (⟨1, 0, 2, 4⟩ : LrCfg ℝ) 2 lr = .ok (3, lr')) : lr' = lr :=
  (C35_only_at_multiples _ _ _ _ _ h).2 (by decide)

/-- Float64 and exact arithmetic alike: a rate below `MinLR` is replaced by `MinLR` at the very next update, so of two
consecutive rates at most one is below `MinLR`. What is missing for the full C34: the rate itself may be below
`MinLR` between two updates, see `C34_refuted` and `C34_refuted_float64`. -/
theorem C34_corrected_at_next_update_partial [LawfulCmp F] (cfg : LrCfg F) (hm : IsNum cfg.minLR) (c : Nat) (lr : F)
    (h : GoFloat.lt lr cfg.minLR = true) :
    newLr cfg c lr = cfg.minLR ∧ GoFloat.lt (newLr cfg c lr) cfg.minLR = false := by
  have h1 : newLr cfg c lr = cfg.minLR := by simp [newLr, h]
  refine ⟨h1, ?_⟩
  rw [h1, Bool.eq_false_iff]
  intro hlt
  have := (LawfulCmp.lt_iff _ _ hm hm).1 hlt
  rcases LawfulCmp.le_total _ _ hm hm with h' | h' <;> rw [h'] at this <;> exact absurd this (by simp)

/-- `C34_corrected_at_next_update_partial` at rate 0 with floor 1/10. -/
example := C34_corrected_at_next_update_partial (⟨1, 1 / 10, 2, 4⟩ : LrCfg ℝ) (by simp [IsNum, GoFloat.le]) 4 0 (by norm_num [GoFloat.lt])

end gen

/-- An assertion on rates that holds of `Initlr` and of every value an update can compute holds after every history. -/
theorem lrRun_inv {F : Type} [GoFloat F] (cfg : LrCfg F) (P : F → Prop) (hi : P cfg.initlr)
    (hn : ∀ (c : Nat) (lr : F), 1 ≤ c → c ≤ cfg.len → cfg.updateLRBatch ∣ (c : Int) → P (newLr cfg c lr))
    (s : LrState F) (h : LrRun cfg s) : P s.lr := by
  have key : P s.lr ∧ ∀ o v, s.pend o = some v → P v := by
    induction h with
    | init => exact ⟨hi, by simp [LrState.init]⟩
    | step s t h hs hc ih =>
      cases hs with
      | skip o hp hd => exact ih
      | read o hp hd =>
        refine ⟨ih.1, ?_⟩
        intro o' v hv
        by_cases ho : o' = o
        · subst ho
          simp only [Function.update_self, Option.some.injEq] at hv
          subst hv
          have := hc o'
          simp only [Function.update_self] at this
          exact hn _ _ (by omega) this (lrDue_true hd)
        · simp only [Function.update_of_ne ho] at hv
          exact ih.2 o' v hv
      | write o v hp =>
        refine ⟨ih.2 o v hp, ?_⟩
        intro o' v' hv
        by_cases ho : o' = o
        · subst ho; simp at hv
        · simp only [Function.update_of_ne ho] at hv
          exact ih.2 o' v' hv
  exact key.1

/-- what C35 says about a rate -/
def RateOK (cfg : LrCfg ℝ) (x : ℝ) : Prop :=
  0 ≤ x ∧ x ≤ cfg.initlr ∧
    (x = cfg.initlr ∨ x = cfg.minLR ∨
      ∃ c : Nat, 1 ≤ c ∧ c ≤ cfg.len ∧ cfg.updateLRBatch ∣ (c : Int) ∧ x = cfg.initlr * (1 - c / cfg.len))

theorem rateOK_newLr {cfg : LrCfg ℝ} (h0 : 0 ≤ cfg.minLR) (h1 : cfg.minLR ≤ cfg.initlr) {c : Nat} (hc1 : 1 ≤ c)
    (hc : c ≤ cfg.len) (hd : cfg.updateLRBatch ∣ (c : Int)) (lr : ℝ) : RateOK cfg (newLr cfg c lr) := by
  unfold newLr
  by_cases hlt : GoFloat.lt lr cfg.minLR = true
  · rw [if_pos hlt]; exact ⟨h0, h1, .inr (.inl rfl)⟩
  · rw [if_neg hlt]
    have hl : (0 : ℝ) < cfg.len := by exact_mod_cast (by omega : 0 < cfg.len)
    have hq : (c : ℝ) / cfg.len ≤ 1 := by rw [div_le_one hl]; exact_mod_cast hc
    have hq0 : 0 ≤ (c : ℝ) / cfg.len := by positivity
    have e : cfg.initlr *. (GoFloat.ofRat 1 -. GoFloat.ofRat (c : ℚ) /. GoFloat.ofRat (cfg.len : ℚ))
        = cfg.initlr * (1 - c / cfg.len) := by simp
    rw [e]
    have hi : 0 ≤ cfg.initlr := h0.trans h1
    refine ⟨mul_nonneg hi (by linarith), ?_, .inr (.inr ⟨c, hc1, hc, hd, rfl⟩)⟩
    nlinarith

/-- **C35.** With `0 ≤ MinLR ≤ Initlr`, after any history of observer steps over any number of (possibly overlapping)
iterations the learning rate is in `[0, Initlr]` and is `Initlr`, `MinLR`, or `Initlr*(1-c/Len)` for a multiple `c` of
`UpdateLRBatch` between 1 and `Len`. -/
theorem C35_rate_in_range (cfg : LrCfg ℝ) (h0 : 0 ≤ cfg.minLR) (h1 : cfg.minLR ≤ cfg.initlr) (s : LrState ℝ)
    (h : LrRun cfg s) :
    0 ≤ s.lr ∧ s.lr ≤ cfg.initlr ∧
      (s.lr = cfg.initlr ∨ s.lr = cfg.minLR ∨
        ∃ c : Nat, 1 ≤ c ∧ c ≤ cfg.len ∧ cfg.updateLRBatch ∣ (c : Int) ∧ s.lr = cfg.initlr * (1 - c / cfg.len)) := by
  exact lrRun_inv cfg (RateOK cfg) ⟨h0.trans h1, le_refl _, .inl rfl⟩
    (fun c lr hc1 hc hd => rateOK_newLr h0 h1 hc1 hc hd lr) s h

/-- `C35_rate_in_range` for the default rates and floors: every state of every run. -/
example (s : LrState ℝ) (h : LrRun ⟨0.025, 0.0000025, 100000, 200000⟩ s) :=
  C35_rate_in_range ⟨0.025, 0.0000025, 100000, 200000⟩ (by norm_num) (by norm_num) s h

/-- **C35 in float64.** With `MinLR` and `Initlr` finite and `0 ≤ MinLR ≤ Initlr`, on every corpus of at most `2^53`
words and after any history, the float64 learning rate compares `0 ≤ lr` and `lr ≤ Initlr` (so it is not NaN). -/
theorem C35_rate_in_range_float64 (cfg : LrCfg F64) (hfin : ∃ n h, cfg.initlr = .fin false n h)
    (h0 : GoFloat.le fzero cfg.minLR = true) (h1 : GoFloat.le cfg.minLR cfg.initlr = true) (hl : cfg.len ≤ 2 ^ 53)
    (s : LrState F64) (h : LrRun cfg s) :
    GoFloat.le fzero s.lr = true ∧ GoFloat.le s.lr cfg.initlr = true := by
  obtain ⟨n, hn, hi⟩ := hfin
  have hki : F64.key cfg.initlr = some (n : Int) := by rw [hi]; simp [F64.key]
  refine lrRun_inv cfg (fun x => GoFloat.le fzero x = true ∧ GoFloat.le x cfg.initlr = true) ?_ ?_ s h
  · exact ⟨LawfulCmp.le_trans _ _ _ h0 h1, (F64.le_iff _ _).2 ⟨_, _, hki, hki, le_refl _⟩⟩
  · intro c lr hc1 hc hd
    unfold newLr
    by_cases hlt : GoFloat.lt lr cfg.minLR = true
    · rw [if_pos hlt]; exact ⟨h0, h1⟩
    · rw [if_neg hlt]
      obtain ⟨q, hq, hq1, _⟩ := F64.key_nat_div c cfg.len hc (by omega) hl
      obtain ⟨r, hr, hr1⟩ := F64.key_one_sub_unit _ q hq hq1
      obtain ⟨m, hm, hm1⟩ := F64.key_mul_unit _ _ n r hki hn.2 hr hr1
      exact ⟨(F64.le_iff _ _).2 ⟨0, m, F64.key_fzero, hm, by omega⟩, (F64.le_iff _ _).2 ⟨m, n, hm, hki, by omega⟩⟩

/-- the hypotheses of the float64 theorem hold for the default options -/
example : (∃ n h, (GoFloat.ofRat 0.025 : F64) = .fin false n h) ∧
    GoFloat.le fzero (GoFloat.ofRat 0.0000025 : F64) = true ∧
    GoFloat.le (GoFloat.ofRat 0.0000025 : F64) (GoFloat.ofRat 0.025) = true := by
  refine ⟨?_, by decide +kernel, by decide +kernel⟩
  have h : (match (GoFloat.ofRat 0.025 : F64) with | .fin false _ _ => true | _ => false) = true := by decide +kernel
  generalize (GoFloat.ofRat 0.025 : F64) = x at h
  rcases x with _ | _ | ⟨_ | _, n, hn⟩
  · simp at h
  · simp at h
  · exact ⟨n, hn, rfl⟩
  · simp at h

/-- A single observer's loop is a history of `LrRun` (so `C35_rate_in_range` covers sequential iterations): running
`observeOne` from a state without pending writes is one or two steps. -/
theorem C35_sequential_is_run (cfg : LrCfg ℝ) (s : LrState ℝ) (hs : LrRun cfg s) (o : Nat) (hp : s.pend o = none)
    (hc : s.cnt o < cfg.len) (c' : Nat) (lr' : ℝ) (h : observeOne cfg (s.cnt o) s.lr = .ok (c', lr')) :
    ∃ t, LrRun cfg t ∧ t.lr = lr' ∧ t.cnt = Function.update s.cnt o c' ∧ t.pend = s.pend := by
  have hb : cfg.updateLRBatch ≠ 0 := by
    intro hb; simp [observeOne, lrDue, hb] at h
  have hall : ∀ s : LrState ℝ, LrRun cfg s → ∀ o, s.cnt o ≤ cfg.len := by
    intro s h
    induction h with
    | init => intro o; simp [LrState.init]
    | step s t h hs hc => exact hc
  have hcu : ∀ o', Function.update s.cnt o (s.cnt o + 1) o' ≤ cfg.len := by
    intro o'
    by_cases ho : o' = o
    · subst ho; simp; omega
    · rw [Function.update_of_ne ho]; exact hall s hs o'
  by_cases hd : cfg.updateLRBatch ∣ ((s.cnt o + 1 : Nat) : Int)
  · rw [observeOne_of_dvd hb _ hd] at h; injection h with h; injection h with e1 e2
    subst e1 e2
    have hr := LrRun.step s _ hs (LrStep.read (cfg := cfg) s o hp (by rw [lrDue_ok hb]; simpa using hd)) hcu
    refine ⟨_, LrRun.step _ _ hr (LrStep.write _ o (newLr cfg (s.cnt o + 1) s.lr) (by simp)) hcu, rfl, rfl, ?_⟩
    funext o'
    by_cases ho : o' = o
    · subst ho; simp [hp]
    · simp [Function.update_of_ne ho]
  · rw [observeOne_of_not_dvd hb _ hd] at h; injection h with h; injection h with e1 e2
    subst e1 e2
    exact ⟨_, LrRun.step s _ hs (LrStep.skip (cfg := cfg) s o hp (by rw [lrDue_ok hb]; simpa using hd)) hcu,
      rfl, rfl, rfl⟩

/-- `C35_sequential_is_run` from the start. -/
example (c' : Nat) (lr' : ℝ) (h : observeOne (⟨1, 0, 2, 4⟩ : LrCfg ℝ) 0 1 = .ok (c', lr')) :=
  C35_sequential_is_run ⟨1, 0, 2, 4⟩ _ .init 0 rfl (by simp [LrState.init]) c' lr' h

/-- A state reached by a history in which two observers overlap: observer 0 has read but not stored when observer 1
counts a word. -/
example : ∃ s, LrRun (⟨1, 0.1, 1, 4⟩ : LrCfg ℝ) s ∧ s.lr = 3 / 4 ∧ s.cnt 0 = 1 ∧ s.cnt 1 = 1 := by
  set cfg : LrCfg ℝ := ⟨1, 0.1, 1, 4⟩
  have r0 := LrRun.init (cfg := cfg)
  have due : ∀ c, lrDue cfg c = .ok true := by intro c; rw [lrDue_ok (by simp [cfg])]; simp [cfg]
  have r1 := LrRun.step _ _ r0 (LrStep.read (cfg := cfg) _ 0 (by simp [LrState.init]) (due _))
    (by intro o; by_cases h : o = 0 <;> simp [h, LrState.init, cfg])
  have r2 := LrRun.step _ _ r1 (LrStep.read (cfg := cfg) _ 1 (by simp [LrState.init]) (due _))
    (by intro o; by_cases h : o = 1 <;> by_cases h' : o = 0 <;> simp [h, h', LrState.init, cfg])
  have r3 := LrRun.step _ _ r2 (LrStep.write (cfg := cfg) _ 0 _ (by simp; rfl))
    (by intro o; by_cases h : o = 1 <;> by_cases h' : o = 0 <;> simp [h, h', LrState.init, cfg])
  refine ⟨_, r3, ?_, by simp [LrState.init], by simp [LrState.init]⟩
  simp only [LrState.init, newLr, cfg]
  norm_num

/-- the hypotheses of C35 hold for the default options -/
example : (0 : ℝ) ≤ 0.0000025 ∧ (0.0000025 : ℝ) ≤ 0.025 := by norm_num

theorem observeAlone_pass (cfg : LrCfg ℝ) (hb : 0 < cfg.updateLRBatch) (k : Nat) (lr : ℝ)
    (hl : 0 < cfg.len) (h0 : 0 < cfg.initlr)
    (hk : (k : Int) * cfg.updateLRBatch ≤ cfg.len)
    (hlr : cfg.minLR ≤ lr)
    (hmin : ∀ j : Nat, 1 ≤ j → j < k → cfg.minLR ≤ cfg.initlr * (1 - (j * cfg.updateLRBatch : ℝ) / cfg.len))
    (h1 : 1 ≤ k) :
    observeAlone cfg (k * cfg.updateLRBatch.toNat) (0, lr)
      = .ok (k * cfg.updateLRBatch.toNat, cfg.initlr * (1 - (k * cfg.updateLRBatch : ℝ) / cfg.len)) := by
  obtain ⟨b, hbe⟩ : ∃ b : Nat, cfg.updateLRBatch = b := ⟨cfg.updateLRBatch.toNat, by omega⟩
  have hb0 : 0 < b := by omega
  rw [hbe] at hk hmin ⊢
  rw [Int.toNat_natCast]
  have hb' : cfg.updateLRBatch ≠ 0 := by omega
  -- one period
  have period : ∀ (j : Nat) (x : ℝ), cfg.minLR ≤ x →
      observeAlone cfg b (j * b, x) = .ok ((j + 1) * b, cfg.initlr * (1 - ((j + 1 : Nat) * b : ℝ) / cfg.len)) := by
    intro j x hx
    obtain ⟨b', rfl⟩ : ∃ b', b = b' + 1 := ⟨b - 1, by omega⟩
    rw [observeAlone_add, observeAlone_skip hb' (j * (b' + 1)) b' x]
    · rw [Res.ok_bind]
      simp only [observeAlone]
      rw [observeOne_of_dvd hb']
      · simp only [Res.ok_bind]
        have hnl : ¬ (GoFloat.lt x cfg.minLR = true) := by simpa using hx
        rw [newLr, if_neg hnl]
        have : j * (b' + 1) + b' + 1 = (j + 1) * (b' + 1) := by ring
        rw [this]
        simp
      · rw [hbe]; exact ⟨(j : Int) + 1, by push_cast; ring⟩
    · intro q h1 h2 hq
      rw [hbe] at hq
      have hq' : (b' + 1) ∣ q := by exact_mod_cast hq
      obtain ⟨m, rfl⟩ := hq'
      have : j < m := by
        by_contra hc
        have : (b' + 1) * m ≤ (b' + 1) * j := Nat.mul_le_mul_left _ (by omega)
        rw [Nat.mul_comm j] at h1; omega
      have : (b' + 1) * (j + 1) ≤ (b' + 1) * m := Nat.mul_le_mul_left _ this
      rw [Nat.mul_comm j] at h2
      rw [Nat.mul_add] at this
      omega
  obtain ⟨k', rfl⟩ : ∃ k', k = k' + 1 := ⟨k - 1, by omega⟩
  clear h1
  induction k' with
  | zero => simpa using period 0 lr hlr
  | succ n ih =>
    have hle : ((n + 1 : Nat) : Int) * (b : Int) ≤ cfg.len := by
      have : ((n + 1 : Nat) : Int) * (b : Int) ≤ ((n + 1 + 1 : Nat) : Int) * (b : Int) := by
        apply mul_le_mul_of_nonneg_right <;> push_cast <;> omega
      omega
    have := ih (fun j h1 h2 => hmin j h1 (by omega)) hle
    rw [show (n + 1 + 1) * b = (n + 1) * b + b by ring, observeAlone_add, this, Res.ok_bind,
      period (n + 1) _ (by simpa using hmin (n + 1) (by omega) (by omega))]
    congr 2; ring

/-- **C34 is false of the code.** Whenever `UpdateLRBatch` divides `Len` and the rate of the last update but one is
still at least `MinLR > 0` (`Initlr*UpdateLRBatch/Len ≥ MinLR`), a pass over `Len` words ends with the rate `0`, which
is below `MinLR` and is what the words of the next iteration are trained with. -/
theorem C34_refuted (cfg : LrCfg ℝ) (hb : 0 < cfg.updateLRBatch) (hm : 0 < cfg.minLR) (hi : cfg.minLR ≤ cfg.initlr)
    (hl : 0 < cfg.len) (hd : cfg.updateLRBatch ∣ (cfg.len : Int))
    (hmin : cfg.minLR ≤ cfg.initlr * cfg.updateLRBatch / cfg.len) :
    observeAlone cfg cfg.len (0, cfg.initlr) = .ok (cfg.len, 0) ∧ (0 : ℝ) < cfg.minLR := by
  refine ⟨?_, hm⟩
  obtain ⟨k, hk⟩ := hd
  have hk0 : 0 < k := by
    by_contra hc
    have : cfg.updateLRBatch * k ≤ 0 := mul_nonpos_of_nonneg_of_nonpos (le_of_lt hb) (by omega)
    omega
  obtain ⟨k, rfl⟩ : ∃ k' : Nat, k = k' := ⟨k.toNat, by omega⟩
  have hkn : cfg.len = k * cfg.updateLRBatch.toNat := by
    zify; rw [Int.toNat_of_nonneg hb.le, hk, mul_comm]
  have hlR : (0 : ℝ) < cfg.len := by exact_mod_cast hl
  have hkR : (k : ℝ) * cfg.updateLRBatch = cfg.len := by
    have : ((cfg.updateLRBatch * k : Int) : ℝ) = ((cfg.len : Int) : ℝ) := by rw [hk]
    push_cast at this; rw [mul_comm]; exact this
  have hi0 : 0 < cfg.initlr := lt_of_lt_of_le hm hi
  have := observeAlone_pass cfg hb k cfg.initlr hl hi0 (by rw [hk]; exact le_of_eq (mul_comm _ _)) hi ?_ (by omega)
  · rw [← hkn, hkR, div_self hlR.ne', sub_self, mul_zero] at this
    exact this
  · intro j hj1 hj2
    refine hmin.trans ?_
    rw [mul_div_assoc]
    apply mul_le_mul_of_nonneg_left _ hi0.le
    have hbR : (0 : ℝ) < cfg.updateLRBatch := by exact_mod_cast hb
    rw [div_le_iff₀ hlR, sub_mul, div_mul_cancel₀ _ hlR.ne', one_mul, ← hkR]
    have : (j : ℝ) + 1 ≤ k := by exact_mod_cast hj2
    nlinarith

/-- `C34_refuted` for the default rates, with 100000 words. -/
example := C34_refuted ⟨0.025, 0.0000025, 100000, 100000⟩ (by norm_num) (by norm_num) (by norm_num) (by norm_num) (by norm_num) (by norm_num)

/-- The same in float64 with the default `Initlr = 0.025`, `MinLR = Initlr*1.0e-4` and `UpdateLRBatch = 100000`, on any
corpus of 100000 words: the update at the last word sets the rate to `0 < MinLR`. -/
theorem C34_refuted_float64 :
    newLr (⟨GoFloat.ofRat 0.025, GoFloat.ofRat 0.0000025, 100000, 100000⟩ : LrCfg F64) 100000 (GoFloat.ofRat 0.025)
      = fzero ∧
    GoFloat.lt (fzero : F64) (GoFloat.ofRat 0.0000025) = true := by
  decide +kernel

/-- the hypotheses of `C34_refuted` are met by the default options on a 100000-word corpus -/
example : ∃ cfg : LrCfg ℝ, 0 < cfg.updateLRBatch ∧ 0 < cfg.minLR ∧ cfg.minLR ≤ cfg.initlr ∧ 0 < cfg.len ∧
    cfg.updateLRBatch ∣ (cfg.len : Int) ∧ cfg.minLR ≤ cfg.initlr * cfg.updateLRBatch / cfg.len :=
  ⟨⟨0.025, 0.0000025, 100000, 100000⟩, by norm_num, by norm_num, by norm_num, by norm_num, by norm_num, by norm_num⟩

end Wego.Props
