import Verif.Model.RateLag
import Verif.Props.Schedule
import Verif.Proofs.Concurrency

/-! # C82: the learning rate of a word is at most `Goroutines` words old -/

namespace Wego.Props
open Wego Wego.Iter

/-- **C82 (words).** In every schedule of an iteration, the words whose loop turn has started are at least the counted ones and at most `Goroutines` more. -/
theorem C82_words {α : Type} (g : Nat) (fails : Bool) (batches : List (List α)) (s₀ s : Iter α) (h0 : s₀ = initBatch g batches ∨ s₀ = initMem g batches) (h : Reach g fails s₀ s) :
    s.cnt ≤ s.log.length ∧ s.log.length ≤ s.cnt + g := by
  have hi : Inv g fails batches s₀ := by
    rcases h0 with rfl | rfl
    · exact inv_initBatch _ _ _
    · exact inv_initMem _ _ _
  have i := inv_reach hi h
  have h1 := i.cnt
  have h2 := i.permits
  have h3 : s.workers.countP uncounted ≤ s.workers.countP holds :=
    List.countP_mono_left (by rintro ⟨b, p, pc⟩ _; cases pc <;> simp [uncounted, holds])
  omega

section
variable {F : Type} [GoFloat F]

/-- the rate when the observer has finished `c` words -/
def RateAt (cfg : LrCfg F) (r0 : F) (c : Nat) (r : F) : Prop := observeAlone cfg c (0, r0) = .ok (c, r)

theorem RateAt.succ {cfg : LrCfg F} {r0 r : F} {c : Nat} {due : Bool} (h : RateAt cfg r0 c r) (hd : lrDue cfg (c + 1) = .ok due) :
    RateAt cfg r0 (c + 1) (if due then newLr cfg (c + 1) r else r) := by
  unfold RateAt at h ⊢
  rw [observeAlone_add, h, Res.ok_bind]
  show (observeOne cfg c r >>= fun st => .ok st) = _
  unfold observeOne
  rw [hd, Res.ok_bind, Res.ok_bind]

/-- what is true of every reachable state: the rate is that after `sent` words, or one less while the observer is busy -/
structure LagInv (cfg : LrCfg F) (g : Nat) (r0 : F) (s : LagState F) : Prop where
  le : s.sent ≤ s.started
  lag : s.started ≤ s.sent + g
  len : s.used.length = s.started
  obs : match s.obs with
    | .idle => RateAt cfg r0 s.sent s.lr
    | .got => 1 ≤ s.sent ∧ RateAt cfg r0 (s.sent - 1) s.lr
    | .pend v => 1 ≤ s.sent ∧ RateAt cfg r0 (s.sent - 1) s.lr ∧ RateAt cfg r0 s.sent v
  used : ∀ j r, s.used[j]? = some (some r) → ∃ c, j ≤ c + g ∧ c ≤ j ∧ RateAt cfg r0 c r

theorem lagInv {cfg : LrCfg F} {g : Nat} {r0 : F} {s : LagState F} (h : LagRun cfg g r0 s) : LagInv cfg g r0 s := by
  induction h with
  | init => exact ⟨le_rfl, by simp [LagState.init], rfl, rfl, by simp [LagState.init]⟩
  | step s t h hs ih =>
    obtain ⟨h1, h2, h3, h4, h5⟩ := ih
    cases hs with
    | read h =>
      refine ⟨by simp; omega, by simp; omega, by simp [h3], h4, ?_⟩
      intro j r hj
      rcases Nat.lt_trichotomy j s.used.length with hlt | heq | hgt
      · rw [List.getElem?_append_left hlt] at hj
        exact h5 j r hj
      · subst heq
        simp only [List.getElem?_append_right le_rfl, Nat.sub_self, List.getElem?_cons_zero, Option.some.injEq] at hj
        subst hj
        cases ho : s.obs with
        | idle => rw [ho] at h4; exact ⟨s.sent, by omega, by omega, h4⟩
        | got => rw [ho] at h4; exact ⟨s.sent - 1, by omega, by omega, h4.2⟩
        | pend v => rw [ho] at h4; exact ⟨s.sent - 1, by omega, by omega, h4.2.1⟩
      · rw [List.getElem?_eq_none (by simp; omega)] at hj
        cases hj
    | skip h =>
      refine ⟨by simp; omega, by simp; omega, by simp [h3], h4, ?_⟩
      intro j r hj
      rcases Nat.lt_trichotomy j s.used.length with hlt | heq | hgt
      · rw [List.getElem?_append_left hlt] at hj
        exact h5 j r hj
      · subst heq
        simp at hj
      · rw [List.getElem?_eq_none (by simp; omega)] at hj
        cases hj
    | send h ho =>
      rw [ho] at h4
      exact ⟨by simp; omega, by simp; omega, h3, ⟨by simp, by simpa using h4⟩, h5⟩
    | noUpdate ho h =>
      rw [ho] at h4
      obtain ⟨h6, h7⟩ := h4
      refine ⟨h1, h2, h3, ?_, h5⟩
      rw [show s.sent = s.sent - 1 + 1 by omega] at h
      have := h7.succ h
      show RateAt cfg r0 s.sent s.lr
      rw [show s.sent = s.sent - 1 + 1 by omega]
      simpa using this
    | compute ho h =>
      rw [ho] at h4
      obtain ⟨h6, h7⟩ := h4
      refine ⟨h1, h2, h3, ⟨h6, h7, ?_⟩, h5⟩
      have e : s.sent = s.sent - 1 + 1 := by omega
      rw [e] at h
      have := h7.succ h
      rw [← e] at this
      simpa using this
    | store v ho =>
      rw [ho] at h4
      exact ⟨h1, h2, h3, h4.2.2, h5⟩

/-- **C82 (rates).** In every schedule of an iteration that starts with the rate `r0`, with `g` goroutines: the rate used for the `j`-th word started (from 0) is the one the observer has
after finishing `c` words, where `j - g <= c <= j`. Whatever the arithmetic. -/
theorem C82_rate_lag (cfg : LrCfg F) (g : Nat) (r0 : F) (s : LagState F) (h : LagRun cfg g r0 s) (j : Nat) (r : F) (hj : s.used[j]? = some (some r)) :
    ∃ c, j ≤ c + g ∧ c ≤ j ∧ observeAlone cfg c (0, r0) = .ok (c, r) := (lagInv h).used j r hj

/-- **C82 (one goroutine).** The rate of a word is the one after all earlier words, or after all but the last of them. -/
theorem C82_one_goroutine (cfg : LrCfg F) (r0 : F) (s : LagState F) (h : LagRun cfg 1 r0 s) (j : Nat) (r : F) (hj : s.used[j]? = some (some r)) :
    observeAlone cfg j (0, r0) = .ok (j, r) ∨ (1 ≤ j ∧ observeAlone cfg (j - 1) (0, r0) = .ok (j - 1, r)) := by
  obtain ⟨c, h1, h2, h3⟩ := C82_rate_lag cfg 1 r0 s h j r hj
  rcases Nat.lt_or_ge c j with hlt | hge
  · right
    have : c = j - 1 := by omega
    subst this
    exact ⟨by omega, h3⟩
  · left
    have : c = j := by omega
    subst this
    exact h3

/-- **C82 (both occur).** Even with one goroutine the schedule decides: whenever an update is due at word `n` (`n >= 1`), there is a schedule in which the next word uses the rate before
this update and one in which it uses the rate after it. So a run is not reproducible even with one goroutine and a fixed seed. -/
theorem C82_schedule_decides (cfg : LrCfg F) (r0 : F) (n : Nat) (hn : 1 ≤ n) (r r' : F) (h : observeAlone cfg (n - 1) (0, r0) = .ok (n - 1, r))
    (h' : observeAlone cfg n (0, r0) = .ok (n, r')) :
    (∃ s, LagRun cfg 1 r0 s ∧ s.used[n]? = some (some r)) ∧ ∃ s, LagRun cfg 1 r0 s ∧ s.used[n]? = some (some r') := by
  -- the schedule in which the observer finishes each word before the next one starts
  have hb : cfg.updateLRBatch ≠ 0 := by
    intro hb
    obtain ⟨m, rfl⟩ : ∃ m, n = m + 1 := ⟨n - 1, by omega⟩
    simp only [observeAlone] at h'
    rw [(C35_batch_zero_panics cfg _ _).2 hb] at h'
    cases h'
  have key : ∀ k x, observeAlone cfg k (0, r0) = .ok (k, x) → ∃ u, u.length = k ∧ LagRun cfg 1 r0 ⟨x, k, k, .idle, u⟩ := by
    intro k
    induction k with
    | zero =>
      intro x hx
      cases hx
      exact ⟨[], rfl, .init⟩
    | succ k ih =>
      intro x hx
      rw [observeAlone_add, Res.bind_eq_ok] at hx
      obtain ⟨⟨k', y⟩, h1, h2⟩ := hx
      have hk : k' = k := by
        have : ∀ m c z, observeAlone cfg m (c, z) = .ok (k', y) → k' = c + m := by
          intro m
          induction m with
          | zero => intro c z h; cases h; rfl
          | succ m ih2 =>
            intro c z h
            simp only [observeAlone] at h
            unfold observeOne at h
            rw [lrDue_ok hb, Res.ok_bind, Res.ok_bind] at h
            have := ih2 _ _ h
            omega
        simpa using this k 0 r0 h1
      subst hk
      obtain ⟨u, hu, hrun⟩ := ih y h1
      have hs1 : LagRun cfg 1 r0 ⟨y, k' + 1, k' + 1, .got, u ++ [some y]⟩ :=
        .step _ _ (.step _ _ hrun (.read _ (by simp))) (.send ⟨y, k' + 1, k', .idle, u ++ [some y]⟩ (by simp) rfl)
      have h3 : (observeOne cfg k' y >>= fun st => .ok st) = .ok (k' + 1, x) := h2
      unfold observeOne at h3
      rw [lrDue_ok hb, Res.ok_bind, Res.ok_bind] at h3
      refine ⟨u ++ [some y], by simp [hu], ?_⟩
      by_cases hd : cfg.updateLRBatch ∣ ((k' + 1 : Nat) : Int)
      · rw [decide_eq_true hd] at h3
        cases h3
        exact .step _ _ (.step _ _ hs1 (.compute _ rfl (by rw [lrDue_ok hb]; simpa using hd))) (.store ⟨y, k' + 1, k' + 1, .pend _, _⟩ _ rfl)
      · rw [decide_eq_false hd] at h3
        cases h3
        exact .step _ _ hs1 (.noUpdate _ rfl (by rw [lrDue_ok hb]; simpa using hd))
  constructor
  · obtain ⟨m, rfl⟩ : ∃ m, n = m + 1 := ⟨n - 1, by omega⟩
    simp only [Nat.add_sub_cancel] at h
    obtain ⟨u, hu, hrun⟩ := key m r h
    refine ⟨_, .step _ _ (.step _ _ (.step _ _ hrun (.read _ (by simp))) (.send ⟨r, m + 1, m, .idle, u ++ [some r]⟩ (by simp) rfl)) (.read _ (by simp)), ?_⟩
    simp [hu]
  · obtain ⟨u, hu, hrun⟩ := key n r' h'
    refine ⟨_, .step _ _ hrun (.read _ (by simp)), ?_⟩
    simp [← hu]

/-- `C82_schedule_decides`: with 4 words and an update after every word, the second word may train at rate 1 or at 3/4. -/
example (h : observeAlone (⟨1, 0, 1, 4⟩ : LrCfg ℝ) 1 (0, 1) = .ok (1, 3 / 4)) :=
  C82_schedule_decides (⟨1, 0, 1, 4⟩ : LrCfg ℝ) 1 1 le_rfl 1 (3 / 4) rfl h

end

/-- the two rates differ: 4 words, an update after every word, `Initlr` 1: after one word the rate is 3/4 -/
example : observeAlone (⟨1, 0, 1, 4⟩ : LrCfg ℝ) 0 (0, 1) = .ok (0, 1) ∧ observeAlone (⟨1, 0, 1, 4⟩ : LrCfg ℝ) 1 (0, 1) = .ok (1, 3 / 4) := by
  refine ⟨rfl, ?_⟩
  rw [observe_rateAfter ⟨1, 0, 1, 4⟩ 1 le_rfl rfl]
  norm_num [rateAfter, scheduled]

end Wego.Props
