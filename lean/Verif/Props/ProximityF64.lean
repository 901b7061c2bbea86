import Verif.Props.CosineAccuracy
import Verif.Props.Cooccurrence

/-! C05 in float64: the accuracy of the accumulated proximity weights. -/

namespace Wego.Props
open Wego F64

/-- `(1+x)^k ≤ 1+2kx` for small `kx` -/
theorem pow_le_lin (x : ℝ) (hx : 0 ≤ x) (k : Nat) (h : 2 * (k * x) ≤ 1) : (1 + x) ^ k ≤ 1 + 2 * (k * x) := by
  induction k with
  | zero => simp
  | succ k ih =>
    push_cast at h ⊢
    have h' : 2 * ((k : ℝ) * x) ≤ 1 := by nlinarith
    have := ih h'
    calc (1 + x) ^ (k + 1) = (1 + x) ^ k * (1 + x) := pow_succ _ _
      _ ≤ (1 + 2 * (k * x)) * (1 + x) := mul_le_mul_of_nonneg_right this (by linarith)
      _ ≤ _ := by nlinarith

/-- adding the same positive double again and again -/
theorem bumpN_err (w : F64) (hw : IsFin w) (w0 : 0 < toReal w) (B : ℝ) (hB : B ≤ 2 ^ 1023) (n : Nat)
    (hn : (n : ℝ) * toReal w * (1 + uu) ^ n < B) (hn1 : 1 ≤ n) :
    ∃ e, bumpN none w n = some e ∧ IsFin e ∧ |toReal e - n * toReal w| ≤ n * toReal w * ((1 + uu) ^ n - 1) := by
  have hu := uu_pos
  induction n with
  | zero => omega
  | succ k ih =>
    have hp1 : (1 : ℝ) ≤ (1 + uu) ^ k := one_le_pow₀ (by linarith)
    have hps : (1 + uu) ^ (k + 1) = (1 + uu) ^ k * (1 + uu) := pow_succ _ _
    obtain ⟨e, he, hf, herr⟩ : ∃ e, (bumpN none w k).getD fzero = e ∧ IsFin e ∧
        |toReal e - k * toReal w| ≤ k * toReal w * ((1 + uu) ^ k - 1) := by
      rcases Nat.eq_zero_or_pos k with rfl | hk
      · refine ⟨fzero, rfl, by have := (round_int 0 (by decide)).1; simpa [fzero] using this, ?_⟩
        have : toReal (fzero : F64) = 0 := by
          have := F64.toRat_round_nat 0 (by norm_num)
          unfold toReal fzero
          rw [ofRat_eq]
          simpa using this
        rw [this]; simp
      · obtain ⟨e, h1, h2⟩ := ih (by
          refine lt_of_le_of_lt ?_ hn
          rw [hps]
          push_cast
          have : (k : ℝ) * toReal w ≤ (k + 1) * toReal w := by nlinarith
          calc (k : ℝ) * toReal w * (1 + uu) ^ k ≤ (k + 1) * toReal w * (1 + uu) ^ k :=
                mul_le_mul_of_nonneg_right this (by linarith)
            _ ≤ (k + 1) * toReal w * ((1 + uu) ^ k * (1 + uu)) :=
                mul_le_mul_of_nonneg_left (by nlinarith) (by positivity)) hk
        exact ⟨e, by rw [h1]; rfl, h2⟩
    have hk0 : (0 : ℝ) ≤ k := Nat.cast_nonneg k
    obtain ⟨l1, l2⟩ := abs_le.1 herr
    set p := (1 + uu) ^ k with hp
    clear_value p
    set W := toReal w
    set E := toReal e
    have hE0 : E + W ≤ (k + 1) * W * p := by nlinarith
    have hEk : 0 ≤ (k : ℝ) * W := by positivity
    have habs : |E + W| ≤ (k + 1) * W * p := by
      refine abs_le.2 ⟨?_, hE0⟩
      nlinarith
    push_cast at hn
    have hbig : |E + W| < 2 ^ 1023 := by
      refine lt_of_lt_of_le (lt_of_le_of_lt habs (lt_of_le_of_lt ?_ hn)) hB
      rw [hps]
      exact mul_le_mul_of_nonneg_left (by nlinarith) (by positivity)
    obtain ⟨f1, f2⟩ := add_err e w hf hw hbig
    refine ⟨_, by rw [bumpN, he]; rfl, f1, ?_⟩
    show |toReal (add e w) - ((k + 1 : Nat) : ℝ) * W| ≤ _
    rw [hps]
    push_cast
    have hsum : |E + W| ≤ k * W * p + W := by
      refine abs_le.2 ⟨?_, ?_⟩ <;> nlinarith
    have t : |toReal (add e w) - ((k : ℝ) + 1) * W| ≤ |toReal (add e w) - (E + W)| + |E - k * W| := by
      have : toReal (add e w) - ((k : ℝ) + 1) * W = (toReal (add e w) - (E + W)) + (E - k * W) := by ring
      rw [this]; exact abs_add_le _ _
    have m : uu * |E + W| ≤ uu * (k * W * p + W) := mul_le_mul_of_nonneg_left hsum hu.le
    have fin : uu * (k * W * p + W) + k * W * (p - 1) ≤ (k + 1) * W * (p * (1 + uu) - 1) := by
      have : 0 ≤ W * (1 + uu) * (p - 1) := mul_nonneg (by positivity) (by linarith)
      nlinarith
    linarith

theorem sixty_le : (2 : ℝ) ^ 60 ≤ 2 ^ 1023 := pow_le_pow_right₀ (by norm_num) (by norm_num)

theorem one_lt_big : (1 : ℝ) < 2 ^ 1023 := lt_of_lt_of_le (by norm_num) sixty_le

/-- one over a distance -/
theorem inv_err (x y : F64) (d : ℝ) (hx : IsFin x) (hone : toReal x = 1) (hy : IsFin y) (hd : toReal y = d) (hd1 : 1 ≤ d)
    (hd2 : d ≤ 2 ^ 32) : IsFin (div x y) ∧ |toReal (div x y) - 1 / d| ≤ 2 * uu * (1 / d) := by
  have hu := uu_pos
  have hd0 : 0 < d := lt_of_lt_of_le one_pos hd1
  have hq : |1 / d| ≤ 1 := by
    rw [abs_of_nonneg (by positivity)]
    exact (div_le_one hd0).2 hd1
  obtain ⟨r1, r2⟩ := div_err x y hx hy (by rw [hd]; exact hd0.ne') (by rw [hone, hd]; exact lt_of_le_of_lt hq one_lt_big)
  rw [hone, hd] at r2
  refine ⟨r1, r2.trans ?_⟩
  rw [abs_of_nonneg (by positivity : (0 : ℝ) ≤ 1 / d)]
  have hs : sg ≤ 1 / d := by
    refine sg_le.trans ?_
    rw [le_div_iff₀ hd0]
    have : uu / 1000 * d ≤ uu / 1000 * 2 ^ 32 := mul_le_mul_of_nonneg_left hd2 (by positivity)
    refine this.trans ?_
    unfold uu; norm_num
  generalize 1 / d = D at *
  nlinarith

theorem one_f64 : IsFin (F64.round 1) ∧ toReal (F64.round 1) = 1 := by
  have ff := round_int 1 (by norm_num)
  simp only [Int.cast_one] at ff
  exact ff

theorem dist_f64 (k : Int) (hk : k.natAbs ≤ 2 ^ 53) :
    IsFin (F64.abs (F64.round (k : ℚ))) ∧ toReal (F64.abs (F64.round (k : ℚ))) = |(k : ℝ)| := by
  obtain ⟨g1, g2⟩ := round_int k hk
  generalize F64.round (k : ℚ) = x at g1 g2
  obtain ⟨s, n, h, rfl⟩ := g1.cases
  refine ⟨True.intro, ?_⟩
  rw [← g2]
  show (((toRat (.fin false n h)) : ℚ) : ℝ) = |((toRat (.fin s n h) : ℚ) : ℝ)|
  have h1 := abs_toRat_fin s n h
  have h2 : toRat (.fin false n h) = (n : ℚ) / one1 := by simp [toRat]
  rw [h2, ← h1, Rat.cast_abs]

theorem proxW_as {F : Type} [GoFloat F] (a b : Nat) (P : F → Prop)
    (h : P (GoFloat.ofRat 1 /. GoFloat.abs (GoFloat.ofRat ((((a : Int) - (b : Int) : Int)) : ℚ)))) : P (proxW (a, b)) := h

theorem div_as (P : F64 → Prop) (k : Int) (x : F64) (hx : x = F64.round 1)
    (h : P (F64.div x (F64.abs (F64.round (k : ℚ))))) : P (GoFloat.ofRat 1 /. GoFloat.abs (GoFloat.ofRat (k : ℚ))) := by
  subst hx
  exact h

/-- the weight of a pair at distance `d` -/
theorem proxW_err (a b : Nat) (ha : a < 2 ^ 32) (hb : b < 2 ^ 32) (hab : a ≠ b) :
    IsFin (proxW (a, b) : F64) ∧
      |toReal (proxW (a, b) : F64) - (1 / |(a : ℝ) - b|)| ≤ 2 * uu * (1 / |(a : ℝ) - b|) := by
  have hd1 : (1 : ℝ) ≤ |(a : ℝ) - b| := by
    have : (1 : Int) ≤ |(a : Int) - b| := Int.one_le_abs (by omega)
    exact_mod_cast this
  have hd2 : |(a : ℝ) - b| ≤ 2 ^ 32 := by
    have : |(a : Int) - b| ≤ 2 ^ 32 := by rw [abs_le]; omega
    exact_mod_cast this
  have h := dist_f64 ((a : Int) - (b : Int)) (by omega)
  have e : |(((a : Int) - (b : Int) : Int) : ℝ)| = |(a : ℝ) - b| := by
    rw [Int.cast_sub, Int.cast_natCast, Int.cast_natCast]
  exact proxW_as a b (fun v : F64 => IsFin v ∧ |toReal v - (1 / |(a : ℝ) - b|)| ≤ 2 * uu * (1 / |(a : ℝ) - b|))
    (div_as (fun v : F64 => IsFin v ∧ |toReal v - (1 / |(a : ℝ) - b|)| ≤ 2 * uu * (1 / |(a : ℝ) - b|)) ((a : Int) - (b : Int)) _ rfl
      (inv_err (F64.round 1) (F64.abs (F64.round ((((a : Int) - (b : Int) : Int)) : ℚ))) |(a : ℝ) - b| one_f64.1 one_f64.2 h.1
        (h.2.trans e) hd1 hd2))

/-- rounding does not depend on the sign -/
theorem abs_round_swap (a b : Nat) :
    F64.abs (F64.round ((((b : Int) - (a : Int) : Int)) : ℚ)) = F64.abs (F64.round ((((a : Int) - (b : Int) : Int)) : ℚ)) := by
  have e : ((((b : Int) - (a : Int) : Int)) : ℚ) = -((((a : Int) - (b : Int) : Int)) : ℚ) := by push_cast; ring
  rw [e]
  unfold F64.round
  rw [Rat.neg_num, Int.natAbs_neg, Rat.neg_den]
  unfold ofMag
  split <;> rfl

theorem proxW_swap (a b : Nat) : (proxW (b, a) : F64) = proxW (a, b) :=
  proxW_as b a (fun v : F64 => v = proxW (a, b))
    (Eq.symm (proxW_as a b (fun v : F64 => v = GoFloat.ofRat 1 /. GoFloat.abs (GoFloat.ofRat ((((b : Int) - (a : Int) : Int)) : ℚ)))
      (congrArg (fun y : F64 => GoFloat.ofRat 1 /. y) (abs_round_swap a b).symm)))

/-- **C05 (float64).** The calls fail exactly when one of them has equal ids; otherwise the double stored for a pair that was
added `n` times, `1 ≤ n ≤ 2^50`, is finite and differs from `n/|a-b|` by a relative error of at most `(n+2)·2^-52`; a pair never added has
no entry. -/
theorem C05_prox_float64 (calls : List (Nat × Nat)) (h : ∀ q ∈ calls, q.1 < 2 ^ 32 ∧ q.2 < 2 ^ 32) :
    ((∃ q ∈ calls, q.1 = q.2) → (cooCalls "prox" calls : Res (Cooccurrence F64)) = .err .divideByZero) ∧
    ((∀ q ∈ calls, q.1 ≠ q.2) → ∃ co : Cooccurrence F64, cooCalls "prox" calls = .ok co ∧
      ∀ a b, a < 2 ^ 32 → b < 2 ^ 32 →
        (pairCount calls a b = 0 → entry co a b = none) ∧
        (1 ≤ pairCount calls a b → pairCount calls a b ≤ 2 ^ 50 → ∃ v, entry co a b = some v ∧ IsFin v ∧
          |toReal v - (pairCount calls a b / |(a : ℝ) - b|)| ≤
            pairCount calls a b / |(a : ℝ) - b| * ((pairCount calls a b + 2) / 2 ^ 52))) := by
  refine ⟨fun he => ?_, fun hne => ?_⟩
  · unfold cooCalls; rw [new_prox]; exact addPairs_prox_fail calls _ rfl he
  · obtain ⟨co, hco⟩ : ∃ co : Cooccurrence F64, addPairs calls ⟨countProx, GoMap.empty⟩ = .ok co :=
      addPairs_prox_ok _ _ rfl hne
    refine ⟨co, by unfold cooCalls; rw [new_prox]; exact hco, fun a b ha hb => ?_⟩
    obtain ⟨co', h1, _, _, h4⟩ := addPairs_prox (F := F64) calls ⟨countProx, GoMap.empty⟩ rfl hne
      (pairKey (a, b)) (proxW (a, b)) (by
        intro q hq hk
        rw [pairKey_eq_iff q (a, b) (h q hq).1 (h q hq).2 ha hb] at hk
        rcases hk with rfl | rfl
        · rfl
        · exact proxW_swap a b)
    rw [hco] at h1
    simp only [Res.ok.injEq] at h1
    subst h1
    rw [countP_key calls h a b ha hb] at h4
    have he : entry co a b = bumpN none (proxW (a, b) : F64) (pairCount calls a b) := h4
    refine ⟨fun h0 => by rw [he, h0]; rfl, fun hn1 hn2 => ?_⟩
    have hab : a ≠ b := by
      rintro rfl
      obtain ⟨q, hq, hq2⟩ := List.countP_pos_iff.1 (show 0 < pairCount calls a a from hn1)
      refine hne q hq ?_
      have hq3 : q = (a, a) := by simpa using hq2
      rw [hq3]
    obtain ⟨w1, w2⟩ := proxW_err a b ha hb hab
    rw [he]
    generalize pairCount calls a b = n at hn1 hn2
    have hd1 : (1 : ℝ) ≤ |(a : ℝ) - b| := by
      have : (1 : Int) ≤ |(a : Int) - b| := Int.one_le_abs (by omega)
      exact_mod_cast this
    have hD0 : 0 < 1 / |(a : ℝ) - b| := by positivity
    have hD1 : 1 / |(a : ℝ) - b| ≤ 1 := (div_le_one (by linarith)).2 hd1
    have hdiv : (n : ℝ) / |(a : ℝ) - b| = n * (1 / |(a : ℝ) - b|) := by ring
    rw [hdiv]
    generalize 1 / |(a : ℝ) - b| = D at hD0 hD1 w2
    obtain ⟨l1, l2⟩ := abs_le.1 w2
    have hnR : (n : ℝ) ≤ 2 ^ 50 := by exact_mod_cast hn2
    have hn0 : (1 : ℝ) ≤ n := by exact_mod_cast hn1
    have huu : uu = 1 / 2 ^ 53 := rfl
    have hp := pow_le_lin uu uu_pos.le n (by rw [huu]; linarith)
    have hp1 : (1 : ℝ) ≤ (1 + uu) ^ n := one_le_pow₀ (by have := uu_pos; linarith)
    obtain ⟨e, e1, e2, e3⟩ := bumpN_err (proxW (a, b)) w1 (by rw [huu] at l1; linarith) (2 ^ 60) sixty_le n (by
      clear he h4
      have hW : toReal (proxW (a, b) : F64) ≤ 2 := by rw [huu] at l2; linarith
      have hW0 : 0 ≤ toReal (proxW (a, b) : F64) := by rw [huu] at l1; linarith
      have hp2 : (1 + uu) ^ n ≤ 2 := by rw [huu] at hp ⊢; linarith
      calc (n : ℝ) * toReal (proxW (a, b) : F64) * (1 + uu) ^ n ≤ 2 ^ 50 * 2 * 2 :=
            mul_le_mul (mul_le_mul hnR hW hW0 (by norm_num)) hp2 (by linarith) (by norm_num)
        _ < 2 ^ 60 := by norm_num) hn1
    refine ⟨e, e1, e2, ?_⟩
    clear e1 he h4
    generalize toReal (proxW (a, b) : F64) = W at *
    generalize toReal e = E at *
    generalize (1 + uu) ^ n = P at *
    have t : |E - n * D| ≤ |E - n * W| + |n * W - n * D| := by
      have : E - n * D = (E - n * W) + (n * W - n * D) := by ring
      rw [this]; exact abs_add_le _ _
    have t2 : |n * W - n * D| ≤ n * (2 * uu * D) := by
      rw [← mul_sub, abs_mul, abs_of_nonneg (by linarith : (0 : ℝ) ≤ n)]
      exact mul_le_mul_of_nonneg_left w2 (by linarith)
    have t3 : n * W * (P - 1) ≤ n * (D * (1 + 2 * uu)) * (2 * (n * uu)) := by
      refine mul_le_mul (mul_le_mul_of_nonneg_left (by linarith) (by linarith)) (by linarith) (by linarith) ?_
      have := uu_pos
      positivity
    have t4 : n * (D * (1 + 2 * uu)) * (2 * (n * uu)) + n * (2 * uu * D) ≤ n * D * ((n + 2) / 2 ^ 52) := by
      have : (1 + 2 * uu) * (2 * (n * uu)) + 2 * uu ≤ (n + 2) / 2 ^ 52 := by
        rw [huu]; linarith
      have := mul_le_mul_of_nonneg_left this (by positivity : 0 ≤ n * D)
      linarith
    linarith

/-- `Add(1,4); Add(4,1)` in float64: 2/3 up to a relative error of `4·2^-52` -/
example : ∃ (co : Cooccurrence F64) (v : F64), cooCalls "prox" [(1,4),(4,1)] = .ok co ∧ entry co 1 4 = some v ∧
    |toReal v - (((2 : ℕ) : ℝ) / |((1 : ℕ) : ℝ) - (4 : ℕ)|)| ≤ ((2 : ℕ) : ℝ) / |((1 : ℕ) : ℝ) - (4 : ℕ)| * ((((2 : ℕ) : ℝ) + 2) / 2 ^ 52) := by
  obtain ⟨co, h, h1⟩ := (C05_prox_float64 [(1,4),(4,1)] (by decide)).2 (by decide)
  obtain ⟨v, h2, _, h3⟩ := (h1 1 4 (by decide) (by decide)).2 (by decide) (by decide)
  exact ⟨co, v, h, h2, h3⟩

end Wego.Props
