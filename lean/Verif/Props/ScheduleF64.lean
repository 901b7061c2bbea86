import Verif.Props.Schedule

/-! # C81 in float64: the exact learning-rate schedule of one iteration

The same statements as in `Verif/Props/Schedule.lean`, in binary64: the scheduled rate is the rounded value of the formula of `observe`, all comparisons are Go's. -/

namespace Wego
namespace F64

/-- the product of a finite number that is not negative and a number of `[0, 1]` is the rounded product -/
theorem key_mul_unit_eq (x y : F64) (a b : Nat) (hx : key x = some (a : Int)) (ha : a < ovf) (hy : key y = some (b : Int)) (hb : b ≤ one1) :
    key (x *. y) = some (rkey ((a : ℚ) / one1 * ((b : ℚ) / one1))) := by
  cases x with
  | nan => simp [key] at hx
  | inf s =>
    exfalso
    cases s
    · simp only [key, Bool.false_eq_true, if_false, Option.some.injEq] at hx; omega
    · simp only [key, if_true, Option.some.injEq] at hx; omega
  | fin s n h =>
    have hbo := lt_of_le_of_lt hb one1_lt_ovf
    cases y with
    | nan => simp [key] at hy
    | inf t =>
      exfalso
      cases t
      · simp only [key, Bool.false_eq_true, if_false, Option.some.injEq] at hy; omega
      · simp only [key, if_true, Option.some.injEq] at hy; omega
    | fin t m k =>
      show key (mul _ _) = _
      simp only [mul]
      rw [key_round, toRat_of_key hx, toRat_of_key hy]; simp

end F64

namespace Props
open Wego

/-- the linear schedule in the arithmetic `F`: the rate for `c` words counted -/
def schedF {F : Type} [GoFloat F] (cfg : LrCfg F) (c : Nat) : F :=
  cfg.initlr *. (GoFloat.ofRat 1 -. GoFloat.ofRat (c : ℚ) /. GoFloat.ofRat (cfg.len : ℚ))

/-- over the reals this is the schedule of `C81_linear` -/
theorem schedF_real (cfg : LrCfg ℝ) (c : Nat) : schedF cfg c = scheduled cfg c := by simp [schedF, scheduled]

section gen
variable {F : Type} [GoFloat F]

/-- the rate after `q` updates, starting from `r0` -/
def rateF (cfg : LrCfg F) (B : Nat) (r0 : F) : Nat → F
  | 0 => r0
  | q + 1 => if GoFloat.lt (rateF cfg B r0 q) cfg.minLR then cfg.minLR else schedF cfg ((q + 1) * B)

theorem observe_rateF (cfg : LrCfg F) (B : Nat) (hB : 1 ≤ B) (hcfg : cfg.updateLRBatch = B) (r0 : F) (n : Nat) :
    observeAlone cfg n (0, r0) = .ok (n, rateF cfg B r0 (n / B)) := by
  induction n with
  | zero => simp [observeAlone, rateF]
  | succ n ih =>
    rw [observeAlone_add, ih, Res.ok_bind]
    have hb : cfg.updateLRBatch ≠ 0 := by omega
    show (observeOne cfg n _ >>= fun st => .ok st) = _
    by_cases hd : B ∣ n + 1
    · rw [observeOne_of_dvd hb _ (by rw [hcfg]; exact_mod_cast hd), Res.ok_bind]
      have e : (n + 1) / B = n / B + 1 := by rw [Nat.succ_div, if_pos hd]
      have e2 : (n / B + 1) * B = n + 1 := by rw [← e]; exact Nat.div_mul_cancel hd
      rw [e]
      simp only [rateF, e2]
      rfl
    · rw [observeOne_of_not_dvd hb _ (by rw [hcfg]; exact_mod_cast hd), Res.ok_bind]
      rw [Nat.succ_div, if_neg hd]; rfl

variable [LawfulCmp F] {cfg : LrCfg F} {B : Nat} {r0 : F}

theorem not_lt_of_le {x y : F} (h : GoFloat.le y x = true) : GoFloat.lt x y = false := by
  by_contra hc
  have hc' : GoFloat.lt x y = true := by simpa using hc
  have := LawfulCmp.lt_num x y hc'
  rw [LawfulCmp.lt_iff x y this.1 this.2, h] at hc'
  cases hc'

theorem lt_self (x : F) : GoFloat.lt x x = false := by
  by_contra hc
  have hc' : GoFloat.lt x x = true := by simpa using hc
  have hn := LawfulCmp.lt_num x x hc'
  rw [LawfulCmp.lt_iff x x hn.1 hn.2] at hc'
  rcases LawfulCmp.le_total x x hn.1 hn.1 with h | h <;> rw [h] at hc' <;> cases hc'

theorem rateF_above {q : Nat} (hq : 1 ≤ q) (hm : ∀ k, 1 ≤ k → k < q → GoFloat.le cfg.minLR (schedF cfg (k * B)) = true) :
    rateF cfg B r0 q = if q = 1 ∧ GoFloat.lt r0 cfg.minLR = true then cfg.minLR else schedF cfg (q * B) := by
  induction q with
  | zero => omega
  | succ q ih =>
    rcases Nat.eq_zero_or_pos q with rfl | hq0
    · simp only [rateF]
      by_cases h : GoFloat.lt r0 cfg.minLR = true <;> simp [h]
    · rw [if_neg (by omega)]
      simp only [rateF]
      rw [if_neg]
      rw [ih hq0 (fun k h1 h2 => hm k h1 (by omega)), Bool.not_eq_true]
      split
      · exact lt_self _
      · exact not_lt_of_le (hm q hq0 (by omega))

/-- from update `K` on, if all scheduled rates from there are below the minimum -/
theorem rateF_below {K : Nat} (hK0 : 1 ≤ K) {Q : Nat} (hlow : ∀ q, K ≤ q → q ≤ Q → GoFloat.lt (schedF cfg (q * B)) cfg.minLR = true)
    (hfirst : ∀ k, 1 ≤ k → k < K → GoFloat.le cfg.minLR (schedF cfg (k * B)) = true) (hr : GoFloat.lt r0 cfg.minLR = false ∨ 2 ≤ K) (d : Nat) (hd : K + d ≤ Q) :
    rateF cfg B r0 (K + d) = if d % 2 = 0 then schedF cfg ((K + d) * B) else cfg.minLR := by
  induction d with
  | zero =>
    rw [Nat.add_zero, rateF_above hK0 hfirst, if_neg, if_pos (by rfl)]
    rintro ⟨rfl, h⟩
    rcases hr with hr | hr
    · rw [hr] at h; cases h
    · omega
  | succ d ih =>
    rw [← Nat.add_assoc]
    simp only [rateF]
    rw [ih (by omega)]
    by_cases hd : d % 2 = 0
    · rw [if_pos hd, if_pos (hlow _ (by omega) (by omega)), if_neg (by omega)]
    · rw [if_neg hd, if_neg (by rw [lt_self]; simp), if_pos (by omega), Nat.add_assoc]

end gen

/-- the float64 schedule falls: more words counted give a rate that is not larger -/
theorem schedF_anti (cfg : LrCfg F64) (hfin : ∃ n h, cfg.initlr = .fin false n h) (hl : cfg.len ≤ 2 ^ 53) {a b : Nat} (hab : a ≤ b) (hb : b ≤ cfg.len) (hb0 : 0 < cfg.len) :
    GoFloat.le (schedF cfg b) (schedF cfg a) = true := by
  obtain ⟨n, hn, hi⟩ := hfin
  have hki : F64.key cfg.initlr = some (n : Int) := by rw [hi]; simp [F64.key]
  have hp : (0 : ℚ) < one1 := by exact_mod_cast one1_pos
  have step : ∀ c, c ≤ cfg.len → ∃ q r : Nat, (q : Int) = F64.rkey ((c : ℚ) / cfg.len) ∧ (r : Int) = F64.rkey (1 - (q : ℚ) / one1) ∧
      F64.key (schedF cfg c) = some (F64.rkey ((n : ℚ) / one1 * ((r : ℚ) / one1))) := by
    intro c hc
    obtain ⟨q, hq, hq1, e1⟩ := F64.key_nat_div c cfg.len hc hb0 hl
    obtain ⟨r, hr, hr1⟩ := F64.key_one_sub_unit _ q hq hq1
    have e2 := F64.key_one_sub _ q hq
    rw [if_pos (lt_of_le_of_lt hq1 F64.one1_lt_ovf), hr] at e2
    exact ⟨q, r, e1, by injection e2, F64.key_mul_unit_eq _ _ n r hki hn.2 hr hr1⟩
  obtain ⟨qa, ra, a1, a2, a3⟩ := step a (hab.trans hb)
  obtain ⟨qb, rb, b1, b2, b3⟩ := step b hb
  refine (F64.le_iff _ _).2 ⟨_, _, b3, a3, F64.rkey_mono ?_⟩
  have hq : (qa : Int) ≤ qb := by
    rw [a1, b1]
    apply F64.rkey_mono
    exact div_le_div_of_nonneg_right (by exact_mod_cast hab) (by positivity)
  have hr : (rb : Int) ≤ ra := by
    rw [a2, b2]
    apply F64.rkey_mono
    have : (qa : ℚ) / one1 ≤ (qb : ℚ) / one1 := div_le_div_of_nonneg_right (by exact_mod_cast hq) hp.le
    linarith
  apply mul_le_mul_of_nonneg_left _ (div_nonneg (Nat.cast_nonneg _) hp.le)
  exact div_le_div_of_nonneg_right (by exact_mod_cast hr) hp.le

/-- **C81 in float64 (schedule above the minimum).** With `Initlr` finite and not negative and a corpus of at most `2^53` words, after `n ≤ Len` words of an iteration: if the scheduled rate at the
last multiple `c` of `UpdateLRBatch` is not below `MinLR`, the rate is exactly the float64 value of `Initlr * (1 - c/Len)`; only the first update of an iteration that starts with a rate below
`MinLR` gives `MinLR`. -/
theorem C81_linear_float64 (cfg : LrCfg F64) (hfin : ∃ n h, cfg.initlr = .fin false n h) (hl : cfg.len ≤ 2 ^ 53) (B : Nat) (hB : 1 ≤ B) (hcfg : cfg.updateLRBatch = B) (r0 : F64)
    (n : Nat) (hn : n ≤ cfg.len) (hm : GoFloat.le cfg.minLR (schedF cfg (n / B * B)) = true) :
    observeAlone cfg n (0, r0) =
      .ok (n, if n < B then r0 else if n < 2 * B ∧ GoFloat.lt r0 cfg.minLR = true then cfg.minLR else schedF cfg (n / B * B)) := by
  rw [observe_rateF cfg B hB hcfg]
  congr 2
  by_cases hnB : n < B
  · rw [if_pos hnB, Nat.div_eq_of_lt hnB]; rfl
  · have hq : 1 ≤ n / B := (Nat.one_le_div_iff (by omega)).2 (by omega)
    have hle : n / B * B ≤ n := Nat.div_mul_le_self n B
    rw [if_neg hnB, rateF_above hq (fun k _ hk => LawfulCmp.le_trans _ _ _ hm
      (schedF_anti cfg hfin hl (Nat.mul_le_mul_right _ (by omega)) (hle.trans hn) (by omega)))]
    have : n / B = 1 ↔ n < 2 * B := by
      constructor
      · intro h
        have := Nat.lt_mul_of_div_lt (show n / B < 2 by omega) (by omega : 0 < B)
        omega
      · intro h
        have : n / B < 2 := Nat.div_lt_of_lt_mul (by omega)
        omega
    simp only [this]

/-- **C81 in float64 (schedule below the minimum).** Let the `K`-th update be the first whose scheduled float64 rate is below `MinLR`. From there to the end of the iteration the rate alternates
between the scheduled rate, below `MinLR`, and `MinLR`. -/
theorem C81_alternates_float64 (cfg : LrCfg F64) (hfin : ∃ n h, cfg.initlr = .fin false n h) (hl : cfg.len ≤ 2 ^ 53) (B : Nat) (hB : 1 ≤ B) (hcfg : cfg.updateLRBatch = B) (r0 : F64)
    (K : Nat) (hK0 : 1 ≤ K) (hK : GoFloat.lt (schedF cfg (K * B)) cfg.minLR = true) (hfirst : ∀ k, 1 ≤ k → k < K → GoFloat.le cfg.minLR (schedF cfg (k * B)) = true)
    (hr : GoFloat.lt r0 cfg.minLR = false ∨ 2 ≤ K) (n : Nat) (hKn : K * B ≤ n) (hn : n ≤ cfg.len) :
    observeAlone cfg n (0, r0) = .ok (n, if (n / B - K) % 2 = 0 then schedF cfg (n / B * B) else cfg.minLR) ∧ GoFloat.lt (schedF cfg (n / B * B)) cfg.minLR = true := by
  have hKq : K ≤ n / B := (Nat.le_div_iff_mul_le (by omega)).2 hKn
  have hle : n / B * B ≤ n := Nat.div_mul_le_self n B
  have hlen : 0 < cfg.len := by
    have : 1 ≤ K * B := Nat.mul_pos hK0 hB
    omega
  have hlow : ∀ q, K ≤ q → q ≤ n / B → GoFloat.lt (schedF cfg (q * B)) cfg.minLR = true := by
    intro q h1 h2
    have h3 : q * B ≤ cfg.len := (Nat.mul_le_mul_right B h2).trans (hle.trans hn)
    obtain ⟨a, b, ha, hb, hab⟩ := (F64.le_iff _ _).1 (schedF_anti cfg hfin hl (Nat.mul_le_mul_right B h1) h3 hlen)
    obtain ⟨b', c, hb', hc, hbc⟩ := (F64.lt_iff _ _).1 hK
    rw [hb] at hb'; injection hb' with hb'
    exact (F64.lt_iff _ _).2 ⟨a, c, ha, hc, by omega⟩
  refine ⟨?_, hlow _ hKq le_rfl⟩
  rw [observe_rateF cfg B hB hcfg]
  congr 2
  have := rateF_below (r0 := r0) hK0 hlow hfirst hr (n / B - K) (by omega)
  rw [show K + (n / B - K) = n / B by omega] at this
  exact this

/-- **C81 in float64 (not monotone).** When the float64 schedule falls below `MinLR` at update `K` and the iteration has another update, that update raises the rate; and in the next iteration two
updates bring the rate back to the start of the schedule. -/
theorem C81_rises_again_float64 (cfg : LrCfg F64) (hfin : ∃ n h, cfg.initlr = .fin false n h) (hl : cfg.len ≤ 2 ^ 53) (B : Nat) (hB : 1 ≤ B) (hcfg : cfg.updateLRBatch = B) (r0 : F64)
    (K : Nat) (hK0 : 1 ≤ K) (hK : GoFloat.lt (schedF cfg (K * B)) cfg.minLR = true) (hfirst : ∀ k, 1 ≤ k → k < K → GoFloat.le cfg.minLR (schedF cfg (k * B)) = true)
    (hr : GoFloat.lt r0 cfg.minLR = false ∨ 2 ≤ K) (hn : (K + 1) * B ≤ cfg.len) :
    (∃ r r', observeAlone cfg (K * B) (0, r0) = .ok (K * B, r) ∧ observeAlone cfg ((K + 1) * B) (0, r0) = .ok ((K + 1) * B, r') ∧ GoFloat.lt r r' = true) ∧
    (3 ≤ K → ∀ r1, observeAlone cfg (2 * B) (0, r1) = .ok (2 * B, schedF cfg (2 * B))) := by
  have hd : ∀ k, k * B / B = k := fun k => Nat.mul_div_cancel k (by omega)
  have hKB : K * B ≤ (K + 1) * B := Nat.mul_le_mul_right _ (by omega)
  constructor
  · obtain ⟨e1, l1⟩ := C81_alternates_float64 cfg hfin hl B hB hcfg r0 K hK0 hK hfirst hr (K * B) le_rfl (hKB.trans hn)
    obtain ⟨e2, l2⟩ := C81_alternates_float64 cfg hfin hl B hB hcfg r0 K hK0 hK hfirst hr ((K + 1) * B) hKB hn
    refine ⟨_, _, e1, e2, ?_⟩
    rw [hd, hd, if_pos (by omega), if_neg (by omega)]
    exact hK
  · intro h3 r1
    have h2 : 2 * B ≤ K * B := Nat.mul_le_mul_right _ (by omega)
    rw [C81_linear_float64 cfg hfin hl B hB hcfg r1 (2 * B) (h2.trans (hKB.trans hn)) (by rw [hd]; exact hfirst 2 (by omega) (by omega)), hd, if_neg (by omega), if_neg (by omega)]

/-- 100 words, an update every 10, rates from 0.025 with minimum 0.01 -/
def exLrF : LrCfg F64 := ⟨GoFloat.ofRat (1/40), GoFloat.ofRat (1/100), 10, 100⟩

theorem exLrF_fin : ∃ n h, exLrF.initlr = .fin false n h := by
  have h : (match exLrF.initlr with | .fin false _ _ => true | _ => false) = true := by decide +kernel
  generalize exLrF.initlr = x at h
  rcases x with _ | _ | ⟨_ | _, n, hn⟩
  · simp at h
  · simp at h
  · exact ⟨n, hn, rfl⟩
  · simp at h

theorem exLrF_first : ∀ k, 1 ≤ k → k < 7 → GoFloat.le exLrF.minLR (schedF exLrF (k * 10)) = true := by
  have h : ∀ k : Fin 7, GoFloat.le exLrF.minLR (schedF exLrF (k.val * 10)) = true := by decide +kernel
  exact fun k _ hk => h ⟨k, hk⟩

/-- In float64 too the 7th update is the first below the minimum; after it the rate rises. -/
example (r0 : F64) := C81_linear_float64 exLrF exLrF_fin (by decide) 10 (by decide) rfl r0 25 (by decide) (by decide +kernel)
example (r0 : F64) := C81_alternates_float64 exLrF exLrF_fin (by decide) 10 (by decide) rfl r0 7 (by decide) (by decide +kernel) exLrF_first (.inr (by decide)) 85 (by decide) (by decide)
example (r0 : F64) := C81_rises_again_float64 exLrF exLrF_fin (by decide) 10 (by decide) rfl r0 7 (by decide) (by decide +kernel) exLrF_first (.inr (by decide)) (by decide)

end Props
end Wego
