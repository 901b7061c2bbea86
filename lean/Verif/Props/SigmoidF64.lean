import Verif.Go.LibM
import Verif.Proofs.F64Near
import Verif.Proofs.Logistic

/-! # C32 in float64 -/

namespace Wego.Props
open Wego Wego.F64

/-- What is asked of `math.Exp`: on `[-7, 7]` the result is finite and has a relative error of at most `2^-40`
(Go documents less than one unit in the last place, `2^-52`). -/
def ExpAccurate (lib : LibM) : Prop :=
  ∀ x : F64, IsFin x → |toReal x| ≤ 7 →
    IsFin (lib.exp x) ∧ |toReal (lib.exp x) - Real.exp (toReal x)| ≤ Real.exp (toReal x) / 2 ^ 40

theorem uu_val : uu = 1 / 2 ^ 53 := rfl

/-- the argument of `math.Exp` for entry `i` -/
def sigArg (a t two one m : F64) : F64 := mul (sub (mul (div a t) two) one) m

theorem sigArg_near (a t two one m : F64) (i : Nat) (hi : i < 1000) (ha : Near a i 0) (ht : Near t 1000 0)
    (h2 : Near two 2 0) (h1 : Near one 1 0) (hm : Near m 6 0) :
    Near (sigArg a t two one m) ((i : ℝ) * (12 / 1000) - 6) (1 / 2 ^ 46) := by
  have ei : toReal a = i := by have := ha.2; rw [abs_nonpos_iff] at this; linarith
  have et : toReal t = 1000 := by have := ht.2; rw [abs_nonpos_iff] at this; linarith
  have hi0 : (0 : ℝ) ≤ i := by positivity
  have hi1 : (i : ℝ) ≤ 1000 := by exact_mod_cast hi.le
  have hq0 : (0 : ℝ) ≤ (i : ℝ) / 1000 := by positivity
  have hq1 : (i : ℝ) / 1000 ≤ 1 := by rw [div_le_one (by norm_num)]; exact hi1
  have s1 : Near (div a t) ((i : ℝ) / 1000) (uu * 2) := by
    have := near_div (B := 1) ha.1 ht.1 (by rw [et]; norm_num) (by rw [ei, et, abs_of_nonneg hq0]; exact hq1) (by norm_num)
    rw [ei, et] at this
    exact near_weaken this (by norm_num)
  have hu : uu * 1000 ≤ 1 := by rw [uu_val]; norm_num
  have hu0 := uu_pos
  have s2 : Near (mul (div a t) two) ((i : ℝ) / 1000 * 2) (uu * 10) := by
    have := near_mul (A := 2) (B := 2) s1 h2 (by rw [abs_of_nonneg hq0]; linarith) (by norm_num) (by norm_num)
    exact near_weaken this (by linarith)
  have s3 : Near (sub (mul (div a t) two) one) ((i : ℝ) / 1000 * 2 - 1) (uu * 20) := by
    have := near_sub (B := 2) s2 h1 (by
      have : |(i : ℝ) / 1000 * 2 - 1| ≤ 1 := by rw [abs_le]; constructor <;> linarith
      linarith) (by norm_num)
    exact near_weaken this (by linarith)
  have s4 : Near (mul (sub (mul (div a t) two) one) m) (((i : ℝ) / 1000 * 2 - 1) * 6) (uu * 128) := by
    have := near_mul (A := 1 + uu * 20) (B := 6) s3 hm (by
      have : |(i : ℝ) / 1000 * 2 - 1| ≤ 1 := by rw [abs_le]; constructor <;> linarith
      linarith) (by norm_num) (by nlinarith)
    refine near_weaken this ?_
    have : (1 + uu * 20) * (6 + 0) + 1 ≤ 8 := by linarith
    have := mul_le_mul_of_nonneg_left this hu0.le
    linarith
  have e : ((i : ℝ) / 1000 * 2 - 1) * 6 = (i : ℝ) * (12 / 1000) - 6 := by ring
  rw [e] at s4
  exact near_weaken s4 (by rw [uu_val]; norm_num)

theorem sigmoid_dist (x y : ℝ) : |Real.sigmoid x - Real.sigmoid y| ≤ |x - y| / 4 := by
  rcases le_total x y with h | h
  · have h1 := sigmoid_lipschitz x y h
    have h2 := Real.sigmoid_le h
    rw [abs_of_nonpos (by linarith), abs_of_nonpos (by linarith)]; linarith
  · have h1 := sigmoid_lipschitz y x h
    have h2 := Real.sigmoid_le h
    rw [abs_of_nonneg (by linarith), abs_of_nonneg (by linarith)]; linarith

/-- `e / (e + 1)` for `e` close to `exp t` -/
theorem sig_quot_near (e one : F64) (t : ℝ) (he : IsFin e) (h1 : Near one 1 0) (ht : |t| ≤ 13 / 2)
    (hacc : |toReal e - Real.exp t| ≤ Real.exp t / 2 ^ 40) :
    Near (div e (add e one)) (Real.sigmoid t) (1 / 2 ^ 38) := by
  have hE := Real.exp_pos t
  have hE2 : Real.exp t ≤ 1000 := by
    have h6 : Real.exp (13 / 2) = Real.exp 1 ^ (13 / 2 : ℝ) := by rw [Real.exp_one_rpow]
    have h7 : Real.exp t ≤ Real.exp (13 / 2) := Real.exp_le_exp.2 (le_trans (le_abs_self t) ht)
    have h8 : Real.exp (13 / 2) ^ 2 = Real.exp 1 ^ 13 := by rw [← Real.exp_nat_mul, ← Real.exp_nat_mul]; norm_num
    have h9 : Real.exp 1 ≤ 2.72 := le_of_lt (lt_trans Real.exp_one_lt_d9 (by norm_num))
    have h10 : Real.exp 1 ^ 13 ≤ 2.72 ^ 13 := pow_le_pow_left₀ (Real.exp_pos 1).le h9 13
    have h11 : Real.exp (13 / 2) ≤ 1000 := by
      apply le_of_sq_le_sq _ (by norm_num)
      rw [h8]; exact le_trans h10 (by norm_num)
    linarith
  set E := Real.exp t with hEd
  obtain ⟨hb1, hb2⟩ := abs_le.1 hacc
  have hu0 := uu_pos
  have hu : uu * 2 ^ 13 ≤ 1 / 2 ^ 40 := by rw [uu_val]; norm_num
  have hpos : E / 2 ≤ toReal e := by
    have : E / 2 ^ 40 ≤ E / 2 := by
      apply div_le_div_of_nonneg_left hE.le (by norm_num) (by norm_num)
    linarith
  have hpos0 : 0 < toReal e := by linarith
  have hle : toReal e ≤ 1001 := by
    have : E / 2 ^ 40 ≤ 1 := by
      rw [div_le_one (by norm_num)]; linarith [show (1000 : ℝ) ≤ 2 ^ 40 by norm_num]
    linarith
  have one_e : toReal one = 1 := by have := h1.2; rw [abs_nonpos_iff] at this; linarith
  obtain ⟨hf, ha⟩ := add_err e one he h1.1 (by
    rw [one_e, abs_of_pos (by linarith)]
    refine lt_of_le_of_lt ?_ big20
    linarith [show (1002 : ℝ) ≤ 2 ^ 20 by norm_num])
  rw [one_e, abs_of_pos (by linarith : (0 : ℝ) < toReal e + 1)] at ha
  set S := toReal (add e one) with hS
  obtain ⟨ha1, ha2⟩ := abs_le.1 ha
  set x := toReal e with hx
  have hu1 : uu ≤ 1 / 2 ^ 53 := le_of_eq uu_val
  have hSlow : (x + 1) / 2 ≤ S := by
    have : uu * (x + 1) ≤ (1 / 2) * (x + 1) := mul_le_mul_of_nonneg_right (le_trans hu1 (by norm_num)) (by linarith)
    linarith
  have hS0 : 0 < S := by linarith
  have hquo : |x / S| ≤ 2 := by
    rw [abs_of_pos (by positivity), div_le_iff₀ hS0]; linarith
  have hd := near_div he hf hS0.ne' hquo (by norm_num)
  -- x / S vs x / (x+1)
  have hA : |x / S - x / (x + 1)| ≤ uu * 2 := by
    have e1 : x / S - x / (x + 1) = (x / S) * (((x + 1) - S) / (x + 1)) := by
      field_simp
    rw [e1, abs_mul]
    have : |((x + 1) - S) / (x + 1)| ≤ uu := by
      rw [abs_div, abs_of_pos (by linarith : (0 : ℝ) < x + 1), div_le_iff₀ (by linarith), abs_sub_comm]
      exact ha
    calc |x / S| * |((x + 1) - S) / (x + 1)| ≤ 2 * uu := mul_le_mul hquo this (abs_nonneg _) (by norm_num)
      _ = uu * 2 := by ring
  have hBq : |x / (x + 1) - Real.sigmoid t| ≤ 1 / 2 ^ 40 := by
    have e2 : Real.sigmoid t = E / (E + 1) := by
      rw [Real.sigmoid_def, Real.exp_neg, ← hEd]; field_simp
    have e3 : x / (x + 1) - E / (E + 1) = (x - E) / ((x + 1) * (E + 1)) := by
      field_simp; ring
    rw [e2, e3, abs_div, abs_of_pos (by positivity : (0 : ℝ) < (x + 1) * (E + 1)), div_le_iff₀ (by positivity)]
    refine le_trans hacc ?_
    have : E ≤ (x + 1) * (E + 1) := by nlinarith
    calc E / 2 ^ 40 = 1 / 2 ^ 40 * E := by ring
      _ ≤ _ := mul_le_mul_of_nonneg_left this (by norm_num)
  have := near_move (near_move hd hA) hBq
  refine near_weaken this ?_
  have : uu * 2 ^ 13 = uu * (2 ^ 13) := rfl
  have h40 : (1 : ℝ) / 2 ^ 38 = 4 * (1 / 2 ^ 40) := by norm_num
  rw [h40]
  nlinarith

/-- entry `i` of the float64 table -/
theorem sigEntry_near (lib : LibM) (hexp : ExpAccurate lib) (i : Nat) (hi : i < 1000) :
    Near (letI := lib.math; sigEntry i : F64) (Real.sigmoid ((i : ℝ) * (12 / 1000) - 6)) (1 / 2 ^ 37) := by
  have ha : Near (F64.round ((i : Nat) : ℚ)) i 0 := near_nat i (le_trans hi.le (by norm_num))
  have ht : Near (F64.round ((expTableSize : Nat) : ℚ)) 1000 0 := by
    have := near_nat 1000 (by norm_num); simpa [expTableSize] using this
  have h2 : Near (F64.round 2) 2 0 := by have := near_nat 2 (by norm_num); simpa using this
  have h1 : Near (F64.round 1) 1 0 := by have := near_nat 1 (by norm_num); simpa using this
  have hm : Near (F64.round 6) 6 0 := by have := near_nat 6 (by norm_num); simpa using this
  have e : (letI := lib.math; sigEntry i : F64) =
      div (lib.exp (sigArg (F64.round ((i : Nat) : ℚ)) (F64.round ((expTableSize : Nat) : ℚ)) (F64.round 2) (F64.round 1) (F64.round 6)))
        (add (lib.exp (sigArg (F64.round ((i : Nat) : ℚ)) (F64.round ((expTableSize : Nat) : ℚ)) (F64.round 2) (F64.round 1) (F64.round 6))) (F64.round 1)) := rfl
  rw [e]
  have hn := sigArg_near _ _ _ _ _ i hi ha ht h2 h1 hm
  generalize F64.round 1 = one at *
  generalize F64.round 2 = two at *
  generalize F64.round 6 = six at *
  generalize F64.round ((expTableSize : Nat) : ℚ) = tt at *
  generalize F64.round ((i : Nat) : ℚ) = aa at *
  generalize sigArg aa tt two one six = t at *
  have hi0 : (0 : ℝ) ≤ i := by positivity
  have hi1 : (i : ℝ) ≤ 1000 := by exact_mod_cast hi.le
  have hb : |(i : ℝ) * (12 / 1000) - 6| ≤ 6 := by rw [abs_le]; constructor <;> linarith
  have htb : |toReal t| ≤ 13 / 2 := le_trans (near_abs hn) (by
    have : (1 : ℝ) / 2 ^ 46 ≤ 1 / 2 := by norm_num
    linarith)
  obtain ⟨hf, hacc⟩ := hexp t hn.1 (by linarith)
  have hq := sig_quot_near (lib.exp t) one (toReal t) hf h1 htb hacc
  have hd := sigmoid_dist (toReal t) ((i : ℝ) * (12 / 1000) - 6)
  refine near_weaken (near_move hq (le_trans hd (div_le_div_of_nonneg_right hn.2 (by norm_num)))) (by norm_num)

theorem mul_nonneg_toReal (x y : F64) (hx : IsFin x) (hy : IsFin y) (h1 : 0 ≤ toReal x) (h2 : 0 ≤ toReal y)
    (hf : IsFin (mul x y)) : 0 ≤ toReal (mul x y) := by
  obtain ⟨s, n, hn, rfl⟩ := hx.cases
  obtain ⟨t, m, hm, rfl⟩ := hy.cases
  have hq : 0 ≤ toRat (.fin s n hn) * toRat (.fin t m hm) := by
    unfold toReal at h1 h2
    exact mul_nonneg (by exact_mod_cast h1) (by exact_mod_cast h2)
  have em : mul (.fin s n hn) (.fin t m hm) = F64.round (toRat (.fin s n hn) * toRat (.fin t m hm)) (xor s t) := rfl
  rw [em] at hf ⊢
  have hk := key_round (toRat (.fin s n hn) * toRat (.fin t m hm)) (xor s t)
  have hnn := rkey_nonneg hq
  generalize rkey (toRat (.fin s n hn) * toRat (.fin t m hm)) = k at *
  generalize F64.round (toRat (.fin s n hn) * toRat (.fin t m hm)) (xor s t) = r at *
  obtain ⟨u, l, hl, rfl⟩ := hf.cases
  unfold toReal
  rw [toRat_of_key hk]
  push_cast
  have : (0 : ℝ) ≤ k := by exact_mod_cast hnn
  positivity

/-- The exact position of a number and the computed index. -/
theorem sigIndex_near (x : F64) (hx : IsFin x) (h1 : -6 < toReal x) (h2 : toReal x < 6) :
    0 ≤ sigIndex x ∧ (sigIndex x : ℝ) * (12 / 1000) - 6 ≤ toReal x + 1 / 2 ^ 40 ∧
      toReal x < ((sigIndex x : ℝ) + 1) * (12 / 1000) - 6 + 1 / 2 ^ 40 := by
  have hm : Near (maxExp : F64) 6 0 := by
    have := near_nat 6 (by norm_num)
    show Near (F64.round 6) 6 0
    simpa using this
  have hc : IsFin (sigCache : F64) ∧ F64.toRat (sigCache : F64) = 5864062014805333 / 2 ^ 46 := by
    constructor
    · obtain ⟨n, h, e, _⟩ := cache_fin; rw [e]; trivial
    · decide +kernel
  have hcr : toReal (sigCache : F64) = 5864062014805333 / 2 ^ 46 := by
    unfold toReal; rw [hc.2]; push_cast; rfl
  have hc2 : Near (sigCache : F64) (1000 / 12) (1 / 2 ^ 46) := by
    refine ⟨hc.1, ?_⟩
    rw [hcr, abs_le]; constructor <;> norm_num
  rw [sigIndex_f64]
  generalize (sigCache : F64) = c at *
  generalize (maxExp : F64) = m at *
  have hu0 := uu_pos
  have hu : uu = 1 / 2 ^ 53 := uu_val
  have s1 := near_add (B := 12) (near_self hx) hm (by
    rw [abs_of_pos (by linarith)]; linarith) (by norm_num)
  have s2 := near_mul (A := 13) (B := 84) s1 hc2 (by
    rw [abs_of_pos (by linarith), hu]; norm_num; linarith) (by rw [abs_of_pos (by norm_num)]; norm_num) (by norm_num)
  have s3 : Near (mul (add x m) c) ((toReal x + 6) * (1000 / 12)) (1 / 2 ^ 41) := near_weaken s2 (by rw [hu]; norm_num)
  have hge : 0 ≤ toReal (mul (add x m) c) := by
    have em : toReal m = 6 := by have := hm.2; rw [abs_nonpos_iff] at this; linarith
    refine mul_nonneg_toReal _ _ s1.1 hc.1 ?_ (by rw [hcr]; norm_num) s3.1
    obtain ⟨_, ha⟩ := add_err x m hx hm.1 (by
      rw [em, abs_of_pos (by linarith)]
      refine lt_of_le_of_lt ?_ big20
      linarith [show (12 : ℝ) ≤ 2 ^ 20 by norm_num])
    rw [em, abs_of_pos (by linarith : (0 : ℝ) < toReal x + 6)] at ha
    have h3 : uu * (toReal x + 6) ≤ 1 * (toReal x + 6) :=
      mul_le_mul_of_nonneg_right (by rw [hu]; norm_num) (by linarith)
    have := (abs_le.1 ha).1
    linarith
  generalize mul (add x m) c = y at *
  obtain ⟨hl, hr⟩ := abs_le.1 s3.2
  have hlt : toReal y < 2 ^ 20 := by
    have : (1 : ℝ) / 2 ^ 41 ≤ 1 := by norm_num
    have h20 : (1002 : ℝ) ≤ 2 ^ 20 := by norm_num
    linarith
  obtain ⟨k0, k1, k2⟩ := toInt_floor y s3.1 hge hlt
  have h41 : (1 : ℝ) / 2 ^ 41 * (12 / 1000) ≤ 1 / 2 ^ 40 := by norm_num
  have h41' : (0 : ℝ) < 1 / 2 ^ 41 := by norm_num
  have h40 : (1 : ℝ) / 2 ^ 40 = 2 * (1 / 2 ^ 41) := by norm_num
  rw [h40]
  generalize (1 : ℝ) / 2 ^ 41 = d at *
  refine ⟨k0, ?_, ?_⟩ <;> linarith

theorem between_fin (x : F64) (h1 : GoFloat.lt (GoFloat.ofRat (-6)) x = true) (h2 : GoFloat.lt x (GoFloat.ofRat 6) = true) :
    IsFin x ∧ -6 < toReal x ∧ toReal x < 6 := by
  have hf6 : IsFin (F64.round 6) ∧ toReal (F64.round 6) = 6 := by
    have := near_nat 6 (by norm_num)
    have h := toReal_nat 6 (by norm_num)
    push_cast at this h
    exact ⟨this.1, h⟩
  have hfm : IsFin (F64.round (-6)) ∧ toReal (F64.round (-6)) = -6 := by
    have e := round_int (-6) (by norm_num)
    push_cast at e
    exact e
  have hx : IsFin x := by
    rw [F64.lt_iff] at h1 h2
    obtain ⟨a, b, ha, hb, hab⟩ := h1
    obtain ⟨b', c, hb', hc, hbc⟩ := h2
    rw [hb] at hb'
    simp only [Option.some.injEq] at hb'
    subst hb'
    cases x with
    | nan => simp [F64.key] at hb
    | fin => trivial
    | inf s =>
      exfalso
      rw [F64.ofRat_eq] at ha hc
      obtain ⟨s1, n1, r1, e1⟩ := hf6.1.cases
      obtain ⟨s2, n2, r2, e2⟩ := hfm.1.cases
      rw [e1] at hc; rw [e2] at ha
      have := r1.2
      have := r2.2
      cases s <;> cases s1 <;> cases s2 <;> simp [F64.key] at ha hb hc <;> omega
  refine ⟨hx, ?_, ?_⟩
  · have := (lt_fin _ _ hfm.1 hx).1 h1
    rw [hfm.2] at this; exact this
  · have := (lt_fin _ _ hx hf6.1).1 h2
    rw [hf6.2] at this; exact this

theorem sig_lo : (2 : ℝ) / 1000 ≤ Real.sigmoid (-6) := by
  have h : Real.exp 1 ≤ 2.72 := le_of_lt (lt_trans Real.exp_one_lt_d9 (by norm_num))
  have h6 : Real.exp 6 = Real.exp 1 ^ 6 := by rw [← Real.exp_nat_mul]; norm_num
  have h7 : Real.exp 6 ≤ 2.72 ^ 6 := by rw [h6]; exact pow_le_pow_left₀ (Real.exp_pos 1).le h 6
  have h8 := Real.exp_pos 6
  rw [Real.sigmoid_def, neg_neg, ← one_div, le_div_iff₀ (by linarith)]
  nlinarith

theorem sig_hi : Real.sigmoid 6 ≤ 998 / 1000 := by
  have h := sig_lo
  have e : Real.sigmoid 6 = 1 - Real.sigmoid (-6) := by rw [Real.sigmoid_neg]; ring
  rw [e]; linarith

/-- **C32 in float64.** With any `math.Exp` that is accurate to `2^-40`, for every float64 `x` strictly between -6 and
6 except the largest one below 6 (where the lookup panics, C33): the lookup succeeds and returns a finite number
strictly between 0 and 1, at most `10^-9` above the logistic function of `x` and less than `0.003 + 10^-9` below it. -/
theorem C32_float64 (lib : LibM) (hexp : ExpAccurate lib) (x : F64) (h1 : GoFloat.lt (GoFloat.ofRat (-6)) x = true)
    (h2 : GoFloat.lt x (GoFloat.ofRat 6) = true) (hx : x ≠ lastBelow6) :
    ∃ v : F64, sigmoidAt (letI := lib.math; sigTable) x = .ok v ∧ IsFin v ∧ 0 < toReal v ∧ toReal v < 1 ∧
      toReal v ≤ 1 / (1 + Real.exp (-(toReal x))) + 1 / 10 ^ 9 ∧
      1 / (1 + Real.exp (-(toReal x))) - toReal v < 0.003 + 1 / 10 ^ 9 := by
  obtain ⟨i0, i1, i2⟩ := C33_sigmoid_index x h1 h2
  have i3 : sigIndex x ≠ 1000 := fun h => hx (i2.1 h)
  obtain ⟨hf, hl, hr⟩ := between_fin x h1 h2
  obtain ⟨_, j1, j2⟩ := sigIndex_near x hf hl hr
  obtain ⟨n, hn⟩ := Int.eq_ofNat_of_zero_le i0
  have hn1 : n < 1000 := by omega
  rw [hn] at j1 j2
  push_cast at j1 j2
  have hE := sigEntry_near lib hexp n hn1
  refine ⟨(letI := lib.math; sigEntry n), ?_, hE.1, ?_⟩
  · unfold sigmoidAt idxI
    rw [hn, if_neg (by omega), Int.toNat_natCast, idx_eq_ok]
    simp [sigTable, expTableSize, hn1]
  generalize (letI := lib.math; sigEntry n : F64) = v at *
  rw [one_div, ← Real.sigmoid_def]
  obtain ⟨a1, a2⟩ := abs_le.1 hE.2
  generalize toReal x = X at *
  have hn0 : (0 : ℝ) ≤ n := by positivity
  have hn2 : (n : ℝ) ≤ 1000 := by exact_mod_cast hn1.le
  set T : ℝ := (n : ℝ) * (12 / 1000) - 6 with hT
  have b1 : Real.sigmoid (-6) ≤ Real.sigmoid T := Real.sigmoid_le (by linarith)
  have b2 : Real.sigmoid T ≤ Real.sigmoid 6 := Real.sigmoid_le (by linarith)
  have c1 := sig_lo
  have c2 := sig_hi
  have d1 : (1 : ℝ) / 2 ^ 37 ≤ 1 / (10 ^ 10) := by norm_num
  have d2 : (1 : ℝ) / 2 ^ 40 ≤ 1 / (10 ^ 10) := by norm_num
  have d3 : (1 : ℝ) / 10 ^ 9 = 10 * (1 / 10 ^ 10) := by norm_num
  have d4 : (1 : ℝ) / 10 ^ 10 ≤ 1 / 1000000 := by norm_num
  have d5 : (0 : ℝ) < 1 / 10 ^ 10 := by norm_num
  have d6 : (0.003 : ℝ) = 3 / 1000 := by norm_num
  rw [d3, d6]
  generalize (1 : ℝ) / 10 ^ 10 = d at *
  generalize (1 : ℝ) / 2 ^ 37 = p at *
  generalize (1 : ℝ) / 2 ^ 40 = q at *
  refine ⟨by linarith, by linarith, ?_, ?_⟩
  · rcases le_total T X with h | h
    · have := Real.sigmoid_le h; linarith
    · have := sigmoid_lipschitz X T h; linarith
  · rcases le_total T X with h | h
    · have := sigmoid_lipschitz T X h; linarith
    · have := Real.sigmoid_le h; linarith

/-- A `math.Exp` that is accurate: the exponential rounded to float64. -/
noncomputable def goodExp (x : F64) : F64 :=
  F64.round (Classical.choose (exists_rat_btwn (show Real.exp (toReal x) < Real.exp (toReal x) * (1 + 1 / 2 ^ 42) from by
    have := Real.exp_pos (toReal x)
    have h : (0 : ℝ) < 1 / 2 ^ 42 := by norm_num
    nlinarith)))

noncomputable def goodLib : LibM := ⟨goodExp, fun x => x, fun x _ => x⟩

theorem goodLib_accurate : ExpAccurate goodLib := by
  intro x _ hx
  have hE := Real.exp_pos (toReal x)
  obtain ⟨r1, r2⟩ := Classical.choose_spec (exists_rat_btwn (show Real.exp (toReal x) < Real.exp (toReal x) * (1 + 1 / 2 ^ 42) from by
    have := Real.exp_pos (toReal x)
    have h : (0 : ℝ) < 1 / 2 ^ 42 := by norm_num
    nlinarith))
  show IsFin (goodExp x) ∧ |toReal (goodExp x) - Real.exp (toReal x)| ≤ _
  unfold goodExp
  generalize Classical.choose (exists_rat_btwn (show Real.exp (toReal x) < Real.exp (toReal x) * (1 + 1 / 2 ^ 42) from by
    have := Real.exp_pos (toReal x)
    have h : (0 : ℝ) < 1 / 2 ^ 42 := by norm_num
    nlinarith)) = q at *
  have h7 : Real.exp 7 ≤ 2000 := by
    have h : Real.exp 1 ≤ 2.72 := le_of_lt (lt_trans Real.exp_one_lt_d9 (by norm_num))
    have h6 : Real.exp 7 = Real.exp 1 ^ 7 := by rw [← Real.exp_nat_mul]; norm_num
    rw [h6]
    exact le_trans (pow_le_pow_left₀ (Real.exp_pos 1).le h 7) (by norm_num)
  obtain ⟨x1, x2⟩ := abs_le.1 hx
  have e1 : Real.exp (toReal x) ≤ 2000 := le_trans (Real.exp_le_exp.2 x2) h7
  have e2 : 1 / 2000 ≤ Real.exp (toReal x) := by
    have h8 : Real.exp (-7) ≤ Real.exp (toReal x) := Real.exp_le_exp.2 x1
    rw [Real.exp_neg] at h8
    refine le_trans ?_ h8
    rw [← one_div]
    exact one_div_le_one_div_of_le (Real.exp_pos 7) h7
  generalize Real.exp (toReal x) = E at *
  have hq0 : (0 : ℝ) < q := by linarith
  have h42 : (1 : ℝ) / 2 ^ 42 ≤ 1 := by norm_num
  have hq2 : (q : ℝ) ≤ 2 * E := by nlinarith
  obtain ⟨f1, f2⟩ := round_mixed q false (by
    rw [abs_of_pos hq0]
    refine lt_of_le_of_lt ?_ big20
    linarith [show (4000 : ℝ) ≤ 2 ^ 20 by norm_num])
  refine ⟨f1, ?_⟩
  rw [abs_of_pos hq0] at f2
  have hs := sg_le
  have hu0 := uu_pos
  have hu := uu_val
  have hs2 : sg ≤ E := by
    have : uu / 1000 ≤ 1 / 2000 := by rw [hu]; norm_num
    linarith
  have f3 : uu * ((q : ℝ) + sg) ≤ uu * (3 * E) := mul_le_mul_of_nonneg_left (by linarith) hu0.le
  have e3 : toReal (F64.round q) - E = (toReal (F64.round q) - q) + ((q : ℝ) - E) := by ring
  rw [e3]
  refine le_trans (abs_add_le _ _) ?_
  rw [abs_of_pos (by linarith : (0 : ℝ) < (q : ℝ) - E)]
  have e4 : E / 2 ^ 40 = 4 * (E * (1 / 2 ^ 42)) := by ring
  have e5 : uu * (3 * E) ≤ E * (1 / 2 ^ 42) := by
    rw [hu]
    have : (1 : ℝ) / 2 ^ 53 * 3 ≤ 1 / 2 ^ 42 := by norm_num
    nlinarith
  have e6 : 0 < E * (1 / 2 ^ 42) := mul_pos hE (by norm_num)
  rw [e4]
  rw [mul_add, mul_one] at r2
  generalize E * (1 / 2 ^ 42) = d at *
  linarith

/-- `C32_float64` at the double 1/2, with the exponential rounded to float64. -/
example := C32_float64 goodLib goodLib_accurate (GoFloat.ofRat (1/2)) (by decide +kernel) (by decide +kernel) (by decide +kernel)

end Wego.Props
