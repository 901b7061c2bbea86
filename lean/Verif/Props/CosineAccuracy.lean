import Verif.Proofs.CosErr
import Verif.Props.CosineF64

/-! # C98: how far the float64 similarity is from the exact cosine -/

namespace Wego.Props
open Wego F64

/-- the real numbers a float64 vector stands for -/
noncomputable def reals (v : List F64) : List ℝ := v.map toReal

/-- the cosine of the angle of two real vectors -/
noncomputable def trueCos (a b : List ℝ) : ℝ := dot a b / (Real.sqrt (dot a a) * Real.sqrt (dot b b))

/-- A vector whose components are finite and at most `2^500` (about 3e150) in magnitude, one of them at least
`2^-400` (about 4e-121). -/
def Ordinary (v : List F64) : Prop :=
  (∀ x ∈ v, IsFin x ∧ |toReal x| ≤ 2 ^ 500) ∧ ∃ x ∈ v, (1 / 2 ^ 400 : ℝ) ≤ |toReal x|

theorem exSum_zip (a : List F64) : ∀ b : List F64, exSum (a.zip b) = dot (reals a) (reals b) := by
  induction a with
  | nil => intro b; simp [exSum, reals, dot]
  | cons x a ih =>
    intro b
    cases b with
    | nil => simp [exSum, reals, dot]
    | cons y b =>
      have := ih b
      simp only [exSum, reals] at this ⊢
      simp only [List.zip_cons_cons, List.map_cons, List.sum_cons, dot]
      rw [this]

theorem padSum_zip (a : List F64) : ∀ b : List F64, a.length = b.length →
    padSum (a.zip b) = dot ((reals a).map (|·|)) ((reals b).map (|·|)) + a.length * sg := by
  induction a with
  | nil => intro b _; simp [padSum, reals, dot]
  | cons x a ih =>
    intro b h
    cases b with
    | nil => simp at h
    | cons y b =>
      have := ih b (by simpa using h)
      simp only [padSum, reals] at this ⊢
      simp only [List.zip_cons_cons, List.map_cons, List.sum_cons, dot, List.length_cons]
      rw [this, abs_mul]; push_cast; ring

theorem dot_abs_self (a : List ℝ) : dot (a.map (|·|)) (a.map (|·|)) = dot a a := by
  induction a with
  | nil => simp [dot]
  | cons x a ih => simp only [List.map_cons, dot]; rw [ih, abs_mul_abs_self]

theorem absdot_le (a b : List ℝ) :
    dot (a.map (|·|)) (b.map (|·|)) ≤ Real.sqrt (dot a a) * Real.sqrt (dot b b) := by
  have h := Real.abs_le_sqrt (cauchy (a.map (|·|)) (b.map (|·|)))
  rw [dot_abs_self, dot_abs_self, Real.sqrt_mul (dot_self_nonneg a)] at h
  exact le_trans (le_abs_self _) h

theorem dot_self_le (a : List ℝ) (M : ℝ) (h : ∀ x ∈ a, |x| ≤ M) : dot a a ≤ a.length * (M * M) := by
  induction a with
  | nil => simp [dot]
  | cons x a ih =>
    have h1 := ih (fun y hy => h y (List.mem_cons_of_mem _ hy))
    have hx := h x (by simp)
    have h2 : x * x ≤ M * M := by
      rw [← abs_mul_abs_self x]; exact mul_le_mul hx hx (abs_nonneg _) (le_trans (abs_nonneg _) hx)
    simp only [dot, List.length_cons]; push_cast; linarith

theorem le_dot_self (a : List ℝ) (x : ℝ) (h : x ∈ a) : x * x ≤ dot a a := by
  induction a with
  | nil => simp at h
  | cons y a ih =>
    simp only [dot]
    rcases List.mem_cons.1 h with rfl | h
    · have := dot_self_nonneg a; linarith
    · have := ih h; have := mul_self_nonneg y; linarith

theorem dotFrom_fold (a : List F64) : ∀ (b pre : List F64) (acc : F64), a.length = b.length →
    dotFrom (pre ++ b) pre.length acc a = .ok (foldDot (a.zip b) acc) := by
  induction a with
  | nil => intro b pre acc _; simp [dotFrom, foldDot]
  | cons x a ih =>
    intro b pre acc h
    cases b with
    | nil => simp at h
    | cons y b =>
      unfold dotFrom
      have h1 : idx (pre ++ y :: b) pre.length = .ok y := by rw [idx_eq_ok]; simp
      rw [h1]
      have := ih b (pre ++ [y]) (acc +. x *. y) (by simpa using h)
      simp only [List.append_assoc, List.cons_append, List.nil_append, List.length_append,
        List.length_singleton] at this
      rw [Res.ok_bind, this]
      rfl

theorem norm_fold (a : List F64) : norm a = F64.sqrt (foldDot (a.zip a) fzero) := by
  have key : ∀ (a : List F64) (acc : F64), a.foldl (fun n v => n +. v *. v) acc = foldDot (a.zip a) acc := by
    intro a
    induction a with
    | nil => intro acc; rfl
    | cons x a ih => intro acc; rw [List.foldl_cons, ih]; rfl
  unfold norm
  rw [key]; rfl

/-! ### sizes -/

theorem big1 : (2 : ℝ) * (2 * 2 ^ 1020) < 2 ^ 1023 := by
  have e : (2 : ℝ) ^ 1023 = 2 ^ 1020 * 2 ^ 3 := by rw [← pow_add]
  have h : (0 : ℝ) < 2 ^ 1020 := by positivity
  rw [e]
  generalize (2 : ℝ) ^ 1020 = z at h ⊢
  linarith

theorem big2 : (2 : ℝ) * 2 ^ 510 < 2 ^ 1023 := by
  have e : (2 : ℝ) ^ 1023 = 2 ^ 510 * 2 ^ 511 * 2 ^ 2 := by rw [← pow_add, ← pow_add]
  have h1 : (0 : ℝ) < 2 ^ 510 := by positivity
  have h2 : (1 : ℝ) ≤ 2 ^ 511 := one_le_pow₀ (by norm_num)
  rw [e]
  generalize (2 : ℝ) ^ 510 = z at h1 ⊢
  generalize (2 : ℝ) ^ 511 = w at h2 ⊢
  nlinarith

theorem big3 : (2 : ℝ) < 2 ^ 1023 := by
  have h : (1 : ℝ) ≤ 2 ^ 510 := one_le_pow₀ (by norm_num)
  refine lt_of_le_of_lt ?_ big2
  generalize (2 : ℝ) ^ 510 = z at h ⊢
  linarith

theorem inv_le (K s e : ℝ) (hK : 0 < K) (hs : 1 / K ≤ s) (he : 99 / 100 ≤ 1 + e) : 1 ≤ 2 * K * (s * (1 + e)) := by
  have h3 : 1 ≤ K * s := by rw [div_le_iff₀ hK] at hs; linarith
  have h4 : K * s * (99 / 100) ≤ K * s * (1 + e) := mul_le_mul_of_nonneg_left he (by linarith)
  nlinarith

theorem uu_le : uu ≤ 1 / 2 ^ 50 := by unfold uu; norm_num

theorem sg_small (n : Nat) (hn : n ≤ 2 ^ 20) : (n : ℝ) * sg ≤ uu * ((1 / 2 ^ 400) * (1 / 2 ^ 400)) := by
  have hn' : (n : ℝ) ≤ 2 ^ 20 := by exact_mod_cast hn
  have e : (one1 : ℝ) = 2 ^ 53 * 2 ^ 400 * 2 ^ 400 * 2 ^ 221 := by
    rw [one1_eq]; push_cast; rw [← pow_add, ← pow_add, ← pow_add]
  unfold sg uu
  rw [e]
  have h400 : (0 : ℝ) < 2 ^ 400 := by positivity
  generalize (2 : ℝ) ^ 400 = K at h400 ⊢
  have : (n : ℝ) * (2 ^ 52 / (2 ^ 53 * K * K * 2 ^ 221)) = (n * 2 ^ 52 / 2 ^ 221) * (1 / 2 ^ 53 * (1 / K * (1 / K))) := by
    field_simp
  rw [this]
  have h1 : (n : ℝ) * 2 ^ 52 / 2 ^ 221 ≤ 1 := by
    rw [div_le_one (by positivity)]
    refine le_trans (mul_le_mul_of_nonneg_right hn' (by positivity)) (by norm_num)
  have h2 : (0 : ℝ) ≤ 1 / 2 ^ 53 * (1 / K * (1 / K)) := by positivity
  nlinarith

theorem pow_one_add (n : Nat) (hn : n ≤ 2 ^ 20) :
    (1 + uu) ^ (n + 1) - 1 ≤ 17 / 16 * ((n + 1) * uu) ∧ ((n : ℝ) + 1) * uu ≤ 1 / 2 ^ 30 ∧ 0 ≤ (1 + uu) ^ (n + 1) - 1 := by
  have hn' : (n : ℝ) ≤ 2 ^ 20 := by exact_mod_cast hn
  have hu := uu_pos
  have h1 : ((n : ℝ) + 1) * uu ≤ 1 / 2 ^ 30 := by
    have : ((n : ℝ) + 1) * uu ≤ (2 ^ 20 + 1) * uu := mul_le_mul_of_nonneg_right (by linarith) (le_of_lt hu)
    refine le_trans this ?_
    unfold uu; norm_num
  have h2 := pow_bound (n + 1) (by push_cast; refine le_trans h1 (by norm_num))
  push_cast at h2
  have h3 : 1 ≤ (1 + uu) ^ (n + 1) := one_le_pow₀ (by linarith)
  exact ⟨by linarith, h1, by linarith⟩

theorem sg_400 : sg * 2 ^ 400 ≤ uu / 1000 := by
  have hu := uu_pos
  have h1 := sg_small 1 (by norm_num)
  have hK : (0 : ℝ) < 2 ^ 400 := by positivity
  have hK1 : (1000 : ℝ) ≤ 2 ^ 400 := le_trans (by norm_num : (1000 : ℝ) ≤ 2 ^ 10) (pow_le_pow_right₀ (by norm_num) (by norm_num))
  generalize (2 : ℝ) ^ 400 = K at *
  push_cast at h1
  have h2 : sg * K ≤ uu * (1 / K * (1 / K)) * K := mul_le_mul_of_nonneg_right (by linarith) (le_of_lt hK)
  have e : uu * (1 / K * (1 / K)) * K = uu * (1 / K) := by field_simp
  rw [e] at h2
  have h3 : 1 / K ≤ 1 / 1000 := one_div_le_one_div_of_le (by norm_num) hK1
  have h4 := mul_le_mul_of_nonneg_left h3 (le_of_lt hu)
  linarith

theorem sg_le : sg ≤ uu / 1000 := by
  have h := sg_400
  have h0 := sg_pos
  have hK1 : (1 : ℝ) ≤ 2 ^ 400 := one_le_pow₀ (by norm_num)
  generalize (2 : ℝ) ^ 400 = K at h hK1
  nlinarith

/-- the remainder of the first division, divided by a norm of at least `1 / (2 K)` -/
theorem rem_small (t y K g u : ℝ) (hu : 0 < u) (ht : |t| ≤ u * g) (hg : 0 < g) (hy : 0 < y) (hy2 : 1 / y ≤ 2 * K)
    (hK : g * K ≤ u / 1000) : |t / y| ≤ u * (u / 400) := by
  rw [abs_div, abs_of_pos hy, div_eq_mul_one_div]
  calc |t| * (1 / y) ≤ (u * g) * (2 * K) :=
        mul_le_mul ht hy2 (le_of_lt (by positivity)) (by positivity)
    _ = u * (2 * (g * K)) := by ring
    _ ≤ _ := mul_le_mul_of_nonneg_left (by linarith) (le_of_lt hu)

/-- what is known about an ordinary vector's sum of squares -/
theorem ordinary_sq (a : List F64) (h : Ordinary a) (hn : a.length ≤ 2 ^ 20) :
    (1 / 2 ^ 400 : ℝ) * (1 / 2 ^ 400) ≤ dot (reals a) (reals a) ∧ dot (reals a) (reals a) ≤ 2 ^ 1020 ∧
    0 < dot (reals a) (reals a) ∧ 1 ≤ a.length := by
  obtain ⟨h1, x, hx, h2⟩ := h
  have hxm : toReal x ∈ reals a := List.mem_map_of_mem hx
  have h3 := le_dot_self _ _ hxm
  have h4 : (1 / 2 ^ 400 : ℝ) * (1 / 2 ^ 400) ≤ dot (reals a) (reals a) := by
    refine le_trans ?_ h3
    rw [← abs_mul_abs_self (toReal x)]
    exact mul_le_mul h2 h2 (by positivity) (abs_nonneg _)
  refine ⟨h4, ?_, lt_of_lt_of_le (by positivity) h4, ?_⟩
  · have h5 := dot_self_le (reals a) (2 ^ 500) (by
      intro y hy
      obtain ⟨z, hz, rfl⟩ := List.mem_map.1 hy
      exact (h1 z hz).2)
    have hlen : (reals a).length = a.length := by simp [reals]
    rw [hlen] at h5
    refine le_trans h5 ?_
    have hn' : (a.length : ℝ) ≤ 2 ^ 20 := by exact_mod_cast hn
    refine le_trans (mul_le_mul_of_nonneg_right hn' (by positivity)) ?_
    rw [← pow_add, ← pow_add]
  · rcases a with _ | ⟨y, a⟩
    · simp at hx
    · simp

theorem zip_mem_fin (a b : List F64) (ha : Ordinary a) (hb : Ordinary b) :
    ∀ p ∈ a.zip b, IsFin p.1 ∧ IsFin p.2 := by
  intro p hp
  have := List.of_mem_zip hp
  exact ⟨(ha.1 _ this.1).1, (hb.1 _ this.2).1⟩

/-- error of the dot product -/
theorem dot_close (a b : List F64) (ha : Ordinary a) (hb : Ordinary b) (hl : a.length = b.length)
    (hn : a.length ≤ 2 ^ 20) :
    IsFin (foldDot (a.zip b) fzero) ∧
    |toReal (foldDot (a.zip b) fzero) - dot (reals a) (reals b)| ≤
      107 / 100 * ((a.length + 1) * uu) * (Real.sqrt (dot (reals a) (reals a)) * Real.sqrt (dot (reals b) (reals b))) := by
  obtain ⟨a1, a2, a3, a4⟩ := ordinary_sq a ha hn
  obtain ⟨b1, b2, b3, b4⟩ := ordinary_sq b hb (hl ▸ hn)
  obtain ⟨g1, g2, g3⟩ := pow_one_add a.length hn
  have hu := uu_pos
  have hab := absdot_le (reals a) (reals b)
  set A := dot (reals a) (reals a)
  set B := dot (reals b) (reals b)
  set K : ℝ := 1 / 2 ^ 400 with hK
  have hK0 : 0 < K := by rw [hK]; positivity
  have sA : K ≤ Real.sqrt A := Real.le_sqrt_of_sq_le (by rw [pow_two]; exact a1)
  have sB : K ≤ Real.sqrt B := Real.le_sqrt_of_sq_le (by rw [pow_two]; exact b1)
  have hKK : K * K ≤ Real.sqrt A * Real.sqrt B := mul_le_mul sA sB (le_of_lt hK0) (Real.sqrt_nonneg _)
  have uA : Real.sqrt A ≤ 2 ^ 510 := by
    rw [Real.sqrt_le_left (by positivity), ← pow_mul]; exact a2
  have uB : Real.sqrt B ≤ 2 ^ 510 := by
    rw [Real.sqrt_le_left (by positivity), ← pow_mul]; exact b2
  have uAB : Real.sqrt A * Real.sqrt B ≤ 2 ^ 1020 := by
    refine le_trans (mul_le_mul uA uB (Real.sqrt_nonneg _) (by positivity)) ?_
    rw [← pow_add]
  have hsg := sg_small a.length hn
  have hpad : padSum (a.zip b) ≤ (1 + uu) * (Real.sqrt A * Real.sqrt B) := by
    rw [padSum_zip a b hl]
    have : uu * (K * K) ≤ uu * (Real.sqrt A * Real.sqrt B) := mul_le_mul_of_nonneg_left hKK (le_of_lt hu)
    linarith
  set G := (1 + uu) ^ (a.length + 1) with hG
  set N := ((a.length : ℝ) + 1) * uu with hN
  have hN0 : 0 < N := by rw [hN]; positivity
  have hu50 := uu_le
  have hlen : (a.zip b).length = a.length := by simp [hl]
  set AB := Real.sqrt A * Real.sqrt B with hAB
  have hAB0 : 0 < AB := lt_of_lt_of_le (by positivity) hKK
  have hfz := foldDot_zero (a.zip b) (zip_mem_fin a b ha hb) (by
    rw [hlen, ← hG]
    have hG2 : G ≤ 2 := by
      have : (1 : ℝ) / 2 ^ 30 ≤ 1 / 2 := by norm_num
      linarith
    have hp2 : padSum (a.zip b) ≤ 2 * AB := by
      refine le_trans hpad (mul_le_mul_of_nonneg_right ?_ (le_of_lt hAB0))
      have : (1 : ℝ) / 2 ^ 50 ≤ 1 := by norm_num
      linarith
    calc G * padSum (a.zip b) ≤ 2 * (2 * AB) := mul_le_mul hG2 hp2 (padSum_nonneg _) (by norm_num)
      _ ≤ 2 * (2 * 2 ^ 1020) := by linarith
      _ < 2 ^ 1023 := big1)
  rw [hlen, ← hG, exSum_zip] at hfz
  refine ⟨hfz.1, le_trans hfz.2 ?_⟩
  calc (G - 1) * padSum (a.zip b) ≤ (17 / 16 * N) * ((1 + uu) * AB) :=
        mul_le_mul g1 hpad (padSum_nonneg _) (by positivity)
    _ = (17 / 16 * (1 + uu)) * (N * AB) := by ring
    _ ≤ 107 / 100 * (N * AB) := by
        apply mul_le_mul_of_nonneg_right _ (by positivity)
        have : (1 : ℝ) / 2 ^ 50 ≤ 1 / 1000 := by norm_num
        linarith
    _ = _ := by ring

/-- error of the norm -/
theorem norm_close (a : List F64) (ha : Ordinary a) (hn : a.length ≤ 2 ^ 20) :
    IsFin (norm a) ∧
    |toReal (norm a) - Real.sqrt (dot (reals a) (reals a))| ≤
      (107 / 100 * ((a.length + 1) * uu) + 101 / 100 * uu) * Real.sqrt (dot (reals a) (reals a)) := by
  obtain ⟨a1, a2, a3, a4⟩ := ordinary_sq a ha hn
  obtain ⟨g1, g2, g3⟩ := pow_one_add a.length hn
  obtain ⟨d1, d2⟩ := dot_close a a ha ha rfl hn
  have hu := uu_pos
  rw [Real.mul_self_sqrt (le_of_lt a3)] at d2
  rw [norm_fold]
  set A := dot (reals a) (reals a)
  set d := foldDot (a.zip a) fzero
  set N := ((a.length : ℝ) + 1) * uu with hN
  have hN0 : 0 < N := by rw [hN]; positivity
  have hNs : N ≤ 1 / 1000 := le_trans g2 (by norm_num)
  have hd0 : 0 < toReal d := by
    have := (abs_le.1 d2).1
    have : 107 / 100 * N * A ≤ 1 / 2 * A := mul_le_mul_of_nonneg_right (by linarith) (le_of_lt a3)
    linarith
  obtain ⟨s1, s2, s3⟩ := sqrt_err d d1 hd0
  refine ⟨s1, ?_⟩
  have hc := sqrt_close (toReal d) A (107 / 100 * N) (le_of_lt hd0) a3 d2
  have hs : 0 < Real.sqrt A := Real.sqrt_pos.2 a3
  set x := Real.sqrt (toReal d)
  set y := Real.sqrt A
  have hx : x ≤ 101 / 100 * y := by
    have := (abs_le.1 hc).2
    have : 107 / 100 * N * y ≤ 1 / 100 * y := mul_le_mul_of_nonneg_right (by linarith) (le_of_lt hs)
    linarith
  have e : toReal (F64.sqrt d) - y = (toReal (F64.sqrt d) - x) + (x - y) := by ring
  rw [e]
  refine le_trans (abs_add_le _ _) ?_
  have := mul_le_mul_of_nonneg_left hx (le_of_lt hu)
  linarith

theorem eq_fzero_toReal (x : F64) (h : GoFloat.eq x fzero = true) : toReal x = 0 := by
  rw [F64.eq_iff, key_fzero] at h
  obtain ⟨a, h1, h2⟩ := h
  simp only [Option.some.injEq] at h2
  subst h2
  cases x with
  | nan => simp [key] at h1
  | inf s => unfold toReal toRat; simp
  | fin s n k =>
    have : n = 0 := by cases s <;> simpa [key] using h1
    subst this
    unfold toReal toRat; simp

/-- **C98 (what holds, accuracy).** For two ordinary float64 vectors of the same length `n ≤ 2^20`, `Cosine` with
the norms computed by `Norm` returns a finite number that differs from the exact cosine of the two vectors by at
most `(n + 2) / 2^51`. -/
theorem C98_accuracy_partial (a b : List F64) (ha : Ordinary a) (hb : Ordinary b) (hl : a.length = b.length)
    (hn : a.length ≤ 2 ^ 20) :
    ∃ c : F64, cosine a b (norm a) (norm b) = .ok c ∧ IsFin c ∧
      |toReal c - trueCos (reals a) (reals b)| ≤ ((a.length : ℝ) + 2) / 2 ^ 51 := by
  obtain ⟨a1, a2, a3, a4⟩ := ordinary_sq a ha hn
  obtain ⟨b1, b2, b3, b4⟩ := ordinary_sq b hb (hl ▸ hn)
  obtain ⟨g1, g2, g3⟩ := pow_one_add a.length hn
  obtain ⟨d1, d2⟩ := dot_close a b ha hb hl hn
  obtain ⟨na1, na2⟩ := norm_close a ha hn
  obtain ⟨nb1, nb2⟩ := norm_close b hb (hl ▸ hn)
  rw [← hl] at nb2
  have hu := uu_pos
  have hu50 := uu_le
  have hcs : |dot (reals a) (reals b)| ≤ Real.sqrt (dot (reals a) (reals a)) * Real.sqrt (dot (reals b) (reals b)) := by
    rw [← Real.sqrt_mul (le_of_lt a3)]
    exact Real.abs_le_sqrt (cauchy _ _)
  unfold trueCos
  set A := dot (reals a) (reals a)
  set B := dot (reals b) (reals b)
  set D := dot (reals a) (reals b)
  set N := ((a.length : ℝ) + 1) * uu with hN
  have hN0 : 0 < N := by rw [hN]; positivity
  have hNu : 2 * uu ≤ N := by
    rw [hN]
    have : (1 : ℝ) ≤ a.length := by exact_mod_cast a4
    exact mul_le_mul_of_nonneg_right (by linarith) (le_of_lt hu)
  have hNs : N ≤ 1 / 1000 := le_trans g2 (by norm_num)
  have hus : uu ≤ 1 / 1000 := by linarith
  have hsA : 0 < Real.sqrt A := Real.sqrt_pos.2 a3
  have hsB : 0 < Real.sqrt B := Real.sqrt_pos.2 b3
  have hKB : (1 / 2 ^ 400 : ℝ) ≤ Real.sqrt B := Real.le_sqrt_of_sq_le (by rw [pow_two]; exact b1)
  have uB : Real.sqrt B ≤ 2 ^ 510 := by
    rw [Real.sqrt_le_left (by positivity), ← pow_mul]; exact b2
  obtain ⟨e2, he2, ea⟩ := rel_split _ _ _ hsA na2
  obtain ⟨e3, he3, eb⟩ := rel_split _ _ _ hsB nb2
  set d := foldDot (a.zip b) fzero
  set c := D / (Real.sqrt A * Real.sqrt B) with hc
  have hcD : D = Real.sqrt A * Real.sqrt B * c := by rw [hc]; field_simp
  have hAB : 0 < Real.sqrt A * Real.sqrt B := mul_pos hsA hsB
  have hc1 : |c| ≤ 1 := by
    rw [hc, abs_div, abs_of_pos hAB, div_le_one hAB]; exact hcs
  set e1 := (toReal d - D) / (Real.sqrt A * Real.sqrt B) with he1d
  have he1 : |e1| ≤ 107 / 100 * N := by
    rw [he1d, abs_div, abs_of_pos hAB, div_le_iff₀ hAB]; exact d2
  have ed : toReal d = Real.sqrt A * Real.sqrt B * (c + e1) := by
    rw [mul_add, ← hcD, he1d]; field_simp; ring
  have hv : 107 / 100 * N + 101 / 100 * uu ≤ 1 / 100 := by linarith
  have hna : 0 < toReal (norm a) := by
    rw [ea]; apply mul_pos hsA; have := (abs_le.1 he2).1; linarith
  have hnb : 0 < toReal (norm b) := by
    rw [eb]; apply mul_pos hsB; have := (abs_le.1 he3).1; linarith
  -- first division
  have hq1 : |toReal d / toReal (norm a)| ≤ 2 * Real.sqrt B := by
    rw [abs_div, abs_of_pos hna, div_le_iff₀ hna, ed, ea, abs_mul, abs_of_pos hAB]
    have h1 : |c + e1| ≤ 102 / 100 := le_trans (abs_add_le _ _) (by linarith)
    have h2 : (99 : ℝ) / 100 ≤ 1 + e2 := by have := (abs_le.1 he2).1; linarith
    calc Real.sqrt A * Real.sqrt B * |c + e1| ≤ Real.sqrt A * Real.sqrt B * (2 * (99 / 100)) :=
          mul_le_mul_of_nonneg_left (by linarith) (le_of_lt hAB)
      _ ≤ Real.sqrt A * Real.sqrt B * (2 * (1 + e2)) :=
          mul_le_mul_of_nonneg_left (by linarith) (le_of_lt hAB)
      _ = _ := by ring
  have hbig := big2
  obtain ⟨f1, f2⟩ := div_err d (norm a) d1 na1 (ne_of_gt hna) (by
    refine lt_of_le_of_lt hq1 (lt_of_le_of_lt ?_ hbig); linarith)
  obtain ⟨δ1, t1, hδ1, ht1, eq1⟩ := mixed_split _ _ _ _ sg_pos f2
  set q1 := F64.div d (norm a)
  -- second division
  have hsg0 := sg_pos
  have hsg1 := sg_le
  have hnb2 : 1 / toReal (norm b) ≤ 2 * 2 ^ 400 := by
    have h2 : (99 : ℝ) / 100 ≤ 1 + e3 := by have := (abs_le.1 he3).1; linarith
    have hK : (0 : ℝ) < 2 ^ 400 := by positivity
    rw [div_le_iff₀ hnb, eb]
    exact inv_le _ _ _ hK hKB h2
  have htb : |t1 / toReal (norm b)| ≤ uu * (uu / 400) := rem_small _ _ _ _ _ hu ht1 hsg0 hnb hnb2 sg_400
  clear a1 a2 b1 b2 hKB uB hbig hnb2 hu50
  have huu : uu * (uu / 400) ≤ uu / 400 := by
    have := mul_le_mul_of_nonneg_left hus (le_of_lt hu); linarith
  have eq2 : toReal q1 / toReal (norm b) =
      (c + e1) * (1 + δ1) / ((1 + e2) * (1 + e3)) + t1 / toReal (norm b) := by
    rw [eq1, add_div]
    congr 1
    rw [ed, ea, eb]
    have h2 : (1 : ℝ) + e2 ≠ 0 := by have := (abs_le.1 he2).1; linarith
    have h3 : (1 : ℝ) + e3 ≠ 0 := by have := (abs_le.1 he3).1; linarith
    field_simp
  have hq2 : |toReal q1 / toReal (norm b)| ≤ 2 := by
    rw [eq2]
    refine le_trans (abs_add_le _ _) ?_
    have h1 : |c + e1| ≤ 102 / 100 := le_trans (abs_add_le _ _) (by linarith)
    have h2 : (99 : ℝ) / 100 ≤ 1 + e2 := by have := (abs_le.1 he2).1; linarith
    have h3 : (99 : ℝ) / 100 ≤ 1 + e3 := by have := (abs_le.1 he3).1; linarith
    have h4 : |1 + δ1| ≤ 101 / 100 := le_trans (abs_add_le _ _) (by rw [abs_one]; linarith)
    have h5 : (98 : ℝ) / 100 ≤ (1 + e2) * (1 + e3) :=
      le_trans (by norm_num) (mul_le_mul h2 h3 (by norm_num) (by linarith))
    have h6 : |(c + e1) * (1 + δ1) / ((1 + e2) * (1 + e3))| ≤ 3 / 2 := by
      rw [abs_div, abs_mul, abs_of_pos (by linarith : 0 < (1 + e2) * (1 + e3)), div_le_iff₀ (by linarith)]
      have : |c + e1| * |1 + δ1| ≤ 102 / 100 * (101 / 100) := mul_le_mul h1 h4 (abs_nonneg _) (by norm_num)
      linarith
    linarith
  obtain ⟨k1, k2⟩ := div_err q1 (norm b) f1 nb1 (ne_of_gt hnb) (by
    exact lt_of_le_of_lt hq2 big3)
  obtain ⟨δ2, t2, hδ2, ht2, eq3⟩ := mixed_split _ _ _ _ sg_pos k2
  refine ⟨F64.div q1 (norm b), ?_, k1, ?_⟩
  · unfold cosine
    have hz : ∀ x : F64, 0 < toReal x → GoFloat.eq x fzero = false := by
      intro x hx
      cases h : GoFloat.eq x fzero with
      | false => rfl
      | true => have := eq_fzero_toReal x h; linarith
    rw [hz _ hna, hz _ hnb]
    simp only [Bool.or_self, Bool.false_eq_true, if_false]
    have := dotFrom_fold a b [] fzero hl
    simp only [List.nil_append, List.length_nil] at this
    rw [this, Res.ok_bind]; rfl
  · have hfin := quotient_err uu N c e1 e2 e3 δ1 δ2 (t1 / toReal (norm b) * (1 + δ2) + t2) hu hNu g2 hc1 he1 he2 he3
      hδ1 hδ2 (by
        refine le_trans (abs_add_le _ _) ?_
        rw [abs_mul]
        have h4 : |1 + δ2| ≤ 2 := le_trans (abs_add_le _ _) (by rw [abs_one]; linarith)
        have h5 : |t1 / toReal (norm b)| * |1 + δ2| ≤ (uu / 400) * 2 :=
          mul_le_mul (by linarith) h4 (abs_nonneg _) (by positivity)
        have h6 : uu * sg ≤ uu / 1000 := by
          have := mul_le_mul_of_nonneg_left (by linarith : sg ≤ 1 / 1000) (le_of_lt hu); linarith
        linarith)
    have e : toReal (F64.div q1 (norm b)) =
        (c + e1) * ((1 + δ1) * (1 + δ2)) / ((1 + e2) * (1 + e3)) + (t1 / toReal (norm b) * (1 + δ2) + t2) := by
      rw [eq3, eq2]; ring
    rw [e]
    refine le_trans hfin (le_of_eq ?_)
    rw [hN]; unfold uu
    generalize (a.length : ℝ) = n
    field_simp; ring

/-- the bound of `C98_accuracy_partial` -/
noncomputable def eps (n : Nat) : ℝ := ((n : ℝ) + 2) / 2 ^ 51

theorem trueCos_comm (a b : List ℝ) : trueCos a b = trueCos b a := by
  unfold trueCos; rw [dot_comm, mul_comm (Real.sqrt _)]

theorem abs_trueCos (a b : List ℝ) : |trueCos a b| ≤ 1 := by
  unfold trueCos
  rw [abs_div, abs_of_nonneg (mul_nonneg (Real.sqrt_nonneg _) (Real.sqrt_nonneg _)),
    ← Real.sqrt_mul (dot_self_nonneg a)]
  exact div_le_one_of_le₀ (Real.abs_le_sqrt (cauchy a b)) (Real.sqrt_nonneg _)

theorem trueCos_self (a : List ℝ) (h : 0 < dot a a) : trueCos a a = 1 := by
  unfold trueCos
  rw [Real.mul_self_sqrt (le_of_lt h), div_self (ne_of_gt h)]

theorem trueCos_scale (a b : List ℝ) (t : ℝ) (ht : 0 < t) : trueCos a (b.map (t * ·)) = trueCos a b := by
  unfold trueCos
  have e : dot (b.map (t * ·)) (b.map (t * ·)) = t ^ 2 * dot b b := by
    rw [dot_map_left, dot_comm, dot_map_left]; ring
  rw [e, dot_comm a, dot_map_left, dot_comm b a, Real.sqrt_mul (sq_nonneg t), Real.sqrt_sq (le_of_lt ht)]
  rw [show Real.sqrt (dot a a) * (t * Real.sqrt (dot b b)) = t * (Real.sqrt (dot a a) * Real.sqrt (dot b b)) by ring]
  rw [mul_div_mul_left _ _ (ne_of_gt ht)]

/-- **C98 (what holds, the laws up to rounding).** For ordinary vectors of the same length `n ≤ 2^20` the
similarities that `Cosine` returns with the norms of `Norm` obey the laws of the cosine up to the rounding error:
a similarity is at most `eps n` outside `[-1, 1]`; the two directions differ by at most `2 eps n`; a vector has
similarity 1 with itself up to `eps n`; and multiplying a vector by a positive factor (rounding nothing away, and
staying ordinary) changes the similarity by at most `2 eps n`. -/
theorem C98_laws_partial (a b : List F64) (ha : Ordinary a) (hb : Ordinary b) (hl : a.length = b.length)
    (hn : a.length ≤ 2 ^ 20) :
    ∃ c c' o : F64, cosine a b (norm a) (norm b) = .ok c ∧ cosine b a (norm b) (norm a) = .ok c' ∧
      cosine a a (norm a) (norm a) = .ok o ∧ IsFin c ∧ IsFin c' ∧ IsFin o ∧
      |toReal c| ≤ 1 + eps a.length ∧ |toReal c - toReal c'| ≤ 2 * eps a.length ∧
      |toReal o - 1| ≤ eps a.length ∧
      ∀ (b' : List F64) (t : ℝ), 0 < t → reals b' = (reals b).map (t * ·) → Ordinary b' →
        ∃ c'' : F64, cosine a b' (norm a) (norm b') = .ok c'' ∧ |toReal c'' - toReal c| ≤ 2 * eps a.length := by
  obtain ⟨c, h1, f1, e1⟩ := C98_accuracy_partial a b ha hb hl hn
  obtain ⟨c', h2, f2, e2⟩ := C98_accuracy_partial b a hb ha hl.symm (hl ▸ hn)
  obtain ⟨o, h3, f3, e3⟩ := C98_accuracy_partial a a ha ha rfl hn
  rw [trueCos_comm, ← hl] at e2
  rw [trueCos_self _ (ordinary_sq a ha hn).2.2.1] at e3
  refine ⟨c, c', o, h1, h2, h3, f1, f2, f3, ?_, ?_, e3, ?_⟩
  · have := abs_trueCos (reals a) (reals b)
    have := abs_sub_abs_le_abs_sub (toReal c) (trueCos (reals a) (reals b))
    unfold eps; linarith
  · have : toReal c - toReal c' = (toReal c - trueCos (reals a) (reals b)) - (toReal c' - trueCos (reals a) (reals b)) := by ring
    rw [this]
    refine le_trans (abs_sub _ _) ?_
    unfold eps; linarith
  · intro b' t ht he hb'
    have hlen : a.length = b'.length := by
      have := congrArg List.length he
      simp only [reals, List.length_map] at this
      rw [hl, this]
    obtain ⟨c'', h4, _, e4⟩ := C98_accuracy_partial a b' ha hb' hlen hn
    refine ⟨c'', h4, ?_⟩
    rw [he, trueCos_scale _ _ t ht] at e4
    have : toReal c'' - toReal c = (toReal c'' - trueCos (reals a) (reals b)) - (toReal c - trueCos (reals a) (reals b)) := by ring
    rw [this]
    refine le_trans (abs_sub _ _) ?_
    unfold eps; linarith

/-! ### ranking -/

theorem key_fin (x : F64) (h : IsFin x) : ∃ k : Int, key x = some k ∧ toReal x = (k : ℝ) / one1 := by
  obtain ⟨s, n, hn, rfl⟩ := h.cases
  cases s
  · exact ⟨n, by simp [key], by unfold toReal toRat; simp⟩
  · exact ⟨-n, by simp [key], by unfold toReal toRat; simp; ring⟩

theorem le_fin (x y : F64) (hx : IsFin x) (hy : IsFin y) : GoFloat.le x y = true ↔ toReal x ≤ toReal y := by
  obtain ⟨k, hk, ek⟩ := key_fin x hx
  obtain ⟨m, hm, em⟩ := key_fin y hy
  rw [F64.le_iff, hk, hm, ek, em, div_le_div_iff_of_pos_right one1_posR, Int.cast_le]
  constructor
  · rintro ⟨a, b, h1, h2, h3⟩
    simp only [Option.some.injEq] at h1 h2
    rw [h1, h2]; exact h3
  · intro h; exact ⟨k, m, rfl, rfl, h⟩

theorem lt_fin (x y : F64) (hx : IsFin x) (hy : IsFin y) : GoFloat.lt x y = true ↔ toReal x < toReal y := by
  obtain ⟨k, hk, ek⟩ := key_fin x hx
  obtain ⟨m, hm, em⟩ := key_fin y hy
  rw [F64.lt_iff, hk, hm, ek, em, div_lt_div_iff_of_pos_right one1_posR, Int.cast_lt]
  constructor
  · rintro ⟨a, b, h1, h2, h3⟩
    simp only [Option.some.injEq] at h1 h2
    rw [h1, h2]; exact h3
  · intro h; exact ⟨k, m, rfl, rfl, h⟩

/-- an embedding with an ordinary vector of length `n` and the norm that `Norm` computes -/
def OrdinaryEmb (n : Nat) (e : Embedding F64) : Prop :=
  Ordinary e.vector ∧ e.vector.length = n ∧ e.norm = norm e.vector

/-- the exact cosine of two embeddings -/
noncomputable def exactCos (q it : Embedding F64) : ℝ := trueCos (reals q.vector) (reals it.vector)

theorem candidate_of (query : Embedding F64) (ignore : List Word) (items : List (Embedding F64)) (it : Embedding F64)
    (hit : it ∈ items) (hig : it.word ∉ ignore) (c : F64)
    (hc : cosine query.vector it.vector query.norm it.norm = .ok c) (hpos : GoFloat.lt fzero c = true) :
    (it.word, c) ∈ candidates query ignore items := by
  unfold candidates
  rw [List.mem_filterMap]
  exact ⟨it, hit, by rw [if_neg hig, hc]; simp [hpos]⟩

/-- **C98 (what holds, the ranking).** Over ordinary items (with different, non-empty words) and an ordinary query,
all of size `n ≤ 2^20`, a search for `k ≥ 1` neighbours ranks by the exact cosine up to the rounding error:
every listed similarity is within `eps n` of the exact cosine; of two listed items whose exact cosines differ by
more than `2 eps n` the better one comes first; and an item that is not ignored and has an exact cosine above
`eps n` is listed, unless `k` items are listed and none of them has an exact cosine more than `2 eps n` below its
own. -/
theorem C98_ranking_partial (s : Searcher F64) (query : Embedding F64) (k : Int) (hk : 1 ≤ k) (ignore : List Word)
    (n : Nat) (hn : n ≤ 2 ^ 20) (hq : OrdinaryEmb n query) (hitems : ∀ it ∈ s.items, OrdinaryEmb n it)
    (hw : ∀ it ∈ s.items, it.word ≠ []) (hnd : (s.items.map (·.word)).Nodup) :
    ∃ res, s.search query k ignore = .ok res ∧
      (∀ x ∈ s.items, ∀ m ∈ res, m.word = x.word → IsFin m.sim ∧ |toReal m.sim - exactCos query x| ≤ eps n) ∧
      (∀ x ∈ s.items, ∀ y ∈ s.items, ∀ (i j : Nat) (a b : Neighbor F64), res[i]? = some a → res[j]? = some b →
        a.word = x.word → b.word = y.word → exactCos query y + 2 * eps n < exactCos query x → i < j) ∧
      (∀ x ∈ s.items, x.word ∉ ignore → eps n < exactCos query x →
        (∃ m ∈ res, m.word = x.word) ∨
        (((res.filter (fun m => decide (m.word ≠ []))).length : Int) = k ∧
          ∀ y ∈ s.items, ∀ m ∈ res, m.word = y.word → exactCos query x ≤ exactCos query y + 2 * eps n)) := by
  obtain ⟨hq1, hq2, hq3⟩ := hq
  have hcos : ∀ it ∈ s.items, ∃ c : F64, cosine query.vector it.vector query.norm it.norm = .ok c ∧ IsFin c ∧
      |toReal c - exactCos query it| ≤ eps n := by
    intro it hit
    obtain ⟨h1, h2, h3⟩ := hitems it hit
    have := C98_accuracy_partial query.vector it.vector hq1 h1 (by rw [hq2, h2]) (by rw [hq2]; exact hn)
    rw [hq3, h3]
    rw [hq2] at this
    exact this
  have hlen : ∀ it ∈ s.items, query.vector.length ≤ it.vector.length := by
    intro it hit
    rw [hq2, (hitems it hit).2.1]
  obtain ⟨res, rest, hres, hperm, hsort, hfull, hle, hbest⟩ := C54_search_top_k s query k hk ignore hw hlen
  have huniq : ∀ x ∈ s.items, ∀ y ∈ s.items, x.word = y.word → x = y := by
    intro x hx y hy he
    exact List.inj_on_of_nodup_map hnd hx hy he
  -- the similarity of a listed item
  have hsim : ∀ x ∈ s.items, ∀ m ∈ res, m.word = x.word →
      cosine query.vector x.vector query.norm x.norm = .ok m.sim ∧ m ∈ res.filter (fun m => decide (m.word ≠ [])) := by
    intro x hx m hm he
    have hne : m.word ≠ [] := by rw [he]; exact hw x hx
    obtain ⟨j, hj⟩ := List.getElem?_of_mem hm
    obtain ⟨_, it, hit, e1, _, e2, _⟩ := C55_ranks s query k hk ignore hw hlen res hres j m hj hne
    have : it = x := huniq it hit x hx (by rw [e1, he])
    subst this
    exact ⟨e2, List.mem_filter.2 ⟨hm, by simpa using hne⟩⟩
  have hacc : ∀ x ∈ s.items, ∀ m ∈ res, m.word = x.word → IsFin m.sim ∧ |toReal m.sim - exactCos query x| ≤ eps n := by
    intro x hx m hm he
    obtain ⟨c, h1, h2, h3⟩ := hcos x hx
    rw [(hsim x hx m hm he).1] at h1
    simp only [Res.ok.injEq] at h1
    subst h1
    exact ⟨h2, h3⟩
  refine ⟨res, hres, hacc, ?_, ?_⟩
  · intro x hx y hy i j a b hi hj hax hby hlt
    have hma := List.mem_of_getElem? hi
    have hmb := List.mem_of_getElem? hj
    obtain ⟨fa, ea⟩ := hacc x hx a hma hax
    obtain ⟨fb, eb⟩ := hacc y hy b hmb hby
    have hgt : toReal b.sim < toReal a.sim := by
      have := (abs_le.1 ea).1
      have := (abs_le.1 eb).2
      linarith
    by_contra hc
    rcases Nat.lt_or_eq_of_le (Nat.le_of_not_lt hc) with h | h
    · -- b before a
      have hs := hsort
      rw [List.pairwise_filter, List.pairwise_iff_getElem] at hs
      obtain ⟨hli, ei⟩ := List.getElem?_eq_some_iff.1 hi
      obtain ⟨hlj, ej⟩ := List.getElem?_eq_some_iff.1 hj
      have := hs j i hlj hli h
      rw [ei, ej] at this
      have := this (by rw [hby]; simpa using hw y hy) (by rw [hax]; simpa using hw x hx)
      rw [le_fin _ _ fa fb] at this
      linarith
    · subst h
      rw [hi] at hj
      simp only [Option.some.injEq] at hj
      subst hj
      linarith
  · intro x hx hig hpos
    obtain ⟨c, h1, h2, h3⟩ := hcos x hx
    have hc0 : GoFloat.lt fzero c = true := by
      rw [lt_fin _ _ fzero_fin.1 h2, fzero_fin.2]
      have := (abs_le.1 h3).1
      linarith
    have hmem := hperm.symm.subset (candidate_of query ignore s.items x hx hig c h1 hc0)
    rcases List.mem_append.1 hmem with h | h
    · left
      obtain ⟨m, hm, he⟩ := List.mem_map.1 h
      exact ⟨m, (List.mem_filter.1 hm).1, congrArg Prod.fst he⟩
    · right
      refine ⟨hfull (List.ne_nil_of_mem h), ?_⟩
      intro y hy m hm he
      obtain ⟨fm, em⟩ := hacc y hy m hm he
      have hle := hbest _ h m (hsim y hy m hm he).2
      dsimp only at hle
      rw [le_fin _ _ h2 fm] at hle
      have := (abs_le.1 h3).1
      have := (abs_le.1 em).2
      linarith

/-! ### the vectors of the example searcher are ordinary -/

theorem round_int (k : Int) (hk : k.natAbs ≤ 2 ^ 53) :
    IsFin (F64.round (k : ℚ)) ∧ toReal (F64.round (k : ℚ)) = k := by
  have hT : (0 : ℚ) < (one1 : ℚ) := by exact_mod_cast one1_pos
  have e : (k : ℚ) = toRat (.fin (decide (k < 0)) (k.natAbs * one1) (isRep_nat hk)) := by
    unfold toRat
    push_cast
    rw [mul_div_assoc, div_self (ne_of_gt hT), mul_one]
    by_cases h : k < 0
    · have : (k : ℚ) < 0 := by exact_mod_cast h
      simp [h, abs_of_neg this]
    · have : (0 : ℚ) ≤ k := by exact_mod_cast not_lt.1 h
      simp [h, abs_of_nonneg this]
  have hr : F64.round (k : ℚ) = .fin (decide (k < 0)) (k.natAbs * one1) (isRep_nat hk) := by
    conv_lhs => rw [e]
    apply round_toRat
    intro h0
    have : k = 0 := by
      rcases Nat.mul_eq_zero.1 h0 with h | h
      · exact Int.natAbs_eq_zero.1 h
      · exact absurd h one1_pos.ne'
    subst this; rfl
  rw [hr]
  refine ⟨trivial, ?_⟩
  unfold toReal
  rw [← e]; push_cast; rfl

theorem pow53_le : (2 : ℝ) ^ 53 ≤ 2 ^ 500 := pow_le_pow_right₀ (by norm_num) (by norm_num)

theorem inv400_le : (1 / 2 ^ 400 : ℝ) ≤ 1 := by
  rw [div_le_one (by positivity)]
  exact one_le_pow₀ (by norm_num)

theorem ints_le (l : List Int) (h : ∀ k ∈ l, k.natAbs ≤ 2 ^ 53) :
    ∀ x ∈ l.map (fun k : Int => F64.round (k : ℚ)), IsFin x ∧ |toReal x| ≤ 2 ^ 500 := by
  intro x hx
  obtain ⟨k, hk, rfl⟩ := List.mem_map.1 hx
  obtain ⟨h1, h2⟩ := round_int k (h k hk)
  refine ⟨h1, ?_⟩
  rw [h2]
  have h3 : |(k : ℝ)| ≤ 2 ^ 53 := by
    have e : |(k : ℝ)| = (k.natAbs : ℝ) := by rw [Nat.cast_natAbs, Int.cast_abs]
    have h4 : (k.natAbs : ℝ) ≤ ((2 ^ 53 : Nat) : ℝ) := Nat.cast_le.2 (h k hk)
    rw [e]; rw [Nat.cast_pow, Nat.cast_ofNat] at h4; exact h4
  exact le_trans h3 pow53_le

theorem ints_ge (l : List Int) (h : ∀ k ∈ l, k.natAbs ≤ 2 ^ 53) (h0 : ∃ k ∈ l, k ≠ 0) :
    ∃ x ∈ l.map (fun k : Int => F64.round (k : ℚ)), (1 / 2 ^ 400 : ℝ) ≤ |toReal x| := by
  obtain ⟨k, hk, hne⟩ := h0
  refine ⟨F64.round (k : ℚ), List.mem_map_of_mem hk, ?_⟩
  rw [(round_int k (h k hk)).2]
  have e : |(k : ℝ)| = (k.natAbs : ℝ) := by rw [Nat.cast_natAbs, Int.cast_abs]
  have h4 : 1 ≤ k.natAbs := Nat.one_le_iff_ne_zero.2 (by simpa using hne)
  have h3 : (1 : ℝ) ≤ |(k : ℝ)| := by
    rw [e]; exact_mod_cast h4
  exact le_trans inv400_le h3

theorem mkEmb_vector (w : String) (l : List Int) :
    (mkEmb w (l.map (fun k : Int => (k : ℚ)))).vector = l.map (fun k : Int => F64.round (k : ℚ)) := by
  unfold mkEmb; dsimp only; rw [List.map_map]; rfl

theorem mkEmb_ordinary (w : String) (v : List ℚ) (l : List Int) (hv : v = l.map (fun k : Int => (k : ℚ)))
    (h : ∀ k ∈ l, k.natAbs ≤ 2 ^ 53) (h0 : ∃ k ∈ l, k ≠ 0) : OrdinaryEmb l.length (mkEmb w v) := by
  rw [hv]
  refine ⟨?_, ?_, rfl⟩
  · rw [mkEmb_vector]; exact ⟨ints_le l h, ints_ge l h h0⟩
  · rw [mkEmb_vector, List.length_map]

theorem ex_ordinary : ∀ it ∈ exSearcher.items, OrdinaryEmb 2 it := by
  intro it hit
  simp only [exSearcher, List.mem_cons, List.not_mem_nil, or_false] at hit
  rcases hit with rfl | rfl | rfl | rfl
  · exact mkEmb_ordinary "a" [1, 0] [1, 0] (by simp) (by decide) ⟨1, by simp, by decide⟩
  · exact mkEmb_ordinary "b" [1, 1] [1, 1] (by simp) (by decide) ⟨1, by simp, by decide⟩
  · exact mkEmb_ordinary "c" [-1, 0] [-1, 0] (by simp) (by decide) ⟨-1, by simp, by decide⟩
  · exact mkEmb_ordinary "d" [4, 3] [4, 3] (by simp) (by decide) ⟨4, by simp, by decide⟩

/-- `C98_accuracy_partial` for (1, 1) and (4, 3). -/
example := C98_accuracy_partial (mkEmb "b" [1, 1]).vector (mkEmb "d" [4, 3]).vector
  (ex_ordinary _ (by simp [exSearcher])).1 (ex_ordinary _ (by simp [exSearcher])).1 rfl
  (by rw [(ex_ordinary (mkEmb "b" [1, 1]) (by simp [exSearcher])).2.1]; decide)

/-- `C98_laws_partial` for (1, 1) and (4, 3); (8, 6) is (4, 3) multiplied by 2. -/
example : Ordinary (mkEmb "e" [8, 6]).vector ∧
    reals (mkEmb "e" [8, 6]).vector = (reals (mkEmb "d" [4, 3]).vector).map (2 * ·) := by
  refine ⟨(mkEmb_ordinary "e" [8, 6] [8, 6] (by simp) (by decide) ⟨8, by simp, by decide⟩).1, ?_⟩
  have e : ∀ k : Int, k.natAbs ≤ 2 ^ 53 → toReal (F64.round (k : ℚ)) = k := fun k h => (round_int k h).2
  have h4 := e 4 (by decide)
  have h3 := e 3 (by decide)
  have h8 := e 8 (by decide)
  have h6 := e 6 (by decide)
  push_cast at h4 h3 h8 h6
  simp only [reals, mkEmb, List.map_cons, List.map_nil, F64.ofRat_eq, h4, h3, h8, h6]
  norm_num

example := C98_laws_partial (mkEmb "b" [1, 1]).vector (mkEmb "d" [4, 3]).vector
  (ex_ordinary _ (by simp [exSearcher])).1 (ex_ordinary _ (by simp [exSearcher])).1 rfl
  (by rw [(ex_ordinary (mkEmb "b" [1, 1]) (by simp [exSearcher])).2.1]; decide)

/-- `C98_ranking_partial` for the query `a` over the example items; the exact cosines of `b` and `d` are
`1/√2` and `4/5`, further apart than the rounding error. -/
example := C98_ranking_partial exSearcher (mkEmb "a" [1, 0]) 2 (by decide) [['a']] 2 (by decide)
  (ex_ordinary _ (by simp [exSearcher])) ex_ordinary ex_words (by decide +kernel)

example : exactCos (mkEmb "a" [1, 0]) (mkEmb "b" [1, 1]) + 2 * eps 2 < exactCos (mkEmb "a" [1, 0]) (mkEmb "d" [4, 3]) := by
  have e : ∀ k : Int, k.natAbs ≤ 2 ^ 53 → toReal (F64.round (k : ℚ)) = k := fun k h => (round_int k h).2
  have h0 := e 0 (by decide)
  have h1 := e 1 (by decide)
  have h4 := e 4 (by decide)
  have h3 := e 3 (by decide)
  push_cast at h0 h1 h4 h3
  have h25 : Real.sqrt 25 = 5 := by rw [show (25 : ℝ) = 5 ^ 2 by norm_num]; exact Real.sqrt_sq (by norm_num)
  have h2 : (7 / 5 : ℝ) < Real.sqrt 2 := by
    rw [Real.lt_sqrt (by norm_num)]; norm_num
  have hb : exactCos (mkEmb "a" [1, 0]) (mkEmb "b" [1, 1]) < 5 / 7 := by
    simp only [exactCos, trueCos, reals, mkEmb, List.map_cons, List.map_nil, F64.ofRat_eq, h0, h1, dot]
    norm_num
    rw [inv_lt_comm₀ (by positivity) (by norm_num)]
    norm_num; linarith
  have hd : exactCos (mkEmb "a" [1, 0]) (mkEmb "d" [4, 3]) = 4 / 5 := by
    simp only [exactCos, trueCos, reals, mkEmb, List.map_cons, List.map_nil, F64.ofRat_eq, h0, h1, h4, h3, dot]
    norm_num
    rw [h25]
  rw [hd]
  have : eps 2 ≤ 1 / 1000 := by unfold eps; norm_num
  linarith

end Wego.Props
