import Verif.Proofs.F64Mul

/-! # Signs and monotonicity of binary64 sums, squares and quotients -/

namespace Wego
namespace F64

theorem key_fin_lt {s : Bool} {n : Nat} {h : IsRep n} {a : Int} (hk : key (.fin s n h) = some a) : a.natAbs < ovf := by
  have := h.2
  cases s <;> simp [key] at hk <;> omega

/-- adding something not negative to something not negative gives a number, and not a smaller one -/
theorem key_add_nonneg {x y : F64} {a b : Int} (hx : key x = some a) (ha : 0 ≤ a) (hy : key y = some b) (hb : 0 ≤ b) :
    ∃ c, key (add x y) = some c ∧ a ≤ c := by
  have hp : (0 : ℚ) < one1 := by exact_mod_cast one1_pos
  have ho := ovf_pos
  cases x with
  | nan => simp [key] at hx
  | inf s =>
    cases s with
    | true => simp [key] at hx; omega
    | false =>
      simp only [key, Bool.false_eq_true, if_false, Option.some.injEq] at hx
      cases y with
      | nan => simp [key] at hy
      | inf t =>
        cases t with
        | true => simp [key] at hy; omega
        | false => exact ⟨(ovf : Int), by simp [add, key], by omega⟩
      | fin t m k => exact ⟨(ovf : Int), by simp [add, key], by omega⟩
  | fin s n h =>
    have hlt := key_fin_lt hx
    cases y with
    | nan => simp [key] at hy
    | inf t =>
      cases t with
      | true => simp [key] at hy; omega
      | false => exact ⟨(ovf : Int), by simp [add, key], by omega⟩
    | fin t m k =>
      refine ⟨_, key_round _ _, ?_⟩
      rw [toRat_of_key hx, toRat_of_key hy]
      calc a = rkey ((a : ℚ) / one1) := (rkey_of_key hx hlt).symm
        _ ≤ _ := rkey_mono (by
          have : (0 : ℚ) ≤ (b : ℚ) / one1 := div_nonneg (by exact_mod_cast hb) hp.le
          linarith)

/-- a square is not negative, or NaN for NaN -/
theorem key_mul_self (t : F64) : (t = .nan ∧ mul t t = .nan) ∨ ∃ b, key (mul t t) = some b ∧ 0 ≤ b := by
  cases t with
  | nan => exact Or.inl ⟨rfl, rfl⟩
  | inf s => exact Or.inr ⟨(ovf : Int), by cases s <;> simp [mul, key], by omega⟩
  | fin s n h => exact Or.inr ⟨_, key_round _ _, rkey_nonneg (mul_self_nonneg _)⟩

theorem add_nan (x : F64) : add x .nan = .nan := by cases x <;> rfl
theorem nan_add (x : F64) : add .nan x = .nan := by cases x <;> rfl

/-- an accumulator that is at least 1 and gets a square added is NaN or not smaller -/
theorem acc_step (x t : F64) (hx : x = .nan ∨ GoFloat.le (GoFloat.ofRat 1) x = true) :
    ((x +. t *. t = .nan) ↔ x = .nan ∨ t = .nan) ∧
    (x +. t *. t = .nan ∨ (GoFloat.le x (x +. t *. t) = true ∧ GoFloat.le (GoFloat.ofRat 1) (x +. t *. t) = true)) := by
  show (add x (mul t t) = .nan ↔ _) ∧ (add x (mul t t) = .nan ∨ (GoFloat.le x (add x (mul t t)) = true ∧
    GoFloat.le (GoFloat.ofRat 1) (add x (mul t t)) = true))
  rcases hx with rfl | hx
  · rw [nan_add]; simp
  · obtain ⟨o, a, h1, h2, h3⟩ := (le_iff _ _).1 hx
    rw [key_one] at h1
    have ho : o = (one1 : Int) := (Option.some.inj h1).symm
    have hxn : x ≠ .nan := by rintro rfl; simp [key] at h2
    rcases key_mul_self t with ⟨rfl, e⟩ | ⟨b, hb, hb0⟩
    · rw [e, add_nan]; simp
    · have htn : t ≠ .nan := by rintro rfl; simp [mul, key] at hb
      have hp := one1_pos
      obtain ⟨c, hc, hac⟩ := key_add_nonneg h2 (by omega) hb hb0
      have hcn : add x (mul t t) ≠ .nan := by intro e; rw [e] at hc; simp [key] at hc
      refine ⟨by simp [hcn, hxn, htn], Or.inr ⟨(le_iff _ _).2 ⟨a, c, h2, hc, hac⟩, (le_iff _ _).2 ⟨_, c, key_one, hc, by omega⟩⟩⟩

/-- the root of a number at least 1 is at least 1 -/
theorem one_le_sqrt {g : F64} (h : GoFloat.le (GoFloat.ofRat 1) g = true) : GoFloat.le (GoFloat.ofRat 1) (GoFloat.sqrt g) = true := by
  obtain ⟨o, a, h1, h2, h3⟩ := (le_iff _ _).1 h
  rw [key_one] at h1
  have ho : o = (one1 : Int) := (Option.some.inj h1).symm
  have hp := one1_pos
  obtain ⟨n, rfl⟩ := Int.eq_ofNat_of_zero_le (show 0 ≤ a by omega)
  refine (le_iff _ _).2 ⟨_, _, key_one, key_sqrt g n h2, ?_⟩
  have := skey_mono (show one1 ≤ n by omega)
  have h1 : skey one1 = one1 := by
    have := key_sqrt _ one1 key_one
    have e : F64.sqrt (GoFloat.ofRat 1 : F64) = GoFloat.ofRat 1 := by decide +kernel
    rw [e, key_one] at this
    have := Option.some.inj this
    omega
  omega

/-- dividing by a number at least 1 does not enlarge the absolute value (or gives NaN: infinity by infinity) -/
theorem div_shrinks (t g : F64) (h : GoFloat.le (GoFloat.ofRat 1) g = true) :
    t /. g = .nan ∨ GoFloat.le (GoFloat.abs (t /. g)) (GoFloat.abs t) = true := by
  show div t g = .nan ∨ GoFloat.le (abs (div t g)) (abs t) = true
  have hp : (0 : ℚ) < one1 := by exact_mod_cast one1_pos
  have ho := ovf_pos
  have hp' := one1_pos
  obtain ⟨o, a, h1, h2, h3⟩ := (le_iff _ _).1 h
  rw [key_one] at h1
  have ho1 : o = (one1 : Int) := (Option.some.inj h1).symm
  subst ho1
  cases t with
  | nan => exact Or.inl rfl
  | inf s =>
    cases g with
    | nan => exact Or.inl rfl
    | inf _ => exact Or.inl rfl
    | fin s' m k => exact Or.inr ((le_iff _ _).2 ⟨ovf, ovf, rfl, rfl, le_refl _⟩)
  | fin s n hn =>
    right
    cases g with
    | nan => simp [key] at h2
    | inf s' =>
      refine (le_iff _ _).2 ⟨0, n, ?_, by simp [abs, key], by omega⟩
      simp [div, zero, abs, key]
    | fin s' m k =>
      have hm0 : m ≠ 0 := by rintro rfl; cases s' <;> simp [key] at h2 <;> omega
      have hga := toRat_of_key h2
      have hg1 : (1 : ℚ) ≤ toRat (.fin s' m k) := by
        rw [hga, le_div_iff₀ hp, one_mul]; exact_mod_cast h3
      simp only [div, hm0, if_false]
      refine (le_iff _ _).2 ?_
      have hta : |toRat (.fin s n hn)| = (n : ℚ) / one1 := abs_toRat_fin s n hn
      have key_abs : ∀ y : F64, ∀ c, key y = some c → key (abs y) = some |c| := by
        intro y c hc
        cases y with
        | nan => simp [key] at hc
        | inf z => cases z <;> simp [key] at hc <;> subst hc <;> simp [abs, key]
        | fin z l hl => cases z <;> simp [key] at hc <;> subst hc <;> simp [abs, key]
      refine ⟨_, (n : Int), key_abs _ _ (key_round _ _), by simp [abs, key], ?_⟩
      set q := toRat (.fin s n hn) / toRat (.fin s' m k) with hq
      have hqa : |q| ≤ (n : ℚ) / one1 := by
        rw [hq, abs_div, hta, abs_of_pos (lt_of_lt_of_le one_pos hg1)]
        exact div_le_self (by positivity) hg1
      have hkn : key (.fin false n hn) = some (n : Int) := by simp [key]
      have hkn' : key (.fin true n hn) = some (-(n : Int)) := by simp [key]
      have e1 := rkey_of_key hkn (key_fin_lt hkn)
      have e2 := rkey_of_key hkn' (key_fin_lt hkn')
      have u := rkey_mono (show q ≤ ((n : Int) : ℚ) / one1 from le_trans (le_abs_self q) hqa)
      have l := rkey_mono (show ((-(n : Int) : Int) : ℚ) / one1 ≤ q by
        have := neg_le_of_abs_le hqa
        push_cast
        rw [neg_div]; exact this)
      rw [e1] at u
      rw [e2] at l
      exact abs_le.2 ⟨l, u⟩

end F64
end Wego
