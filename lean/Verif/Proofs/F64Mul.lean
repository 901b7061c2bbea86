import Verif.Proofs.F64Sqrt

/-! # Multiplication of binary64 numbers by a number in [0,1] -/

namespace Wego
namespace F64

/-- finite and not below zero -/
def NonnegFin (x : F64) : Prop := ∃ a : Nat, key x = some (a : Int) ∧ a < ovf

theorem rkey_zero : rkey 0 = 0 := le_antisymm (rkey_nonpos (le_refl _)) (rkey_nonneg (le_refl _))

theorem rkey_of_key {x : F64} {a : Int} (hk : key x = some a) (ha : a.natAbs < ovf) : rkey ((a : ℚ) / one1) = a := by
  cases x with
  | nan => simp [key] at hk
  | inf s =>
    exfalso
    cases s
    · simp only [key, Bool.false_eq_true, if_false, Option.some.injEq] at hk; omega
    · simp only [key, if_true, Option.some.injEq] at hk; omega
  | fin s n h =>
    have h1 := toRat_of_key hk
    have h2 := key_round (toRat (.fin s n h)) s
    rw [round_toRat s s n h (fun _ => rfl), hk, h1] at h2
    exact (Option.some.inj h2).symm

theorem key_one : key (GoFloat.ofRat 1 : F64) = some (one1 : Int) := by
  rw [ofRat_eq]
  have := round_nat 1 (by norm_num)
  simp only [Nat.cast_one] at this
  rw [this]; simp [key]

theorem one1_lt_ovf : one1 < ovf := by
  have := (isRep_nat (n := 1) (by norm_num)).2
  simpa using this

theorem rkey_one : rkey 1 = one1 := by
  have := key_round 1 false
  rw [show round 1 false = (GoFloat.ofRat 1 : F64) from rfl, key_one] at this
  exact (Option.some.inj this).symm

/-- the quotient of two naturals `c ≤ k` lies in `[0,1]` -/
theorem key_nat_div (c k : Nat) (hc : c ≤ k) (hk : 0 < k) (hk2 : k ≤ 2 ^ 53) :
    ∃ b : Nat, key ((GoFloat.ofRat (c : ℚ) : F64) /. GoFloat.ofRat (k : ℚ)) = some (b : Int) ∧ b ≤ one1 ∧
      (b : Int) = rkey ((c : ℚ) / k) := by
  have hp : (0 : ℚ) < one1 := by exact_mod_cast one1_pos
  have hc2 : c ≤ 2 ^ 53 := hc.trans hk2
  have h1 : key (GoFloat.ofRat (c : ℚ) : F64) = some ((c * one1 : Nat) : Int) := by
    rw [ofRat_eq, round_nat c hc2]; simp [key]
  obtain ⟨b, hb, he⟩ := key_div_nat _ _ h1 k hk hk2
  rw [if_pos (isRep_nat hc2).2] at he
  have e : (((c * one1 : Nat) : ℚ)) / one1 = c := by push_cast; field_simp
  rw [e] at he
  refine ⟨b, hb, ?_, he⟩
  have hk' : (0 : ℚ) < k := by exact_mod_cast hk
  have : rkey ((c : ℚ) / k) ≤ rkey 1 := rkey_mono (by rw [div_le_one hk']; exact_mod_cast hc)
  rw [rkey_one, ← he] at this
  omega

theorem key_one_sub_unit (y : F64) (b : Nat) (h : key y = some (b : Int)) (hb : b ≤ one1) :
    ∃ c : Nat, key ((GoFloat.ofRat 1 : F64) -. y) = some (c : Int) ∧ c ≤ one1 := by
  have hp : (0 : ℚ) < one1 := by exact_mod_cast one1_pos
  have := key_one_sub y b h
  rw [if_pos (lt_of_le_of_lt hb one1_lt_ovf)] at this
  have hq : (b : ℚ) / one1 ≤ 1 := by rw [div_le_one hp]; exact_mod_cast hb
  have h0 : 0 ≤ rkey (1 - (b : ℚ) / one1) := rkey_nonneg (by linarith)
  have h1 : rkey (1 - (b : ℚ) / one1) ≤ rkey 1 := rkey_mono (by have : 0 ≤ (b : ℚ) / one1 := by positivity
                                                                linarith)
  rw [rkey_one] at h1
  obtain ⟨c, hc⟩ := Int.eq_ofNat_of_zero_le h0
  exact ⟨c, by rw [this, hc], by omega⟩

theorem key_mul_unit (x y : F64) (a b : Nat) (hx : key x = some (a : Int)) (ha : a < ovf)
    (hy : key y = some (b : Int)) (hb : b ≤ one1) :
    ∃ c : Nat, key (x *. y) = some (c : Int) ∧ c ≤ a := by
  have hp : (0 : ℚ) < one1 := by exact_mod_cast one1_pos
  cases x with
  | nan => simp [key] at hx
  | inf s =>
    exfalso
    cases s
    · simp only [key, Bool.false_eq_true, if_false, Option.some.injEq] at hx; omega
    · simp only [key, if_true, Option.some.injEq] at hx; omega
  | fin s n h =>
    have hbo := lt_of_le_of_lt hb one1_lt_ovf
    cases y with
    | nan => simp [key] at hy
    | inf t =>
      exfalso
      cases t
      · simp only [key, Bool.false_eq_true, if_false, Option.some.injEq] at hy; omega
      · simp only [key, if_true, Option.some.injEq] at hy; omega
    | fin t m k =>
      have hx' := toRat_of_key hx
      have hy' := toRat_of_key hy
      have hm : key (F64.fin s n h *. F64.fin t m k) = some (rkey ((a : ℚ) / one1 * ((b : ℚ) / one1))) := by
        show key (mul _ _) = _
        simp only [mul]
        rw [key_round, hx', hy']; simp
      have hq : (b : ℚ) / one1 ≤ 1 := by rw [div_le_one hp]; exact_mod_cast hb
      have hq0 : 0 ≤ (b : ℚ) / one1 := by positivity
      have ha0 : 0 ≤ (a : ℚ) / one1 := by positivity
      have h0 : 0 ≤ rkey ((a : ℚ) / one1 * ((b : ℚ) / one1)) := rkey_nonneg (mul_nonneg ha0 hq0)
      have h1 : rkey ((a : ℚ) / one1 * ((b : ℚ) / one1)) ≤ rkey ((a : ℚ) / one1) := rkey_mono (by nlinarith)
      have h2 := rkey_of_key hx (by simpa using ha)
      simp only [Int.cast_natCast] at h2
      rw [h2] at h1
      obtain ⟨c, hc⟩ := Int.eq_ofNat_of_zero_le h0
      exact ⟨c, by rw [hm, hc], by omega⟩

theorem key_fzero : key (fzero : F64) = some 0 := by
  have := key_round 0 false
  rw [rkey_zero] at this
  exact this

end F64
end Wego
