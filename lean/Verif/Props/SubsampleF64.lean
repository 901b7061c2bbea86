import Verif.Props.NanRate
import Verif.Props.Subsample
import Verif.Proofs.F64Mono

/-! # C27 in float64: the two ends of the threshold -/

namespace Wego.Props
open Wego Wego.Spec

theorem one_le_div {t : F64} {f : Nat} (hf : 0 < f) (hf2 : f ≤ 2 ^ 53) (h : GoFloat.le (GoFloat.ofRat (f : ℚ)) t = true) :
    GoFloat.le (GoFloat.ofRat 1) (t /. GoFloat.ofRat (f : ℚ)) = true := by
  obtain ⟨x, a, h1, h2, h3⟩ := (F64.le_iff _ _).1 h
  have e1 : F64.key (GoFloat.ofRat (f : ℚ) : F64) = some ((f * one1 : Nat) : Int) := by
    show F64.key (F64.round (f : ℚ)) = _
    rw [F64.round_nat f hf2]; rfl
  rw [e1] at h1
  have hx := Option.some.inj h1
  obtain ⟨n, rfl⟩ := Int.eq_ofNat_of_zero_le (show 0 ≤ a by omega)
  have hn : f * one1 ≤ n := by omega
  obtain ⟨b, hb, hbe⟩ := F64.key_div_nat t n h2 f hf hf2
  refine (F64.le_iff _ _).2 ⟨_, _, F64.key_one, hb, ?_⟩
  rw [hbe]
  split
  · rw [← F64.rkey_one]
    apply F64.rkey_mono
    have hp : (0 : ℚ) < one1 := by exact_mod_cast one1_pos
    have hf' : (0 : ℚ) < f := by exact_mod_cast hf
    rw [div_div, le_div_iff₀ (mul_pos hp hf'), one_mul]
    have : ((f * one1 : Nat) : ℚ) ≤ n := by exact_mod_cast hn
    push_cast at this
    linarith
  · have := F64.one1_lt_ovf; omega

/-- **C27 (binary64, the ends).** For a word that occurs `1 <= f <= 2^53` times: with threshold 0 the table entry is exactly 1, so
`Trial` accepts whatever number `u < 1` is drawn; with a threshold of at least `f` (infinity included) `Trial` accepts no number
`u >= 0`. -/
theorem C27_float64_ends (f : Nat) (hf : 0 < f) (hf2 : f ≤ 2 ^ 53) (samples : List F64) (id : Nat) :
    (samples[id]? = some (sampleValue (GoFloat.ofRat 0) f) → ∀ u : F64, GoFloat.lt u (GoFloat.ofRat 1) = true →
      trial samples (id : Int) u = .ok true) ∧
    (∀ t : F64, GoFloat.le (GoFloat.ofRat (f : ℚ)) t = true → samples[id]? = some (sampleValue t f) →
      ∀ u : F64, GoFloat.le fzero u = true → trial samples (id : Int) u = .ok false) := by
  have htrial : ∀ v u, samples[id]? = some v → trial samples (id : Int) u = .ok (GoFloat.lt u v) := by
    intro v u hv
    unfold trial idxI idx
    rw [if_neg (by omega), Int.toNat_natCast, hv]
    rfl
  constructor
  · intro h u hu
    rw [htrial _ _ h]
    have : sampleValue (GoFloat.ofRat 0 : F64) f = GoFloat.ofRat 1 := sampleValue_zero f hf hf2
    rw [this, hu]
  · intro t ht h u hu
    rw [htrial _ _ h]
    congr 1
    have h1 := F64.one_le_sqrt (one_le_div hf hf2 ht)
    obtain ⟨o, a, e1, e2, e3⟩ := (F64.le_iff _ _).1 h1
    rw [F64.key_one] at e1
    have ho := Option.some.inj e1
    have hp := one1_pos
    obtain ⟨n, rfl⟩ := Int.eq_ofNat_of_zero_le (show 0 ≤ a by omega)
    have hz := F64.key_one_sub _ n e2
    have hneg : (if n < ovf then F64.rkey (1 - (n : ℚ) / one1) else -(ovf : Int)) ≤ 0 := by
      split
      · apply F64.rkey_nonpos
        have hp' : (0 : ℚ) < one1 := by exact_mod_cast hp
        have : (1 : ℚ) ≤ (n : ℚ) / one1 := by
          rw [le_div_iff₀ hp', one_mul]
          exact_mod_cast (show one1 ≤ n by omega)
        linarith
      · have := ovf_pos; omega
    obtain ⟨x, b, g1, g2, g3⟩ := (F64.le_iff _ _).1 hu
    rw [F64.key_fzero] at g1
    have hx := Option.some.inj g1
    rw [Bool.eq_false_iff]
    intro hlt
    obtain ⟨c, d, k1, k2, k3⟩ := (F64.lt_iff _ _).1 hlt
    rw [g2] at k1
    have hc := Option.some.inj k1
    unfold sampleValue at k2
    dsimp only at k2
    split at k2
    · rw [F64.key_fzero] at k2
      have := Option.some.inj k2
      omega
    · rw [hz] at k2
      have := Option.some.inj k2
      omega

/-- `C27_float64_ends` for a word that occurs 3 times and the threshold 10. -/
example : trial [sampleValue (GoFloat.ofRat 10 : F64) 3] 0 (GoFloat.ofRat (1 / 4)) = .ok false :=
  (C27_float64_ends 3 (by decide) (by decide) _ 0).2 _ (by decide +kernel) rfl _ (by decide +kernel)

end Wego.Props
