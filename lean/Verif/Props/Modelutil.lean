import Mathlib.Tactic.Ring
import Mathlib.Data.Nat.ModEq
import Mathlib.Data.ZMod.Basic
import Mathlib.Data.Fintype.Card
import Mathlib.Data.List.Basic
import Verif.Model.Modelutil
import Verif.Proofs.F64

/-! # C23, C24, C25: `NextRandom` and `IndexPerThread` -/

namespace Wego
open Finset

/-! ### The linear congruential generator -/

abbrev lcgA : Nat := 25214903917

theorem rndStep_toNat (s : UInt64) : (rndStep s).toNat = (lcgA * s.toNat + 11) % 2 ^ 64 := by
  simp [rndStep, UInt64.toNat_add, UInt64.toNat_mul, lcgA, Nat.mul_comm]

/-- `1 + a + ... + a^(n-1)` -/
def geo (a : Nat) : Nat → Nat
  | 0 => 0
  | n + 1 => a * geo a n + 1

theorem geo_add (a m n : Nat) : geo a (m + n) = geo a m + a ^ m * geo a n := by
  induction m with
  | zero => simp [geo]
  | succ m ih =>
    rw [show m + 1 + n = (m + n) + 1 by omega]
    simp only [geo, ih, pow_succ]; ring

theorem geo_mod_two (n : Nat) : geo lcgA n % 2 = n % 2 := by
  induction n with
  | zero => rfl
  | succ n ih => simp only [geo, lcgA] at ih ⊢; omega

theorem pow_mod_four (m : Nat) : lcgA ^ m % 4 = 1 := by
  rw [Nat.pow_mod]; simp [lcgA]

/-- The powers of two dividing `1 + a + ... + a^(n-1)` are those dividing `n`. -/
theorem geo_dvd (k n : Nat) : 2 ^ k ∣ geo lcgA n ↔ 2 ^ k ∣ n := by
  induction k generalizing n with
  | zero => simp
  | succ k ih =>
    rcases Nat.even_or_odd' n with ⟨m, rfl | rfl⟩
    · have h1 : geo lcgA (2 * m) = geo lcgA m * (1 + lcgA ^ m) := by
        rw [two_mul, geo_add]; ring
      have h4 := pow_mod_four m
      obtain ⟨q, hq⟩ : ∃ q, 1 + lcgA ^ m = 2 * (2 * q + 1) := ⟨(lcgA ^ m) / 4, by omega⟩
      rw [h1, hq]
      have hodd : Nat.Coprime (2 ^ k) (2 * q + 1) := by
        apply Nat.Coprime.pow_left
        rw [Nat.coprime_two_left]
        exact ⟨q, rfl⟩
      rw [pow_succ, show geo lcgA m * (2 * (2 * q + 1)) = (geo lcgA m * (2 * q + 1)) * 2 by ring,
        Nat.mul_dvd_mul_iff_right (by norm_num), hodd.dvd_mul_right, ih, Nat.mul_comm 2 m,
        Nat.mul_dvd_mul_iff_right (by norm_num)]
    · constructor
      · intro h
        have : 2 ∣ geo lcgA (2 * m + 1) := dvd_trans (dvd_pow_self 2 (by omega)) h
        have := geo_mod_two (2 * m + 1)
        omega
      · intro h
        have : 2 ∣ 2 * m + 1 := dvd_trans (dvd_pow_self 2 (by omega)) h
        omega

theorem iterate_toNat (s : UInt64) (n : Nat) :
    (rndStep^[n] s).toNat = (lcgA ^ n * s.toNat + 11 * geo lcgA n) % 2 ^ 64 := by
  induction n with
  | zero => simp [geo, Nat.mod_eq_of_lt s.toNat_lt]
  | succ n ih =>
    rw [Function.iterate_succ_apply', rndStep_toNat, ih]
    simp only [geo, pow_succ]
    conv_lhs => rw [Nat.add_mod, Nat.mul_mod, Nat.mod_mod, ← Nat.mul_mod, ← Nat.add_mod]
    congr 1; ring

theorem pow_eq_geo (n : Nat) : lcgA ^ n = (lcgA - 1) * geo lcgA n + 1 := by
  induction n with
  | zero => simp [geo]
  | succ n ih =>
    have : lcgA - 1 = 25214903916 := rfl
    rw [pow_succ, ih, this]
    simp only [geo, lcgA]; ring

/-- The generator returns to a state after `n` steps exactly when `2^64` divides `n`. -/
theorem iterate_eq_self (s : UInt64) (n : Nat) : rndStep^[n] s = s ↔ 2 ^ 64 ∣ n := by
  rw [← UInt64.toNat_inj, iterate_toNat, ← geo_dvd, pow_eq_geo]
  have h1 : ((lcgA - 1) * geo lcgA n + 1) * s.toNat + 11 * geo lcgA n =
      s.toNat + geo lcgA n * ((lcgA - 1) * s.toNat + 11) := by ring
  rw [h1]
  have hs := s.toNat_lt
  have hodd : Nat.Coprime (2 ^ 64) ((lcgA - 1) * s.toNat + 11) := by
    apply Nat.Coprime.pow_left
    rw [Nat.coprime_two_left]
    refine ⟨12607451958 * s.toNat + 5, ?_⟩
    simp only [lcgA]; omega
  have h2 : 2 ^ 64 ∣ geo lcgA n ↔ 2 ^ 64 ∣ geo lcgA n * ((lcgA - 1) * s.toNat + 11) := (hodd.dvd_mul_right).symm
  rw [h2]
  generalize geo lcgA n * ((lcgA - 1) * s.toNat + 11) = z
  omega

theorem iterate_injective (s : UInt64) (i j : Nat) (hi : i < 2 ^ 64) (hj : j < 2 ^ 64)
    (h : rndStep^[i] s = rndStep^[j] s) : i = j := by
  rcases Nat.le_total i j with hij | hij
  · have : rndStep^[j - i] (rndStep^[i] s) = rndStep^[i] s := by
      rw [← Function.iterate_add_apply, Nat.sub_add_cancel hij, h]
    rw [iterate_eq_self] at this
    have := Nat.eq_zero_of_dvd_of_lt this (by omega)
    omega
  · have : rndStep^[i - j] (rndStep^[j] s) = rndStep^[j] s := by
      rw [← Function.iterate_add_apply, Nat.sub_add_cancel hij, h]
    rw [iterate_eq_self] at this
    have := Nat.eq_zero_of_dvd_of_lt this (by omega)
    omega

/-- Every state is reached from every state. -/
theorem iterate_surjective (s t : UInt64) : ∃ n < 2 ^ 64, rndStep^[n] s = t := by
  let f : Fin (2 ^ 64) → Fin (2 ^ 64) := fun n => ⟨(rndStep^[n.1] s).toNat, (rndStep^[n.1] s).toNat_lt⟩
  have hinj : Function.Injective f := by
    intro i j h
    simp only [f, Fin.mk.injEq, UInt64.toNat_inj] at h
    exact Fin.ext (iterate_injective s i.1 j.1 i.2 j.2 h)
  obtain ⟨n, hn⟩ := (Finite.injective_iff_surjective.1 hinj) ⟨t.toNat, t.toNat_lt⟩
  refine ⟨n.1, n.2, ?_⟩
  simp only [f, Fin.mk.injEq] at hn
  exact UInt64.toNat_inj.1 hn

theorem uint64OfInt_pos (v : Int) (h : 0 < v) (h2 : v < 2 ^ 63) : (uint64OfInt v).toNat = v.toNat := by
  simp only [uint64OfInt, UInt64.toNat_ofNat']
  have : v % 2 ^ 64 = v := Int.emod_eq_of_lt (by omega) (by omega)
  rw [this, Nat.mod_eq_of_lt]
  omega

/-- `NextRandom` for a positive argument. -/
theorem nextRandom_eq (s : UInt64) (v : Int) (h : 0 < v) (h2 : v < 2 ^ 63) :
    nextRandom s v = .ok (rndStep s, (((rndStep s).toNat % v.toNat : Nat) : Int)) := by
  have h1 := uint64OfInt_pos v h h2
  have hne : uint64OfInt v ≠ 0 := by
    intro e; rw [e] at h1; simp at h1; omega
  simp only [nextRandom, hne, if_false, int64OfUInt64, UInt64.toNat_mod, h1]
  have : (rndStep s).toNat % v.toNat < v.toNat := Nat.mod_lt _ (by omega)
  rw [if_pos (by omega)]

end Wego

namespace Wego.Props
open Wego

/-- The results of consecutive `NextRandom` calls with the given arguments. -/
def draws (s : UInt64) : List Int → Res (List Int)
  | [] => .ok []
  | v :: vs => nextRandom s v >>= fun (s, r) => draws s vs >>= fun rs => .ok (r :: rs)

theorem draws_eq (s : UInt64) (vs : List Int) (h : ∀ v ∈ vs, 0 < v ∧ v < 2 ^ 63) :
    draws s vs = .ok (vs.zipIdx.map (fun x => (((rndStep^[x.2 + 1] s).toNat % x.1.toNat : Nat) : Int))) := by
  suffices H : ∀ (vs : List Int) (k : Nat) (s : UInt64), (∀ v ∈ vs, 0 < v ∧ v < 2 ^ 63) →
      draws (rndStep^[k] s) vs =
        .ok ((vs.zipIdx k).map (fun x => (((rndStep^[x.2 + 1] s).toNat % x.1.toNat : Nat) : Int))) from
    H vs 0 s h
  intro vs
  induction vs with
  | nil => intro k s _; rfl
  | cons v vs ih =>
    intro k s h
    obtain ⟨h1, h2⟩ := h v (by simp)
    have := ih (k + 1) s (fun v hv => h v (by simp [hv]))
    rw [Function.iterate_succ_apply'] at this
    simp only [draws, nextRandom_eq _ v h1 h2, Res.ok_bind, this, List.zipIdx_cons, List.map_cons]
    rw [Function.iterate_succ_apply']

theorem mod_range (n : Nat) (v : Int) (h : 0 < v) : 0 ≤ ((n % v.toNat : Nat) : Int) ∧ ((n % v.toNat : Nat) : Int) < v := by
  have : n % v.toNat < v.toNat := Nat.mod_lt _ (by omega)
  omega

/-- **C23 (range).** For every sequence of `NextRandom` calls with positive arguments, from every
generator state, nothing panics and each result is in `[0, argument)`. -/
theorem C23_nextRandom_range (s : UInt64) (vs : List Int) (h : ∀ v ∈ vs, 0 < v ∧ v < 2 ^ 63) :
    ∃ rs, draws s vs = .ok rs ∧ rs.length = vs.length ∧
      ∀ x ∈ vs.zip rs, 0 ≤ x.2 ∧ x.2 < x.1 := by
  refine ⟨_, draws_eq s vs h, by rw [List.length_map, List.length_zipIdx], ?_⟩
  generalize hf : (fun x : Int × Nat => (((rndStep^[x.2 + 1] s).toNat % x.1.toNat : Nat) : Int)) = f
  have hf' : ∀ x, f x = ((((rndStep^[x.2 + 1] s).toNat) % x.1.toNat : Nat) : Int) := by rw [← hf]; exact fun _ => rfl
  clear hf
  intro x hx
  have hpos : ∀ v ∈ vs, 0 < v := fun v hv => (h v hv).1
  clear h
  obtain ⟨i, hi, e⟩ := List.getElem_of_mem hx
  simp only [List.length_zip, List.length_map, List.length_zipIdx, Nat.min_self] at hi
  rw [List.getElem_zip, List.getElem_map, List.getElem_zipIdx] at e
  rw [← e, hf']
  exact mod_range _ _ (hpos _ (List.getElem_mem hi))

/-- `C23_nextRandom_range` for the arguments 5, 1 and `2^63 - 1`. -/
example := C23_nextRandom_range 1 [5, 1, 9223372036854775807] (by decide)

/-- the numbers a freshly started process generates: 1, then `25214903917 x + 11` modulo `2^64` each time -/
def lcgNumber : Nat → Nat
  | 0 => 1
  | n + 1 => (25214903917 * lcgNumber n + 11) % 2 ^ 64

theorem lcgNumber_eq (n : Nat) : (rndStep^[n] rndInit).toNat = lcgNumber n := by
  induction n with
  | zero => rfl
  | succ n ih => rw [Function.iterate_succ_apply', rndStep_toNat, ih]; rfl

/-- **C23 (determinism).** The results of the first calls of `NextRandom` in a process are determined by their
arguments alone: the call number `i` (from 0) with the argument `v` returns number `i + 1` of the fixed sequence
`lcgNumber`, modulo `v`. -/
theorem C23_sequence (vs : List Int) (h : ∀ v ∈ vs, 0 < v ∧ v < 2 ^ 63) :
    draws rndInit vs = .ok (vs.zipIdx.map (fun x => ((lcgNumber (x.2 + 1) % x.1.toNat : Nat) : Int))) := by
  rw [draws_eq rndInit vs h]
  congr 1
  apply List.map_congr_left
  intro x _
  rw [lcgNumber_eq]

/-- `C23_sequence`: the first three draws from 10. -/
example := C23_sequence [10, 10, 10] (by decide)
example : [10, 10, 10].zipIdx.map (fun x : Int × Nat => ((lcgNumber (x.2 + 1) % x.1.toNat : Nat) : Int)) = [8, 3, 2] := by
  decide

/-- **C23 (arguments below 1).** `NextRandom(0)` panics; `NextRandom(v)` for a negative `v` does not, and returns
the int64 that is congruent (modulo `2^64`) to the remainder of the generated number by `2^64 + v`, which may be
negative and need not be related to `v` otherwise. -/
theorem C23_not_positive (s : UInt64) :
    nextRandom s 0 = .panic .divByZero ∧
    ∀ v : Int, -2 ^ 63 ≤ v → v < 0 → ∃ r, nextRandom s v = .ok (rndStep s, r) ∧
      -2 ^ 63 ≤ r ∧ r < 2 ^ 63 ∧
      r ≡ (((25214903917 * s.toNat + 11) % 2 ^ 64 : Nat) : Int) % (2 ^ 64 + v) [ZMOD 2 ^ 64] := by
  refine ⟨rfl, fun v h1 h2 => ?_⟩
  have hu : (uint64OfInt v).toNat = (2 ^ 64 + v).toNat := by
    simp only [uint64OfInt, UInt64.toNat_ofNat']
    have : v % 2 ^ 64 = 2 ^ 64 + v := by omega
    rw [this, Nat.mod_eq_of_lt]
    omega
  have hne : uint64OfInt v ≠ 0 := by
    intro e; rw [e] at hu; simp at hu; omega
  have hs := rndStep_toNat s
  simp only [lcgA] at hs
  refine ⟨int64OfUInt64 (rndStep s % uint64OfInt v), by unfold nextRandom; dsimp only; rw [if_neg hne], ?_⟩
  have hm : ((rndStep s % uint64OfInt v).toNat : Int) =
      (((25214903917 * s.toNat + 11) % 2 ^ 64 : Nat) : Int) % (2 ^ 64 + v) := by
    rw [UInt64.toNat_mod, hu, hs]
    rw [Int.natCast_mod, Int.toNat_of_nonneg (by omega)]
  have hlt := (rndStep s % uint64OfInt v).toNat_lt
  rw [← hm]
  unfold int64OfUInt64
  split
  · exact ⟨by omega, by omega, rfl⟩
  · refine ⟨by omega, by omega, ?_⟩
    rw [Int.modEq_iff_dvd]
    exact ⟨1, by omega⟩

/-- `C23_not_positive`: `NextRandom(-5)` from the initial state (the generated number is 25214903928). -/
example := (C23_not_positive 1).2 (-5) (by decide) (by decide)
example : nextRandom 1 (-5) = .ok (25214903928, 25214903928) := by decide

/-- **C23 (period).** The generator state sequence has period exactly `2^64`. -/
theorem C23_period (s : UInt64) (n : Nat) : rndStep^[n] s = s ↔ 2 ^ 64 ∣ n := iterate_eq_self s n

/-- **C23 (coverage).** From every generator state and for every range `v`, every value `r < v` is
eventually returned: after some number `n < 2^64` of earlier calls (with any positive arguments), the
next call `NextRandom(v)` returns `r`. -/
theorem C23_every_value_is_drawn (s : UInt64) (v : Int) (hv : 0 < v) (hv2 : v < 2 ^ 63) (r : Int)
    (h0 : 0 ≤ r) (hr : r < v) :
    ∃ n < 2 ^ 64, ∀ vs : List Int, vs.length = n → (∀ u ∈ vs, 0 < u ∧ u < 2 ^ 63) →
      ∃ rs, draws s (vs ++ [v]) = .ok (rs ++ [r]) := by
  obtain ⟨n, hn, e⟩ := iterate_surjective (rndStep s) (UInt64.ofNat r.toNat)
  refine ⟨n, hn, ?_⟩
  intro vs hlen hvs
  rw [draws_eq s (vs ++ [v]) (by
    intro u hu
    rcases List.mem_append.1 hu with h | h
    · exact hvs u h
    · simp only [List.mem_singleton] at h; subst h; exact ⟨hv, hv2⟩)]
  rw [List.zipIdx_append, List.map_append]
  refine ⟨_, congrArg Res.ok (congrArg _ ?_)⟩
  simp only [List.zipIdx_singleton, List.map_cons, List.map_nil, hlen, Nat.zero_add]
  rw [Function.iterate_succ_apply, e]
  have : (UInt64.ofNat r.toNat).toNat = r.toNat := by
    simp only [UInt64.toNat_ofNat']; rw [Nat.mod_eq_of_lt]; omega
  rw [this, Nat.mod_eq_of_lt (by omega)]
  congr 1; omega

/-- `C23_every_value_is_drawn`: the value 7 of the range 10. -/
example := C23_every_value_is_drawn 1 10 (by decide) (by decide) 7 (by decide) (by decide)

/-- **C24.** For every even range, consecutive results have alternating parity, from every state. -/
theorem C24_parity_alternates (s : UInt64) (u v : Int) (hu : 0 < u ∧ u < 2 ^ 63) (hv : 0 < v ∧ v < 2 ^ 63)
    (hu2 : 2 ∣ u) (hv2 : 2 ∣ v) :
    ∃ a b, draws s [u, v] = .ok [a, b] ∧ (a + b) % 2 = 1 := by
  refine ⟨_, _, draws_eq s [u, v] (by
    intro w hw
    simp only [List.mem_cons, List.not_mem_nil, or_false] at hw
    rcases hw with rfl | rfl
    · exact hu
    · exact hv), ?_⟩
  simp only [Function.iterate_succ_apply', Function.iterate_zero_apply]
  rw [rndStep_toNat (rndStep s)]
  generalize (rndStep s).toNat = x
  obtain ⟨p, rfl⟩ := hu2
  obtain ⟨q, rfl⟩ := hv2
  have e1 : (2 * p).toNat = 2 * p.toNat := by omega
  have e2 : (2 * q).toNat = 2 * q.toNat := by omega
  rw [e1, e2]
  have h1 : x % (2 * p.toNat) % 2 = x % 2 := Nat.mod_mul_right_mod _ _ _
  have h2 : (lcgA * x + 11) % 2 ^ 64 % (2 * q.toNat) % 2 = (lcgA * x + 11) % 2 ^ 64 % 2 := Nat.mod_mul_right_mod _ _ _
  have h3 : (lcgA * x + 11) % 2 ^ 64 % 2 = (lcgA * x + 11) % 2 := Nat.mod_mod_of_dvd _ (by norm_num)
  have h4 : (lcgA * x + 11) % 2 = (x + 1) % 2 := by simp only [lcgA]; omega
  omega

/-- `C24_parity_alternates` for the arguments 10 and 6. -/
example := C24_parity_alternates 1 10 6 (by decide) (by decide) (by decide) (by decide)

theorem low_bits (s : UInt64) (k : Nat) (n : Nat) :
    (rndStep^[n + 2 ^ k] s).toNat % 2 ^ k = (rndStep^[n] s).toNat % 2 ^ k := by
  rw [Nat.add_comm, Function.iterate_add_apply]
  generalize rndStep^[n] s = t
  rcases Nat.le_total k 64 with hk | hk
  · rw [iterate_toNat, pow_eq_geo]
    have h1 : ((lcgA - 1) * geo lcgA (2 ^ k) + 1) * t.toNat + 11 * geo lcgA (2 ^ k) =
        t.toNat + geo lcgA (2 ^ k) * ((lcgA - 1) * t.toNat + 11) := by ring
    rw [h1, Nat.mod_mod_of_dvd _ (pow_dvd_pow 2 hk)]
    obtain ⟨z, hz⟩ := (geo_dvd k (2 ^ k)).2 (dvd_refl _)
    rw [hz, Nat.mul_assoc, Nat.add_mul_mod_self_left]
  · rw [(iterate_eq_self t (2 ^ k)).2 (pow_dvd_pow 2 hk)]

/-- **C24 (low bits).** For a range that is a power of two `2^k`, the results repeat with period `2^k`,
from every state. -/
theorem C24_low_bits_period (s : UInt64) (k : Nat) (hk : k ≤ 62) (m : Nat) :
    ∃ rs, draws s (List.replicate m (2 ^ k : Int)) = .ok rs ∧
      ∀ n, n + 2 ^ k < m → rs[n + 2 ^ k]? = rs[n]? := by
  have hpow : (2 : Int) ^ k < 2 ^ 63 := pow_lt_pow_right₀ (by norm_num) (by omega)
  refine ⟨_, draws_eq s _ (by
    intro v hv
    rw [List.mem_replicate] at hv
    rw [hv.2]
    exact ⟨by positivity, hpow⟩), ?_⟩
  intro n hn
  have h0 : n < m := by have : 0 < 2 ^ k := by positivity
                        omega
  have ht : ((2 : Int) ^ k).toNat = 2 ^ k := by
    have : ((2 : Int) ^ k) = ((2 ^ k : Nat) : Int) := by push_cast; rfl
    rw [this, Int.toNat_natCast]
  simp only [List.getElem?_map, List.getElem?_zipIdx, List.getElem?_replicate, h0, hn, if_true,
    Option.map_some, Nat.zero_add, ht]
  rw [show n + 2 ^ k + 1 = (n + 1) + 2 ^ k by omega, low_bits]

/-- `C24_low_bits_period`: arguments `2^3`, 100 draws. -/
example := C24_low_bits_period 1 3 (by decide) 100

end Wego.Props
