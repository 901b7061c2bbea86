import Mathlib.Tactic.Ring
import Mathlib.Algebra.BigOperators.Intervals
import Verif.Model.Modelutil
import Verif.Proofs.F64

/-! # C25: `IndexPerThread` -/

namespace Wego

theorem truncFloat_eq (k : Nat) (hk : k ≤ 2 ^ 53) : truncFloat k = k := by
  unfold truncFloat
  rw [F64.ofRat_eq, F64.round_nat k hk]
  show F64.toInt _ = _
  simp only [F64.toInt, Bool.false_eq_true, if_false]
  rw [Nat.mul_div_cancel _ one1_pos]
  have h2 : (2 : Nat) ^ 53 = 9007199254740992 := by norm_num
  have h3 : (2 : Int) ^ 63 = 9223372036854775808 := by norm_num
  rw [if_pos]
  rw [h3]; omega

/-- boundary number `i`: the sum of the sizes of the first `i` parts -/
def cut (t n : Nat) : Nat → Nat
  | 0 => 0
  | i + 1 => cut t n i + (n + (i + 1)) / t

theorem div_shift (t n : Nat) (ht : 0 < t) : (n + t) / t = n / t + 1 := by
  rw [Nat.add_div_right _ ht]

/-- Hermite's identity for `t` consecutive floors. -/
theorem cut_self (t n : Nat) (ht : 0 < t) : cut t n t = n + 1 + (n / t) - (n / t) := by
  have : ∀ n, cut t n t = n + 1 := by
    intro n
    induction n with
    | zero =>
      have h0 : ∀ i < t, cut t 0 i = 0 := by
        intro i
        induction i with
        | zero => intro _; rfl
        | succ i ih =>
          intro hi
          simp only [cut, ih (by omega)]
          rw [Nat.zero_add, Nat.zero_add, Nat.div_eq_of_lt hi]
      obtain ⟨k, rfl⟩ : ∃ k, t = k + 1 := ⟨t - 1, by omega⟩
      simp only [cut, h0 k (by omega), Nat.zero_add]
      rw [Nat.div_self (by omega)]
    | succ n ih =>
      have hs : ∀ i, cut t (n + 1) i + (n + 1) / t = cut t n i + (n + 1 + i) / t := by
        intro i
        induction i with
        | zero => simp [cut]
        | succ i ihi =>
          simp only [cut]
          have e : n + (i + 1) = n + 1 + i := by omega
          rw [e]
          have e2 : n + 1 + (i + 1) = n + 1 + i + 1 := by omega
          rw [e2]; omega
      have h1 := hs t
      rw [ih, div_shift t (n + 1) ht] at h1
      omega
  rw [this]; omega

theorem cut_pred (t n : Nat) (ht : 0 < t) : cut t n (t - 1) + n / t = n := by
  obtain ⟨k, rfl⟩ : ∃ k, t = k + 1 := ⟨t - 1, by omega⟩
  have h := cut_self (k + 1) n ht
  simp only [cut] at h
  rw [div_shift (k + 1) n ht] at h
  simp only [Nat.add_sub_cancel]
  omega

/-- The boundaries for `t` threads. -/
def cuts (t n : Nat) : List Int := (List.range t).map (fun i => (cut t n i : Int)) ++ [(n : Int)]

theorem indexPerThread_eq (t n : Nat) (ht : 0 < t) (hb : n + t ≤ 2 ^ 53) :
    indexPerThread (t : Int) n = .ok (cuts t n) := by
  unfold indexPerThread
  have h1 : ¬ ((t : Int) + 1 < 0) := by omega
  have h2 : ((t : Int) + 1).toNat = t + 1 := by omega
  simp only [h1, if_false, Int.toNat_natCast, h2]
  rw [setIdx_of_lt _ _ _ (by simp), Res.ok_bind, setIdx_of_lt _ _ _ (by simp), Res.ok_bind]
  obtain ⟨v, hv, hI⟩ := forFrom_inv
    (fun i (v : List Int) => v = (List.range i).map (fun j => (cut t n j : Int)) ++ List.replicate (t - i) 0 ++ [(n : Int)])
    1 (t - 1) ((((List.replicate (t + 1) (0 : Int)).set 0 0).set t (n : Int)))
    (fun i v => idx v (i - 1) >>= fun p => setIdx v i (p + truncFloat ((n + i) / t)))
    (by
      obtain ⟨k, rfl⟩ : ∃ k, t = k + 1 := ⟨t - 1, by omega⟩
      have e : List.replicate (k + 1 + 1) (0 : Int) = 0 :: (List.replicate k 0 ++ [0]) := by
        rw [List.replicate_succ, List.replicate_succ']
      rw [e]
      simp only [List.set_cons_zero, List.set_cons_succ, List.range_one, List.map_cons, List.map_nil, cut,
        Nat.add_sub_cancel]
      rw [List.set_append_right _ _ (by simp)]
      simp)
    (by
      intro i v h1 h2 hv
      subst hv
      have hidx : idx ((List.range i).map (fun j => (cut t n j : Int)) ++ List.replicate (t - i) 0 ++ [(n : Int)]) (i - 1)
          = .ok (cut t n (i - 1) : Int) := by
        rw [idx_eq_ok, List.append_assoc, List.getElem?_append_left (by simp; omega)]
        simp [show i - 1 < i by omega]
      rw [hidx, Res.ok_bind, setIdx_of_lt _ _ _ (by simp)]
      refine ⟨_, rfl, ?_⟩
      have htr : truncFloat ((n + i) / t) = (((n + i) / t : Nat) : Int) :=
        truncFloat_eq _ (le_trans (Nat.div_le_self _ _) (by omega))
      have hc : (cut t n (i - 1) : Int) + truncFloat ((n + i) / t) = (cut t n i : Int) := by
        rw [htr]
        obtain ⟨k, rfl⟩ : ∃ k, i = k + 1 := ⟨i - 1, by omega⟩
        simp [cut]
      rw [hc, List.append_assoc, List.set_append_right _ _ (by simp)]
      rw [List.range_succ, List.map_append, List.length_map, List.length_range, Nat.sub_self]
      obtain ⟨k, hk⟩ : ∃ k, t - i = k + 1 := ⟨t - i - 1, by omega⟩
      rw [hk, show t - (i + 1) = k by omega, List.replicate_succ]
      simp)
  rw [hv, hI]
  have : t - (1 + (t - 1)) = 0 := by omega
  rw [this, show 1 + (t - 1) = t by omega]
  simp [cuts]

theorem cut_mono (t n i : Nat) : cut t n i ≤ cut t n (i + 1) := by simp [cut]

theorem cut_le (t n : Nat) (ht : 0 < t) (i : Nat) (hi : i < t) : cut t n i ≤ n := by
  have h1 : ∀ j, i ≤ j → cut t n i ≤ cut t n j := by
    intro j hj
    induction j, hj using Nat.le_induction with
    | base => exact le_refl _
    | succ j _ ih => exact le_trans ih (cut_mono t n j)
  have h2 := h1 (t - 1) (by omega)
  have h3 := cut_pred t n ht
  exact le_trans h2 (le_trans (Nat.le_add_right _ _) (le_of_eq h3))

theorem cuts_getElem (t n i : Nat) (hi : i ≤ t) :
    (cuts t n)[i]? = some (if i < t then (cut t n i : Int) else (n : Int)) := by
  unfold cuts
  split
  · next h => rw [List.getElem?_append_left (by simpa using h)]; simp [h]
  · next h =>
    rw [List.getElem?_append_right (by simp; omega)]
    have : i = t := by omega
    simp [this]

end Wego

namespace Wego.Props
open Wego

/-- **C25.** `IndexPerThread(t, n)` for `t >= 1` has `t+1` entries, starts at 0, ends at `n`, and every
difference of neighbours is `n/t` or `n/t + 1` (so the entries do not decrease). -/
theorem C25_indexPerThread (t n : Nat) (ht : 0 < t) (hb : n + t ≤ 2 ^ 53) :
    ∃ v, indexPerThread (t : Int) n = .ok v ∧ v.length = t + 1 ∧
      v[0]? = some 0 ∧ v[t]? = some (n : Int) ∧
      ∀ i < t, ∃ a b : Nat, v[i]? = some (a : Int) ∧ v[i+1]? = some (b : Int) ∧
        (b = a + n / t ∨ b = a + (n / t + 1)) := by
  refine ⟨cuts t n, indexPerThread_eq t n ht hb, by simp [cuts], ?_, ?_, ?_⟩
  · rw [cuts_getElem t n 0 (by omega)]; simp [ht, cut]
  · rw [cuts_getElem t n t (le_refl _)]; simp
  · intro i hi
    refine ⟨cut t n i, if i + 1 < t then cut t n (i + 1) else n, ?_, ?_, ?_⟩
    · rw [cuts_getElem t n i (by omega)]; simp [hi]
    · rw [cuts_getElem t n (i + 1) (by omega)]; split <;> rfl
    · split
      · next h =>
        simp only [cut]
        have h1 : n / t ≤ (n + (i + 1)) / t := Nat.div_le_div_right (by omega)
        have h2 : (n + (i + 1)) / t ≤ n / t + 1 := by
          rw [← div_shift t n ht]; exact Nat.div_le_div_right (by omega)
        omega
      · next h =>
        left
        have := cut_pred t n ht
        rw [show t - 1 = i by omega] at this
        omega

/-- `C25_indexPerThread` for 3 threads and 10 elements. -/
example := C25_indexPerThread 3 10 (by decide) (by norm_num)

/-- **C25.** Slicing a sequence of length `n` at consecutive entries never panics, the slices
concatenate to the sequence, and every slice has `n/t` or `n/t + 1` elements. -/
theorem C25_slices_balanced {α : Type} (l : List α) (t : Nat) (ht : 0 < t) (hb : l.length + t ≤ 2 ^ 53) :
    ∃ v ps, indexPerThread (t : Int) l.length = .ok v ∧ parts l v t = .ok ps ∧
      ps.length = t ∧ ps.flatten = l ∧ ∀ d ∈ ps, d.length = l.length / t ∨ d.length = l.length / t + 1 := by
  set n := l.length with hn
  have hE : ∀ i ≤ t, ∃ e : Nat, (cuts t n)[i]? = some (e : Int) ∧ e ≤ n ∧ e = (if i < t then cut t n i else n) := by
    intro i hi
    refine ⟨_, ?_, ?_, rfl⟩
    · rw [cuts_getElem t n i hi]; split <;> rfl
    · split
      · next h => exact cut_le t n ht i h
      · exact le_refl _
  have hsz : ∀ i < t, ∀ a b : Nat, (cuts t n)[i]? = some (a : Int) → (cuts t n)[i+1]? = some (b : Int) → b = a + n / t ∨ b = a + (n / t + 1) := by
    intro i hi a b ha hb'
    obtain ⟨v, e, _, _, _, hv⟩ := C25_indexPerThread t n ht hb
    rw [indexPerThread_eq t n ht hb] at e
    obtain rfl := Res.ok.inj e
    obtain ⟨a', b', h1, h2, h3⟩ := hv i hi
    rw [ha] at h1; rw [hb'] at h2
    have e1 : a = a' := by exact_mod_cast Option.some.inj h1
    have e2 : b = b' := by exact_mod_cast Option.some.inj h2
    rw [e1, e2]; exact h3
  obtain ⟨ps, h1, h2, h3, h4⟩ := forN_inv
    (fun i (acc : List (List α)) => acc.length = i ∧
      acc.flatten = l.take (if i < t then cut t n i else n) ∧ ∀ d ∈ acc, d.length = n / t ∨ d.length = n / t + 1) t []
    (fun i acc =>
      idx (cuts t n) i >>= fun a => idx (cuts t n) (i + 1) >>= fun b =>
      if 0 ≤ a ∧ a ≤ b ∧ b ≤ l.length then .ok (acc ++ [(l.take b.toNat).drop a.toNat])
      else .panic .sliceBounds)
    (by simp [ht, cut])
    (by
      intro i acc hi ⟨hl, hf, hd⟩
      obtain ⟨a, ha, han, hae⟩ := hE i (by omega)
      obtain ⟨b, hb', hbn, hbe⟩ := hE (i + 1) (by omega)
      rw [idx_eq_ok.2 ha, Res.ok_bind, idx_eq_ok.2 hb', Res.ok_bind]
      have hab : a ≤ b := by
        rw [hae, hbe, if_pos hi]
        split
        · exact cut_mono t n i
        · exact cut_le t n ht i hi
      rw [if_pos ⟨by omega, by exact_mod_cast hab, by rw [← hn]; exact_mod_cast hbn⟩]
      refine ⟨_, rfl, by simp [hl], ?_, ?_⟩
      rotate_left
      · intro d hd'
        rcases List.mem_append.1 hd' with h | h
        · exact hd d h
        · rw [List.mem_singleton.1 h]
          have := hsz i hi a b ha hb'
          simp only [List.length_drop, List.length_take, Int.toNat_natCast]
          omega
      rw [← hae] at hf
      rw [← hbe, List.flatten_append, hf]
      simp only [List.flatten_cons, List.flatten_nil, List.append_nil, Int.toNat_natCast]
      have hta : l.take a = (l.take b).take a := by rw [List.take_take, Nat.min_eq_left hab]
      rw [hta, List.take_append_drop])
  refine ⟨cuts t n, ps, indexPerThread_eq t n ht hb, h1, h2, ?_, h4⟩
  rw [h3]; simp [hn]

/-- `C25_slices_balanced` for 3 threads and 7 elements. -/
example := C25_slices_balanced [1, 2, 3, 4, 5, 6, 7] 3 (by decide) (by norm_num)

/-- **C25.** Slicing a sequence of length `n` at consecutive entries never panics, and the slices
concatenate to the sequence. -/
theorem C25_slices_partition {α : Type} (l : List α) (t : Nat) (ht : 0 < t) (hb : l.length + t ≤ 2 ^ 53) :
    ∃ v ps, indexPerThread (t : Int) l.length = .ok v ∧ parts l v t = .ok ps ∧
      ps.length = t ∧ ps.flatten = l := by
  obtain ⟨v, ps, h1, h2, h3, h4, _⟩ := C25_slices_balanced l t ht hb
  exact ⟨v, ps, h1, h2, h3, h4⟩

/-- `C25_slices_partition` for more threads than elements. -/
example := C25_slices_partition [1, 2] 5 (by decide) (by norm_num)

/-- For `Goroutines(0)` the result is the single entry `n`, so no part is trained (used by C38). -/
theorem indexPerThread_zero (n : Nat) : indexPerThread 0 n = .ok [(n : Int)] := by
  simp [indexPerThread, setIdx, forFrom]

example : indexPerThread 3 10 = .ok [0, 3, 7, 10] := by decide +kernel

end Wego.Props
