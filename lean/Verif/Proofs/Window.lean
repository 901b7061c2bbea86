import Mathlib.Data.List.Sort
import Mathlib.Tactic.Linarith
import Verif.Model.Word2vec
import Verif.Spec.Window

/-! The window loop visits exactly `contextPositions`. -/

namespace Wego
variable {σ : Type}

theorem forFrom_filter_map (P : Nat → Bool) (g : Nat → Nat) (body : Nat → σ → Res σ) (n : Nat) :
    ∀ (lo : Nat) (s : σ), forFrom lo n s (fun i s => if P i = true then body (g i) s else .ok s) =
      forEach (((List.range' lo n).filter P).map g) s body := by
  induction n with
  | zero => intro lo s; rfl
  | succ n ih =>
    intro lo s
    rw [forFrom_succ, List.range'_succ, List.filter_cons]
    by_cases h : P lo = true
    · simp only [h, if_true, List.map_cons, forEach_cons]
      congr 1
      funext s'
      exact ih (lo + 1) s'
    · simp only [h, if_false, Res.ok_bind]
      exact ih (lo + 1) s

theorem windowLoop_eq (window del : Int) (pos len : Nat) (s : σ) (body : Nat → σ → Res σ)
    (h0 : 0 ≤ del) (h1 : del < window) :
    windowLoop window del pos len s body = forEach (Spec.contextPositions (window - del) pos len) s body := by
  have e : windowLoop window del pos len s body =
      forFrom 0 (window * 2 + 1 - del - del).toNat s (fun n s =>
        if decide (del + (n : Int) ≠ window ∧ 0 ≤ (pos : Int) - window + (del + n) ∧ (pos : Int) - window + (del + n) < len) = true
        then body ((pos : Int) - window + (del + n)).toNat s else .ok s) := by
    unfold windowLoop forN
    congr 1
    funext n s
    dsimp only
    by_cases ha : del + (n : Int) = window
    · simp [ha]
    · by_cases hc : (pos : Int) - window + (del + n) < 0 ∨ (pos : Int) - window + (del + n) ≥ len
      · rw [if_neg ha, if_pos hc, if_neg (by simp only [decide_eq_true_eq]; omega)]
      · rw [if_neg ha, if_neg hc, if_pos (by simp only [decide_eq_true_eq]; omega)]
  rw [e, forFrom_filter_map (fun n => decide (del + (n : Int) ≠ window ∧ 0 ≤ (pos : Int) - window + (del + n) ∧ (pos : Int) - window + (del + n) < len))
    (fun n => ((pos : Int) - window + (del + n)).toNat) body]
  congr 1
  have s1 : List.Pairwise (· < ·) (Spec.contextPositions (window - del) pos len) :=
    List.Pairwise.filter _ List.pairwise_lt_range
  refine List.Pairwise.eq_of_mem_iff ?_ s1 ?_
  · rw [List.pairwise_map]
    refine List.Pairwise.imp_of_mem ?_ (List.Pairwise.filter _ List.pairwise_lt_range')
    intro a b ha hb hab
    simp only [List.mem_filter, decide_eq_true_eq] at ha hb
    omega
  · intro c
    simp only [List.mem_map, List.mem_filter, List.mem_range'_1, decide_eq_true_eq, Spec.contextPositions, List.mem_range]
    constructor
    · rintro ⟨a, ⟨ha, hb⟩, rfl⟩
      refine ⟨by omega, by omega, ?_⟩
      rw [abs_le]; omega
    · rintro ⟨hc, hne, hab⟩
      rw [abs_le] at hab
      exact ⟨((c : Int) - pos + window - del).toNat, by omega, by omega⟩

end Wego
