import Mathlib.Data.List.Forall2
import Verif.Model.Vector
import Verif.Spec.SavedFile
import Verif.Proofs.F64Nearest
import Verif.Proofs.F64Sqrt
import Verif.Proofs.Dictionary
import Verif.Proofs.MatVal
import Verif.Proofs.Text

/-! Formatting and parsing of saved vectors. -/

namespace Wego
open Spec

/-! ### digits -/

theorem digitChar_toNat {d : Nat} (h : d < 10) : (digitChar d).toNat = 48 + d := by
  unfold digitChar
  match d, h with
  | 0, _ | 1, _ | 2, _ | 3, _ | 4, _ | 5, _ | 6, _ | 7, _ | 8, _ | 9, _ => rfl

theorem isDig_digitChar {d : Nat} (h : d < 10) : isDig (digitChar d) = true := by
  simp [isDig, digitChar_toNat h]; omega

theorem decVal_concat (l : List Char) (c : Char) : decVal (l ++ [c]) = decVal l * 10 + (c.toNat - 48) := by
  simp [decVal]

theorem decVal_append (l l' : List Char) : decVal (l ++ l') = decVal l * 10 ^ l'.length + decVal l' := by
  induction l' using List.reverseRecOn with
  | nil => simp [decVal]
  | append_singleton l' c ih =>
    rw [← List.append_assoc, decVal_concat, ih, decVal_concat]
    simp only [List.length_append, List.length_singleton, Nat.pow_succ]
    ring

theorem decVal_cons (c : Char) (l : List Char) : decVal (c :: l) = (c.toNat - 48) * 10 ^ l.length + decVal l := by
  have := decVal_append [c] l
  simpa [decVal] using this

theorem digitsValue_eq (l : List Char) : digitsValue l = decVal l := by
  induction l with
  | nil => simp [digitsValue, decVal]
  | cons c l ih => rw [digitsValue, decVal_cons, ih]; rfl

theorem natDigits_spec (n : Nat) : (∀ c ∈ natDigits n, isDig c = true) ∧ decVal (natDigits n) = n ∧
    natDigits n ≠ [] ∧ ((natDigits n).head? = some '0' → natDigits n = ['0']) := by
  induction n using Nat.strongRecOn with
  | _ n ih =>
    rw [natDigits.eq_def]
    by_cases h : n < 10
    · rw [if_pos h]
      refine ⟨by simpa using isDig_digitChar h, by simp [decVal, digitChar_toNat h], by simp, ?_⟩
      intro h0; simpa using h0
    · rw [if_neg h]
      obtain ⟨h1, h2, h3, h4⟩ := ih (n / 10) (by omega)
      refine ⟨?_, ?_, by simp, ?_⟩
      · intro c hc
        simp only [List.mem_append, List.mem_singleton] at hc
        rcases hc with hc | hc
        · exact h1 c hc
        · subst hc; exact isDig_digitChar (by omega)
      · rw [decVal_concat, h2, digitChar_toNat (by omega)]; omega
      · intro h0
        exfalso
        have hh : (natDigits (n / 10) ++ [digitChar (n % 10)]).head? = (natDigits (n / 10)).head? := by
          cases e : natDigits (n / 10) with
          | nil => exact absurd e h3
          | cons a l => simp
        rw [hh] at h0
        have := h4 h0
        rw [this] at h2
        simp [decVal] at h2
        omega

theorem fixDigits_spec (k n : Nat) : (∀ c ∈ fixDigits k n, isDig c = true) ∧ (fixDigits k n).length = k ∧
    decVal (fixDigits k n) = n % 10 ^ k := by
  induction k generalizing n with
  | zero => simp [fixDigits, decVal, Nat.mod_one]
  | succ k ih =>
    obtain ⟨h1, h2, h3⟩ := ih (n / 10)
    refine ⟨?_, by simp [fixDigits, h2], ?_⟩
    · intro c hc
      simp only [fixDigits, List.mem_append, List.mem_singleton] at hc
      rcases hc with hc | hc
      · exact h1 c hc
      · subst hc; exact isDig_digitChar (by omega)
    · rw [fixDigits, decVal_concat, h3, digitChar_toNat (by omega)]
      have := Nat.mod_mul (x := n) (a := 10) (b := 10 ^ k)
      rw [Nat.pow_succ, Nat.mul_comm (10 ^ k) 10, this]
      omega

theorem takeWhile_digits (l r : List Char) (h : ∀ c ∈ l, isDig c = true) :
    (l ++ '.' :: r).takeWhile isDig = l ∧ (l ++ '.' :: r).dropWhile isDig = '.' :: r := by
  induction l with
  | nil => simp [List.takeWhile, List.dropWhile, isDig]
  | cons a l ih =>
    have ha := h a (by simp)
    obtain ⟨h1, h2⟩ := ih (fun c hc => h c (by simp [hc]))
    exact ⟨by simp [List.takeWhile, ha, h1], by simp [List.dropWhile, ha, h2]⟩

theorem isDig_ne (c : Char) (h : isDig c = true) : c ≠ '-' ∧ c ≠ '+' ∧ c ≠ 'N' ∧ isSpace c = false := by
  simp only [isDig, Bool.and_eq_true, decide_eq_true_eq] at h
  refine ⟨?_, ?_, ?_, ?_⟩
  · rintro rfl; simp at h
  · rintro rfl; simp at h
  · rintro rfl; simp at h
  · unfold isSpace; simp; omega

/-- Parsing the printed six decimals gives the sign, the number of millionths and six decimals. -/
theorem parsePlain_sixDec (s : Bool) (N : Nat) :
    parsePlain ((if s then ['-'] else []) ++ sixDec N) = some (s, N, 6) := by
  obtain ⟨a1, a2, a3, a4⟩ := natDigits_spec (N / 1000000)
  obtain ⟨b1, b2, b3⟩ := fixDigits_spec 6 N
  have hs : splitSign ((if s then ['-'] else []) ++ sixDec N) = (s, sixDec N) := by
    cases s with
    | true => simp [splitSign]
    | false =>
      unfold sixDec
      cases e : natDigits (N / 1000000) with
      | nil => exact absurd e a3
      | cons c l =>
        have hc := isDig_ne c (a1 c (by simp [e]))
        simp only [Bool.false_eq_true, if_false, List.nil_append, List.cons_append]
        unfold splitSign
        split
        · next h => simp at h; exact absurd h.1 hc.1
        · next h => simp at h; exact absurd h.1 hc.2.1
        · rfl
  rw [parsePlain, hs]
  clear hs
  unfold sixDec
  obtain ⟨t1, t2⟩ := takeWhile_digits (natDigits (N / 1000000)) (fixDigits 6 N) a1
  have e6 : N / 1000000 * 10 ^ 6 + N % 10 ^ 6 = N := by norm_num; omega
  generalize natDigits (N / 1000000) = ip at *
  generalize fixDigits 6 N = fp at *
  generalize N / 1000000 = q at *
  generalize N % 10 ^ 6 = r at *
  dsimp only
  rw [t1, t2]
  have hall : fp.all isDig = true := by simpa using b1
  have hne : (ip ++ fp).isEmpty = false := by
    cases e : ip with
    | nil => exact absurd e a3
    | cons c l => simp
  simp only [hall, hne, Bool.not_false, Bool.and_self, if_true]
  rw [decVal_append, a2, b2, b3, e6]

/-! ### values -/

/-- What reading back the printed value gives. -/
def readBack : F64 → F64
  | .nan => .nan
  | .inf s => .inf s
  | .fin s n h => .fin s (roundMag (rne (n * 1000000) one1 * one1) 1000000) (six_rep n h)

theorem sixDec_head (N : Nat) : ∃ c l, sixDec N = c :: l ∧ isDig c = true := by
  obtain ⟨a1, a2, a3, a4⟩ := natDigits_spec (N / 1000000)
  unfold sixDec
  cases e : natDigits (N / 1000000) with
  | nil => exact absurd e a3
  | cons c l => exact ⟨c, _, rfl, a1 c (by simp [e])⟩

theorem parseFloat_fmtF (other : Word → Option F64) (x : F64) : parseFloat other (fmtF x) = some (readBack x) := by
  cases x with
  | nan => simp [parseFloat, fmtF, readBack]
  | inf s => cases s <;> simp [parseFloat, fmtF, readBack]
  | fin s n h =>
    have hp := parsePlain_sixDec s (rne (n * 1000000) one1)
    obtain ⟨c, l, e, hc⟩ := sixDec_head (rne (n * 1000000) one1)
    have hne := isDig_ne c hc
    have hcI : c ≠ 'I' := by rintro rfl; simp [isDig] at hc
    unfold parseFloat fmtF
    rw [hp]
    have n1 : ((if s then ['-'] else []) ++ sixDec (rne (n * 1000000) one1)) ≠ ['N', 'a', 'N'] := by
      rw [e]; cases s <;> simp [hne.2.2.1]
    have n2 : ((if s then ['-'] else []) ++ sixDec (rne (n * 1000000) one1)) ≠ ['+', 'I', 'n', 'f'] := by
      rw [e]; cases s <;> simp [hne.2.1]
    have n3 : ((if s then ['-'] else []) ++ sixDec (rne (n * 1000000) one1)) ≠ ['-', 'I', 'n', 'f'] := by
      rw [e]; cases s <;> simp [hne.1, hcI]
    rw [if_neg n1, if_neg n2, if_neg n3]
    dsimp only
    have e6 : (10 : Nat) ^ 6 = 1000000 := by norm_num
    rw [dif_pos (by rw [e6]; exact six_rep n h)]
    simp only [readBack, e6]

theorem fmtF_readBack (x : F64) : fmtF (readBack x) = fmtF x := by
  cases x with
  | nan => rfl
  | inf s => rfl
  | fin s n h => simp only [readBack, fmtF, six_stable n h.1]

theorem toRat_abs (s : Bool) (n : Nat) (h : IsRep n) : |F64.toRat (.fin s n h)| = (n : ℚ) / one1 :=
  F64.abs_toRat_fin s n h

theorem rne_tie (a b : Nat) (hb : 0 < b) (h : 2 * |(rne a b : ℤ) * b - a| = b) : rne a b % 2 = 0 := by
  have hd := Nat.div_add_mod a b
  have hr := Nat.mod_lt a hb
  revert h
  unfold rne; dsimp only
  set q := a / b
  set r := a % b
  have ha : (a : ℤ) = b * q + r := by exact_mod_cast hd.symm
  have hb' : (0 : ℤ) < b := by exact_mod_cast hb
  split
  · next h1 =>
    intro h
    exfalso
    rw [ha, show (q : ℤ) * b - (b * q + r) = -(r : ℤ) by ring, abs_neg, abs_of_nonneg (by positivity)] at h
    omega
  · split
    · next h1 h2 =>
      intro h
      exfalso
      push_cast at h
      rw [ha, show ((q : ℤ) + 1) * b - (b * q + r) = b - r by ring, abs_of_nonneg (by omega)] at h
      omega
    · intro _; omega

theorem rne_nearestMillionth (n : Nat) : NearestMillionth ((n : ℚ) / one1) (rne (n * 1000000) one1) := by
  have h := rne_abs (n * 1000000) one1 one1_pos
  have ht := rne_tie (n * 1000000) one1 one1_pos
  have hp : (0 : ℚ) < one1 := by exact_mod_cast one1_pos
  generalize rne (n * 1000000) one1 = N at *
  have e : |(N : ℚ) / 10 ^ 6 - (n : ℚ) / one1| = ((|(N : ℤ) * one1 - (n * 1000000 : ℕ)| : ℤ) : ℚ) / (10 ^ 6 * one1) := by
    push_cast
    rw [show (N : ℚ) / 10 ^ 6 - (n : ℚ) / one1 = ((N : ℚ) * one1 - n * 1000000) / (10 ^ 6 * one1) by field_simp; ring,
      abs_div, abs_of_pos (show (0 : ℚ) < 10 ^ 6 * one1 by positivity)]
  generalize |(N : ℤ) * one1 - (n * 1000000 : ℕ)| = D at *
  constructor
  · rw [e]
    have h' : (2 * D : ℚ) ≤ one1 := by exact_mod_cast h
    rw [div_le_iff₀ (by positivity)]
    have : 1 / 2 / 10 ^ 6 * (10 ^ 6 * (one1 : ℚ)) = one1 / 2 := by field_simp
    rw [this]; linarith
  · intro h2
    apply ht
    rw [e, div_eq_iff (by positivity)] at h2
    have : 1 / 2 / 10 ^ 6 * (10 ^ 6 * (one1 : ℚ)) = one1 / 2 := by field_simp
    rw [this] at h2
    have h3 : (2 * D : ℚ) = one1 := by linarith
    exact_mod_cast h3

theorem isDig_iff (c : Char) : isDig c = true ↔ '0'.toNat ≤ c.toNat ∧ c.toNat ≤ '9'.toNat := by
  simp [isDig]

theorem fmtF_isSixDecimals (x : F64) : IsSixDecimals x (fmtF x) := by
  cases x with
  | nan => rfl
  | inf s => cases s <;> rfl
  | fin s n h =>
    obtain ⟨a1, a2, a3, a4⟩ := natDigits_spec (rne (n * 1000000) one1 / 1000000)
    obtain ⟨b1, b2, b3⟩ := fixDigits_spec 6 (rne (n * 1000000) one1)
    refine ⟨_, _, ?_, fun c hc => (isDig_iff c).1 (a1 c hc), fun c hc => (isDig_iff c).1 (b1 c hc), b2, a3, a4, ?_⟩
    · simp [fmtF, sixDec]
    · rw [toRat_abs, digitsValue_eq, decVal_append, a2, b2, b3]
      have : rne (n * 1000000) one1 / 1000000 * 10 ^ 6 + rne (n * 1000000) one1 % 10 ^ 6 = rne (n * 1000000) one1 := by
        norm_num; omega
      rw [this]
      exact rne_nearestMillionth n

theorem readBack_spec (x : F64) : ReadsBack x (readBack x) := by
  cases x with
  | nan => rfl
  | inf s => rfl
  | fin s n h =>
    refine ⟨_, six_rep n h, rne (n * 1000000) one1, rfl, ?_, ?_⟩
    · rw [toRat_abs]; exact rne_nearestMillionth n
    · intro m' k'
      simp only [readBack, toRat_abs]
      have hn := roundMag_nearest (rne (n * 1000000) one1 * one1) 1000000 m' (by norm_num) k'.1
      generalize rne (n * 1000000) one1 = N at *
      generalize roundMag (N * one1) 1000000 = m at *
      have hp : (0 : ℚ) < one1 := by exact_mod_cast one1_pos
      have e : ∀ k : Nat, |(k : ℚ) / one1 - (N : ℚ) / 10 ^ 6| =
          ((|(k : ℤ) * (1000000 : ℕ) - (N * one1 : ℕ)| : ℤ) : ℚ) / (10 ^ 6 * one1) := by
        intro k
        push_cast
        rw [show (k : ℚ) / one1 - (N : ℚ) / 10 ^ 6 = ((k : ℚ) * 1000000 - N * one1) / (10 ^ 6 * one1) by
          field_simp; ring, abs_div, abs_of_pos (show (0 : ℚ) < 10 ^ 6 * one1 by positivity)]
      rw [e, e]
      apply div_le_div_of_nonneg_right _ (by positivity)
      exact_mod_cast hn

end Wego
