import Verif.Props.SaveLoad
import Mathlib.Data.List.TakeWhile

/-! # C52: which fields of a vector file are numbers, and what they are read as -/

namespace Wego.Props
open Wego Wego.Spec

theorem isDig_iff (c : Char) : isDig c = true ↔ '0'.toNat ≤ c.toNat ∧ c.toNat ≤ '9'.toNat := by
  unfold isDig
  rw [Bool.and_eq_true, decide_eq_true_eq, decide_eq_true_eq]
  exact Iff.rfl

theorem allDigits_iff (l : List Char) : AllDigits l ↔ ∀ c ∈ l, isDig c = true := by
  unfold AllDigits
  exact forall₂_congr fun c _ => (isDig_iff c).symm

theorem takeWhile_dig {ip r : List Char} (h : AllDigits ip) (hr : ∀ c, r.head? = some c → isDig c = false) :
    (ip ++ r).takeWhile isDig = ip ∧ (ip ++ r).dropWhile isDig = r := by
  rw [allDigits_iff] at h
  induction ip with
  | nil =>
    cases r with
    | nil => simp
    | cons c r => simp [hr c rfl]
  | cons c ip ih =>
    have h1 := h c (by simp)
    obtain ⟨a, b⟩ := ih (fun x hx => h x (by simp [hx]))
    simp [h1, a, b]

/-- The exact language and value of `parsePlain`. -/
theorem parsePlain_iff (w : List Char) (s : Bool) (m k : Nat) :
    parsePlain w = some (s, m, k) ↔
      ∃ sign ip fp : List Char, ((sign = [] ∧ s = false) ∨ (sign = ['+'] ∧ s = false) ∨ (sign = ['-'] ∧ s = true)) ∧
        AllDigits ip ∧ AllDigits fp ∧ ip ++ fp ≠ [] ∧ ((w = sign ++ ip ∧ fp = []) ∨ w = sign ++ ip ++ '.' :: fp) ∧
        m = digitsValue (ip ++ fp) ∧ k = fp.length := by
  constructor
  · intro h
    obtain ⟨sign, hsign, hw⟩ : ∃ sign, ((sign = [] ∧ (splitSign w).1 = false) ∨ (sign = ['+'] ∧ (splitSign w).1 = false) ∨
        (sign = ['-'] ∧ (splitSign w).1 = true)) ∧ w = sign ++ (splitSign w).2 := by
      unfold splitSign
      split
      · exact ⟨['-'], by simp, rfl⟩
      · exact ⟨['+'], by simp, rfl⟩
      · exact ⟨[], by simp, rfl⟩
    unfold parsePlain at h
    set r := (splitSign w).2 with hr
    have hsplit : r = r.takeWhile isDig ++ r.dropWhile isDig := (List.takeWhile_append_dropWhile).symm
    have hd : AllDigits (r.takeWhile isDig) := by
      rw [allDigits_iff]; exact fun c hc => List.mem_takeWhile_imp hc
    rcases hs : splitSign w with ⟨s', r'⟩
    rw [hs] at h hsign hr
    dsimp only at h hsign hr
    rw [← hr] at h
    split at h
    · next hdrop =>
      split at h
      · cases h
      · next hne =>
        simp only [Option.some.injEq, Prod.mk.injEq] at h
        obtain ⟨rfl, rfl, rfl⟩ := h
        refine ⟨sign, r.takeWhile isDig, [], hsign, hd, by intro c hc; simp at hc, by simpa using hne, Or.inl ⟨?_, rfl⟩, ?_, rfl⟩
        · rw [hdrop, List.append_nil] at hsplit
          rw [← hsplit]; exact hw
        · rw [List.append_nil, digitsValue_eq]
    · next fp hdrop =>
      split at h
      · next hc =>
        rw [Bool.and_eq_true, List.all_eq_true] at hc
        simp only [Option.some.injEq, Prod.mk.injEq] at h
        obtain ⟨rfl, rfl, rfl⟩ := h
        refine ⟨sign, r.takeWhile isDig, fp, hsign, hd, (allDigits_iff _).2 hc.1, ?_, Or.inr ?_, ?_, rfl⟩
        · intro h0; rw [h0] at hc; simp at hc
        · rw [hdrop] at hsplit
          rw [List.append_assoc, ← hsplit]; exact hw
        · rw [digitsValue_eq]
      · cases h
    · cases h
  · rintro ⟨sign, ip, fp, hsign, hip, hfp, hne, hw, rfl, rfl⟩
    have hdot : ∀ c, ('.' :: fp).head? = some c → isDig c = false := by
      intro c hc; simp only [List.head?_cons, Option.some.injEq] at hc; subst hc; decide
    have hr : ∃ r, w = sign ++ r ∧ (r.head? ≠ some '-' ∧ r.head? ≠ some '+') ∧ r.takeWhile isDig = ip ∧
        ((r.dropWhile isDig = [] ∧ fp = []) ∨ r.dropWhile isDig = '.' :: fp) := by
      have hhead : ∀ t, t = ip ∨ t = ip ++ '.' :: fp → t.head? ≠ some '-' ∧ t.head? ≠ some '+' := by
        intro t ht
        cases ip with
        | nil => rcases ht with rfl | rfl <;> simp
        | cons c ip =>
          have hc := hip c (by simp)
          have : t.head? = some c := by rcases ht with rfl | rfl <;> simp
          rw [this]
          constructor <;> (intro h; simp only [Option.some.injEq] at h; subst h; revert hc; decide)
      rcases hw with ⟨rfl, rfl⟩ | rfl
      · refine ⟨ip, rfl, hhead ip (Or.inl rfl), ?_⟩
        have := takeWhile_dig (r := []) hip (by simp)
        rw [List.append_nil] at this
        exact ⟨this.1, Or.inl ⟨this.2, rfl⟩⟩
      · refine ⟨ip ++ '.' :: fp, by simp, hhead _ (Or.inr rfl), ?_⟩
        have := takeWhile_dig hip hdot
        exact ⟨this.1, Or.inr this.2⟩
    obtain ⟨r, hwr, ⟨hm, hp⟩, htake, hdrop⟩ := hr
    have hs : splitSign w = (s, r) := by
      rw [hwr]
      rcases hsign with ⟨rfl, rfl⟩ | ⟨rfl, rfl⟩ | ⟨rfl, rfl⟩
      · rw [List.nil_append]
        unfold splitSign
        split
        · simp at hm
        · simp at hp
        · rfl
      · rfl
      · rfl
    unfold parsePlain
    rw [hs]
    dsimp only
    rw [htake]
    rw [allDigits_iff] at hfp
    rcases hdrop with ⟨hdrop, rfl⟩ | hdrop
    · rw [hdrop]
      rw [List.append_nil] at hne ⊢
      show (if ip = [] then none else some (s, decVal ip, 0)) = _
      rw [if_neg hne, digitsValue_eq]; rfl
    · rw [hdrop]
      show (if (fp.all isDig && !(ip ++ fp).isEmpty) = true then some (s, decVal (ip ++ fp), fp.length) else none) = _
      rw [if_pos, digitsValue_eq]
      rw [Bool.and_eq_true, List.all_eq_true]
      refine ⟨hfp, ?_⟩
      cases h : ip ++ fp with
      | nil => exact absurd h hne
      | cons a l => rfl

theorem isPlain_iff (w : List Char) (s : Bool) (q : ℚ) :
    IsPlainNumber w s q ↔ ∃ m k, parsePlain w = some (s, m, k) ∧ q = (m : ℚ) / 10 ^ k := by
  constructor
  · rintro ⟨sign, ip, fp, h1, h2, h3, h4, h5, h6⟩
    exact ⟨_, _, (parsePlain_iff w s _ _).2 ⟨sign, ip, fp, h1, h2, h3, h4, h5, rfl, rfl⟩, h6⟩
  · rintro ⟨m, k, h, hq⟩
    obtain ⟨sign, ip, fp, h1, h2, h3, h4, h5, rfl, rfl⟩ := (parsePlain_iff w s m k).1 h
    exact ⟨sign, ip, fp, h1, h2, h3, h4, h5, hq⟩

/-- the three special values as they are written to files -/
def IsSpecial (w : List Char) : Prop := w = ['N', 'a', 'N'] ∨ w = ['+', 'I', 'n', 'f'] ∨ w = ['-', 'I', 'n', 'f']

theorem plain_not_special {w : List Char} (h : IsSpecial w) : parsePlain w = none := by
  rcases h with rfl | rfl | rfl <;> decide

/-- **C52 (plain numbers).** A field that is a plain decimal number with absolute value `q` is read as a double with its
sign whose absolute value is nearest to `q` - or refused, and then `q` is above every finite double. -/
theorem C52_plain_number (other : Word → Option F64) (w : Word) (s : Bool) (q : ℚ) (hw : IsPlainNumber w s q) :
    (∃ n h, parseFloat other w = some (.fin s n h) ∧
      ∀ s' n' h', |(|F64.toRat (.fin s n h)| - q)| ≤ |(|F64.toRat (.fin s' n' h')| - q)|) ∨
    (parseFloat other w = none ∧ ∀ s' n' h', |F64.toRat (.fin s' n' h')| < q) := by
  obtain ⟨m, k, hp, rfl⟩ := (isPlain_iff w s q).1 hw
  have hns : ¬ IsSpecial w := fun h => by rw [plain_not_special h] at hp; cases hp
  unfold IsSpecial at hns
  push Not at hns
  have he : parseFloat other w = if h : IsRep (roundMag (m * one1) (10 ^ k)) then
      some (.fin s (roundMag (m * one1) (10 ^ k)) h) else none := by
    unfold parseFloat
    rw [if_neg hns.1, if_neg hns.2.1, if_neg hns.2.2, hp]
  have hO : (0 : ℚ) < (one1 : ℚ) := by
    have : 0 < one1 := by unfold one1; exact Nat.pow_pos (by decide)
    exact_mod_cast this
  have hK : (0 : ℚ) < (10 : ℚ) ^ k := by positivity
  have habs : ∀ s n h, |F64.toRat (.fin s n h)| = (n : ℚ) / (one1 : ℚ) := by
    intro s n h
    unfold F64.toRat
    rw [abs_mul, abs_of_nonneg (show (0 : ℚ) ≤ (n : ℚ) / (one1 : ℚ) by positivity)]
    cases s <;> simp
  have hnear : ∀ n', ulp n' ∣ n' → |(roundMag (m * one1) (10 ^ k) : ℚ) / one1 - (m : ℚ) / 10 ^ k| ≤
      |(n' : ℚ) / one1 - (m : ℚ) / 10 ^ k| := by
    intro n' hn'
    have h1 := roundMag_nearest (m * one1) (10 ^ k) n' (by positivity) hn'
    have h2 : |(roundMag (m * one1) (10 ^ k) : ℚ) * 10 ^ k - m * one1| ≤ |(n' : ℚ) * 10 ^ k - m * one1| := by
      exact_mod_cast h1
    have key : ∀ x : ℚ, |x / one1 - (m : ℚ) / 10 ^ k| = |x * 10 ^ k - m * one1| / (one1 * 10 ^ k) := by
      intro x
      rw [eq_div_iff (by positivity), ← abs_of_pos (mul_pos hO hK), ← abs_mul]
      congr 1
      field_simp
    rw [key, key]
    exact div_le_div_of_nonneg_right h2 (by positivity)
  by_cases hrep : IsRep (roundMag (m * one1) (10 ^ k))
  · left
    refine ⟨_, hrep, by rw [he, dif_pos hrep], ?_⟩
    intro s' n' h'
    rw [habs, habs]
    exact hnear n' h'.1
  · right
    refine ⟨by rw [he, dif_neg hrep], ?_⟩
    intro s' n' h'
    rw [habs]
    have hbig : ovf ≤ roundMag (m * one1) (10 ^ k) := by
      by_contra hc
      exact hrep ⟨ulp_dvd_roundMag _ _, by omega⟩
    have hlt : n' < roundMag (m * one1) (10 ^ k) := lt_of_lt_of_le h'.2 hbig
    by_contra hc
    push Not at hc
    have h1 := hnear n' h'.1
    have h2 : (n' : ℚ) / one1 < (roundMag (m * one1) (10 ^ k) : ℚ) / one1 :=
      div_lt_div_of_pos_right (by exact_mod_cast hlt) hO
    rw [abs_of_nonneg (by linarith), abs_of_nonneg (by linarith)] at h1
    linarith

/-- `C52_plain_number` on `-0.5`. -/
example := C52_plain_number (fun _ => none) ['-', '0', '.', '5'] true (1 / 2) ((isPlain_iff _ _ _).2 ⟨5, 1, by decide, by norm_num⟩)

/-- **C52 (everything else).** A field that is neither a plain decimal number nor `NaN`, `+Inf`, `-Inf` is read only if it is one of
the other spellings `strconv.ParseFloat` knows (`other`); if it is not, any file with it in a line does not load. In
particular a field without any digit. -/
theorem C52_not_a_number (other : Word → Option F64) (w : Word) (hw : ∀ s q, ¬ IsPlainNumber w s q) (hs : ¬ IsSpecial w)
    (ho : other w = none) :
    parseFloat other w = none ∧
    ∀ (p : Pass) (lines : List (List Char)), RawLines p.text lines → ∀ l ∈ lines, (stripCR l).head? ≠ some ' ' →
      ∀ ws : List Word, IsWords (stripCR l) ws → w ∈ ws.tail → ∃ e, load other p = .err e := by
  have hp : parsePlain w = none := by
    cases h : parsePlain w with
    | none => rfl
    | some t =>
      obtain ⟨s, m, k⟩ := t
      exact absurd ((isPlain_iff w s _).2 ⟨m, k, h, rfl⟩) (hw s _)
  have hf : parseFloat other w = none := by
    unfold IsSpecial at hs
    push Not at hs
    unfold parseFloat
    rw [if_neg hs.1, if_neg hs.2.1, if_neg hs.2.2, hp]
    exact ho
  exact ⟨hf, fun p lines hr l hl hsp ws hws hm => C52_bad_line other p lines hr l hl hsp ws hws (Or.inr ⟨w, hm, hf⟩)⟩

/-- a number needs a digit -/
theorem C52_needs_digit (w : Word) (h : ∀ c ∈ w, ¬ ('0'.toNat ≤ c.toNat ∧ c.toNat ≤ '9'.toNat)) : ∀ s q, ¬ IsPlainNumber w s q := by
  rintro s q ⟨sign, ip, fp, -, h2, h3, h4, h5, -⟩
  have hmem : ∀ c ∈ ip ++ fp, c ∈ w := by
    intro c hc
    rcases h5 with ⟨rfl, rfl⟩ | rfl
    · simp at hc; simp [hc]
    · simp only [List.mem_append] at hc
      simp only [List.mem_append, List.mem_cons]
      tauto
  obtain ⟨c, hc⟩ := List.exists_mem_of_ne_nil _ h4
  have := h c (hmem c hc)
  rcases List.mem_append.1 hc with hc | hc
  · exact this (h2 c hc)
  · exact this (h3 c hc)

/-- `C52_not_a_number` on `x`: the file `a x` cannot be loaded. -/
example : ∃ e, load (fun _ => none) ⟨"a x".toList, false⟩ = .err e :=
  (C52_not_a_number (fun _ => none) ['x'] (C52_needs_digit _ (by decide)) (by unfold IsSpecial; decide) rfl).2 _ ["a x".toList]
    (.last _ (by decide) (by decide)) "a x".toList (by decide) (by decide) [['a'], ['x']] (isWords_fields _) (by decide)

/-- `-0.5` is a plain number; `-` and `abc` are not numbers. -/
example : IsPlainNumber ['-', '0', '.', '5'] true (1 / 2) ∧ (∀ s q, ¬ IsPlainNumber ['-'] s q) ∧ ¬ IsSpecial ['-'] ∧
    (∀ s q, ¬ IsPlainNumber ['a', 'b', 'c'] s q) := by
  refine ⟨(isPlain_iff _ _ _).2 ⟨5, 1, by decide, by norm_num⟩, C52_needs_digit _ (by decide), ?_, C52_needs_digit _ (by decide)⟩
  unfold IsSpecial; decide

end Wego.Props
