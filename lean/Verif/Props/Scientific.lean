import Verif.Props.ParseNumber
import Verif.Model.ParseFloat

/-! # C52: numbers with an exponent, and the spellings of the special values -/

namespace Wego.Props
open Wego Wego.Spec

/-- `w` is a decimal number with an exponent, such as `-1.5e-07`, with sign bit `s` and absolute value `q`: a plain number, `e`
or `E`, an optional sign, digits. -/
def IsSciNumber (w : List Char) (s : Bool) (q : ℚ) : Prop :=
  ∃ (man ex ds : List Char) (c : Char) (q₀ : ℚ), w = man ++ c :: (ex ++ ds) ∧ IsPlainNumber man s q₀ ∧ (c = 'e' ∨ c = 'E') ∧
    AllDigits ds ∧ ds ≠ [] ∧
    (((ex = [] ∨ ex = ['+']) ∧ q = q₀ * 10 ^ digitsValue ds) ∨ (ex = ['-'] ∧ q = q₀ / 10 ^ digitsValue ds)) ∧
    digitsValue ds < 10000

/-- rounding to the nearest double, or overflow -/
theorem nearest_or_above (s : Bool) (m b : Nat) (hb : 0 < b) :
    (∃ n h, (if h : IsRep (roundMag (m * one1) b) then some (F64.fin s (roundMag (m * one1) b) h) else none) = some (.fin s n h) ∧
      ∀ s' n' h', |(|F64.toRat (.fin s n h)| - (m : ℚ) / b)| ≤ |(|F64.toRat (.fin s' n' h')| - (m : ℚ) / b)|) ∨
    ((if h : IsRep (roundMag (m * one1) b) then some (F64.fin s (roundMag (m * one1) b) h) else none) = none ∧
      ∀ s' n' h', |F64.toRat (.fin s' n' h')| < (m : ℚ) / b) := by
  have hO : (0 : ℚ) < (one1 : ℚ) := by
    have : 0 < one1 := by unfold one1; exact Nat.pow_pos (by decide)
    exact_mod_cast this
  have hK : (0 : ℚ) < (b : ℚ) := by exact_mod_cast hb
  have habs : ∀ s n h, |F64.toRat (.fin s n h)| = (n : ℚ) / (one1 : ℚ) := by
    intro s n h
    unfold F64.toRat
    rw [abs_mul, abs_of_nonneg (show (0 : ℚ) ≤ (n : ℚ) / (one1 : ℚ) by positivity)]
    cases s <;> simp
  have hnear : ∀ n', ulp n' ∣ n' → |(roundMag (m * one1) b : ℚ) / one1 - (m : ℚ) / b| ≤
      |(n' : ℚ) / one1 - (m : ℚ) / b| := by
    intro n' hn'
    have h1 := roundMag_nearest (m * one1) b n' hb hn'
    have h2 : |(roundMag (m * one1) b : ℚ) * b - m * one1| ≤ |(n' : ℚ) * b - m * one1| := by
      exact_mod_cast h1
    have key : ∀ x : ℚ, |x / one1 - (m : ℚ) / b| = |x * b - m * one1| / (one1 * b) := by
      intro x
      rw [eq_div_iff (by positivity), ← abs_of_pos (mul_pos hO hK), ← abs_mul]
      congr 1
      field_simp
    rw [key, key]
    exact div_le_div_of_nonneg_right h2 (by positivity)
  by_cases hrep : IsRep (roundMag (m * one1) b)
  · left
    refine ⟨_, hrep, by rw [dif_pos hrep], ?_⟩
    intro s' n' h'
    rw [habs, habs]
    exact hnear n' h'.1
  · right
    refine ⟨by rw [dif_neg hrep], ?_⟩
    intro s' n' h'
    rw [habs]
    have hbig : ovf ≤ roundMag (m * one1) b := by
      by_contra hc
      exact hrep ⟨ulp_dvd_roundMag _ _, by omega⟩
    have hlt : n' < roundMag (m * one1) b := lt_of_lt_of_le h'.2 hbig
    by_contra hc
    push Not at hc
    have h1 := hnear n' h'.1
    have h2 : (n' : ℚ) / one1 < (roundMag (m * one1) b : ℚ) / one1 :=
      div_lt_div_of_pos_right (by exact_mod_cast hlt) hO
    rw [abs_of_nonneg (by linarith), abs_of_nonneg (by linarith)] at h1
    linarith

theorem expVal_aux (ds : List Char) (a : Nat) (h : ds.foldl (fun a c => a * 10 + (c.toNat - 48)) a < 10000) :
    ds.foldl (fun e c => if e < 10000 then e * 10 + (c.toNat - 48) else e) a = ds.foldl (fun a c => a * 10 + (c.toNat - 48)) a := by
  induction ds generalizing a with
  | nil => rfl
  | cons c ds ih =>
    have hmono : ∀ (l : List Char) (x : Nat), x ≤ l.foldl (fun a c => a * 10 + (c.toNat - 48)) x := by
      intro l
      induction l with
      | nil => intro x; exact le_refl _
      | cons d l ih => intro x; exact le_trans (by omega) (ih (x * 10 + (d.toNat - 48)))
    have h1 := hmono ds (a * 10 + (c.toNat - 48))
    simp only [List.foldl_cons] at h ⊢
    rw [if_pos (by omega)]
    exact ih _ h

theorem plain_no_exp {w : List Char} {s : Bool} {q : ℚ} (h : IsPlainNumber w s q) : ∀ c ∈ w, isExp c = false ∧
    (c = '+' ∨ c = '-' ∨ c = '.' ∨ isDig c = true) := by
  obtain ⟨sign, ip, fp, h1, h2, h3, -, h5, -⟩ := h
  rw [allDigits_iff] at h2 h3
  have hd : ∀ c, isDig c = true → isExp c = false := by
    intro c hc
    unfold isDig at hc
    unfold isExp
    simp only [Bool.and_eq_true, decide_eq_true_eq] at hc
    simp only [Bool.or_eq_false_iff, beq_eq_false_iff_ne]
    constructor <;> rintro rfl <;> revert hc <;> decide
  have hs : ∀ c ∈ sign, c = '+' ∨ c = '-' := by
    rcases h1 with ⟨rfl, -⟩ | ⟨rfl, -⟩ | ⟨rfl, -⟩ <;> simp
  intro c hc
  have : c ∈ sign ∨ c = '.' ∨ c ∈ ip ∨ c ∈ fp := by
    rcases h5 with ⟨rfl, rfl⟩ | rfl
    · simp only [List.mem_append] at hc; tauto
    · simp only [List.mem_append, List.mem_cons] at hc; tauto
  rcases this with h | rfl | h | h
  · rcases hs c h with rfl | rfl <;> simp [isExp]
  · simp [isExp]
  · exact ⟨hd c (h2 c h), by simp [h2 c h]⟩
  · exact ⟨hd c (h3 c h), by simp [h3 c h]⟩

theorem plain_has_digit {w : List Char} {s : Bool} {q : ℚ} (h : IsPlainNumber w s q) : ∃ c ∈ w, isDig c = true := by
  by_contra hc
  push Not at hc
  exact C52_needs_digit w (fun c hcw hd => hc c hcw ((isDig_iff c).2 hd)) s q h

theorem special_no_digit {w : List Char} {x : F64} (h : parseSpecial w = some x) : ∀ c ∈ w, isDig c = false := by
  have hl : ∀ c, isDig c = true → asciiLower c = c := by
    intro c hc
    unfold isDig at hc
    simp only [Bool.and_eq_true, decide_eq_true_eq] at hc
    unfold asciiLower; rw [if_neg (by omega)]
  have key : ∀ c ∈ w.map asciiLower, isDig c = false := by
    have hsplit : ∀ l : List Char, ∃ sg, l = sg ++ (splitSign l).2 ∧ ∀ c ∈ sg, isDig c = false := by
      intro l
      unfold splitSign
      split
      · exact ⟨['-'], rfl, by simp; decide⟩
      · exact ⟨['+'], rfl, by simp; decide⟩
      · exact ⟨[], rfl, by simp⟩
    obtain ⟨sg, h1, h2⟩ := hsplit (w.map asciiLower)
    unfold parseSpecial at h
    simp only at h
    split at h
    · next hn => rw [hn]; decide
    · split at h
      · next hn =>
        rw [h1]
        intro c hc
        rcases List.mem_append.1 hc with hc | hc
        · exact h2 c hc
        · have hall : ∀ c ∈ ['i', 'n', 'f', 'i', 'n', 'i', 't', 'y'], isDig c = false := by decide
          apply hall
          rcases hn with hn | hn <;> rw [hn] at hc
          · exact List.mem_append_left _ hc
          · exact hc
      · cases h
  intro c hc
  by_contra hd
  rw [Bool.not_eq_false] at hd
  have := key (asciiLower c) (List.mem_map_of_mem hc)
  rw [hl c hd, hd] at this
  cases this

theorem parseFloat_goNumber {rest : Word → Option F64} {w : Word} (hp : parsePlain w = none) (hs : ¬ IsSpecial w) :
    parseFloat (goNumber rest) w = goNumber rest w := by
  unfold IsSpecial at hs
  push Not at hs
  unfold parseFloat
  rw [if_neg hs.1, if_neg hs.2.1, if_neg hs.2.2, hp]

/-- **C52 (exponents).** A field that is a decimal number with an exponent (below 10000) and absolute value `q` is read as
a double with its sign whose absolute value is nearest to `q` - or refused, and then `q` is above every finite double. -/
theorem C52_scientific (rest : Word → Option F64) (w : Word) (s : Bool) (q : ℚ) (hw : IsSciNumber w s q) :
    (∃ n h, parseFloat (goNumber rest) w = some (.fin s n h) ∧
      ∀ s' n' h', |(|F64.toRat (.fin s n h)| - q)| ≤ |(|F64.toRat (.fin s' n' h')| - q)|) ∨
    (parseFloat (goNumber rest) w = none ∧ ∀ s' n' h', |F64.toRat (.fin s' n' h')| < q) := by
  obtain ⟨man, ex, ds, c, q₀, rfl, hman, hc, hds, hne, hq, hlt⟩ := hw
  have hce : isExp c = true := by rcases hc with rfl | rfl <;> rfl
  obtain ⟨m, k, hmk, rfl⟩ := (isPlain_iff man s q₀).1 hman
  obtain ⟨d, hd1, hd2⟩ := plain_has_digit hman
  have hdw : d ∈ man ++ c :: (ex ++ ds) := List.mem_append_left _ hd1
  have hcw : c ∈ man ++ c :: (ex ++ ds) := by simp
  have hsp : parseSpecial (man ++ c :: (ex ++ ds)) = none := by
    cases h : parseSpecial (man ++ c :: (ex ++ ds)) with
    | none => rfl
    | some x => have := special_no_digit h d hdw; rw [hd2] at this; cases this
  have hspecial : ¬ IsSpecial (man ++ c :: (ex ++ ds)) := by
    intro h
    have : ∀ x ∈ man ++ c :: (ex ++ ds), isDig x = false := by rcases h with h | h | h <;> rw [h] <;> decide
    rw [this d hdw] at hd2; cases hd2
  have hplain : parsePlain (man ++ c :: (ex ++ ds)) = none := by
    cases h : parsePlain (man ++ c :: (ex ++ ds)) with
    | none => rfl
    | some t =>
      obtain ⟨s', m', k'⟩ := t
      have := (plain_no_exp ((isPlain_iff _ s' _).2 ⟨m', k', h, rfl⟩) c hcw).1
      rw [hce] at this; cases this
  have hallman : ∀ x ∈ man, (!isExp x) = true := fun x hx => by rw [(plain_no_exp hman x hx).1]; rfl
  have htake : (man ++ c :: (ex ++ ds)).takeWhile (fun c => !isExp c) = man := by
    rw [List.takeWhile_append_of_pos hallman, List.takeWhile_cons, hce]; simp
  have hdrop : (man ++ c :: (ex ++ ds)).dropWhile (fun c => !isExp c) = c :: (ex ++ ds) := by
    rw [List.dropWhile_append_of_pos hallman, List.dropWhile_cons, hce]; simp
  have hdig := (allDigits_iff ds).1 hds
  have hhead : ds.head? ≠ some '-' ∧ ds.head? ≠ some '+' := by
    cases ds with
    | nil => exact absurd rfl hne
    | cons x xs =>
      have := hdig x (by simp)
      constructor <;> (intro h; simp only [List.head?_cons, Option.some.injEq] at h; subst h; revert this; decide)
  have hsplit : splitSign (ex ++ ds) = (decide (ex = ['-']), ds) := by
    have h0 : splitSign ds = (false, ds) := by
      unfold splitSign
      split
      · simp at hhead
      · simp at hhead
      · rfl
    rcases hq with ⟨rfl | rfl, -⟩ | ⟨rfl, -⟩
    · rw [List.nil_append, h0]; simp
    · rfl
    · rfl
  have hexp : expVal ds = digitsValue ds := by
    rw [digitsValue_eq]
    rw [digitsValue_eq] at hlt
    exact expVal_aux ds 0 hlt
  have hsci : parseSci (man ++ c :: (ex ++ ds)) = some ((s, m, k), decide (ex = ['-']), digitsValue ds) := by
    unfold parseSci
    rw [hdrop]
    simp only [hsplit, htake, hmk, hexp, Option.map_some]
    rw [if_neg]
    have : ds.all isDig = true := by rw [List.all_eq_true]; exact hdig
    rw [this]
    simpa using hne
  rw [parseFloat_goNumber hplain hspecial]
  unfold goNumber
  rw [hsp, hsci]
  rcases hq with ⟨hex, rfl⟩ | ⟨rfl, rfl⟩
  · have hexd : decide (ex = ['-']) = false := by rcases hex with rfl | rfl <;> rfl
    have := nearest_or_above s (m * 10 ^ digitsValue ds) (10 ^ k) (Nat.pow_pos (by decide))
    have hval : ((m * 10 ^ digitsValue ds : Nat) : ℚ) / ((10 ^ k : Nat) : ℚ) = (m : ℚ) / 10 ^ k * 10 ^ digitsValue ds := by
      push_cast; ring
    rw [hval] at this
    simpa only [hexd, Bool.false_eq_true, if_false] using this
  · have := nearest_or_above s m (10 ^ k * 10 ^ digitsValue ds) (Nat.mul_pos (Nat.pow_pos (by decide)) (Nat.pow_pos (by decide)))
    have hval : (m : ℚ) / ((10 ^ k * 10 ^ digitsValue ds : Nat) : ℚ) = (m : ℚ) / 10 ^ k / 10 ^ digitsValue ds := by
      push_cast; rw [div_div]
    rw [hval] at this
    simpa only [decide_true, if_true] using this

/-- `w` is the lower-case word `t`, each letter in lower or upper case. -/
def AnyCase (w t : List Char) : Prop := List.Forall₂ (fun c d => c = d ∨ c = d.toUpper) w t

theorem anyCase_lower {w t : List Char} (ht : ∀ d ∈ t, d ∈ "naifty".toList) (h : AnyCase w t) : w.map asciiLower = t := by
  unfold AnyCase at h
  induction h with
  | nil => rfl
  | cons h1 _ ih =>
    rename_i a b l₁ l₂ _
    have hb : ∀ d ∈ "naifty".toList, asciiLower d = d ∧ asciiLower d.toUpper = d := by decide
    obtain ⟨e1, e2⟩ := hb b (ht b (by simp))
    rw [List.map_cons, ih (fun d hd => ht d (by simp [hd]))]
    rcases h1 with rfl | rfl
    · rw [e1]
    · rw [e2]

theorem parsePlain_letter {w : List Char} {c : Char} (hc : c ∈ w) (h1 : c ≠ '+') (h2 : c ≠ '-') (h3 : c ≠ '.')
    (h4 : isDig c = false) : parsePlain w = none := by
  cases h : parsePlain w with
  | none => rfl
  | some t =>
    obtain ⟨s', m', k'⟩ := t
    rcases (plain_no_exp ((isPlain_iff _ s' _).2 ⟨m', k', h, rfl⟩) c hc).2 with e | e | e | e
    · exact absurd e h1
    · exact absurd e h2
    · exact absurd e h3
    · rw [h4] at e; cases e

theorem anyCase_letter {w t : List Char} {d : Char} (h : AnyCase w (d :: t)) (hd : d = 'n' ∨ d = 'i') :
    ∃ c ∈ w, c ≠ '+' ∧ c ≠ '-' ∧ c ≠ '.' ∧ isDig c = false := by
  cases h with
  | cons h1 h2 =>
    rename_i a l
    refine ⟨a, by simp, ?_⟩
    rcases hd with rfl | rfl <;> rcases h1 with rfl | rfl <;> decide

/-- **C52 (not a number).** `nan` in any mixture of cases is read as the float64 NaN. -/
theorem C52_nan (rest : Word → Option F64) (w : Word) (h : AnyCase w "nan".toList) :
    parseFloat (goNumber rest) w = some .nan := by
  obtain ⟨c, hc, h1, h2, h3, h4⟩ := anyCase_letter (d := 'n') (t := ['a', 'n']) h (Or.inl rfl)
  have hp := parsePlain_letter hc h1 h2 h3 h4
  have hl : w.map asciiLower = ['n', 'a', 'n'] := anyCase_lower (by decide) h
  have hg : goNumber rest w = some .nan := by
    unfold goNumber parseSpecial
    simp only [hl, if_true]
  by_cases hs : IsSpecial w
  · rcases hs with rfl | rfl | rfl
    · rfl
    · exact absurd hl (by decide)
    · exact absurd hl (by decide)
  · rw [parseFloat_goNumber hp hs, hg]

/-- **C52 (infinities).** `inf` and `infinity`, in any mixture of cases, with an optional sign, are read as the infinity of
that sign. -/
theorem C52_infinity (rest : Word → Option F64) (sign w : Word) (h : AnyCase w "inf".toList ∨ AnyCase w "infinity".toList)
    (hs : sign = [] ∨ sign = ['+'] ∨ sign = ['-']) :
    parseFloat (goNumber rest) (sign ++ w) = some (.inf (decide (sign = ['-']))) := by
  obtain ⟨c, hc, h1, h2, h3, h4⟩ : ∃ c ∈ w, c ≠ '+' ∧ c ≠ '-' ∧ c ≠ '.' ∧ isDig c = false := by
    rcases h with h | h
    · exact anyCase_letter (d := 'i') (t := ['n', 'f']) h (Or.inr rfl)
    · exact anyCase_letter (d := 'i') (t := "nfinity".toList) h (Or.inr rfl)
  have hp := parsePlain_letter (List.mem_append_right sign hc) h1 h2 h3 h4
  have hl : w.map asciiLower = ['i', 'n', 'f'] ∨ w.map asciiLower = ['i', 'n', 'f', 'i', 'n', 'i', 't', 'y'] := by
    rcases h with h | h
    · left; exact anyCase_lower (by decide) h
    · right; exact anyCase_lower (by decide) h
  have hg : goNumber rest (sign ++ w) = some (.inf (decide (sign = ['-']))) := by
    unfold goNumber parseSpecial
    rcases hs with rfl | rfl | rfl <;> rcases hl with hl | hl <;>
      simp [hl, splitSign, asciiLower]
  by_cases hsp : IsSpecial (sign ++ w)
  · rcases hs with rfl | rfl | rfl <;> rcases hsp with e | e | e
    all_goals first
      | (exfalso; simp only [List.nil_append] at e; subst e; revert hl; decide)
      | (exfalso; revert e; simp; done)
      | (rw [e]; rfl)
      | (exfalso; simp at e; subst e; revert hl; decide)
  · rw [parseFloat_goNumber hp hsp, hg]

/-- `w` is spelled like a decimal number with an exponent of any size. -/
def IsSciForm (w : List Char) : Prop :=
  ∃ (man ex ds : List Char) (c : Char) (s : Bool) (q₀ : ℚ), w = man ++ c :: (ex ++ ds) ∧ IsPlainNumber man s q₀ ∧
    (c = 'e' ∨ c = 'E') ∧ (ex = [] ∨ ex = ['+'] ∨ ex = ['-']) ∧ AllDigits ds ∧ ds ≠ []

/-- `w` is a spelling of a special value. -/
def IsSpecialForm (w : List Char) : Prop :=
  AnyCase w "nan".toList ∨ ∃ sign v, w = sign ++ v ∧ (sign = [] ∨ sign = ['+'] ∨ sign = ['-']) ∧
    (AnyCase v "inf".toList ∨ AnyCase v "infinity".toList)

theorem splitSign_form (l : List Char) : ∃ sg, l = sg ++ (splitSign l).2 ∧ (sg = [] ∨ sg = ['+'] ∨ sg = ['-']) := by
  unfold splitSign
  split
  · exact ⟨['-'], rfl, by simp⟩
  · exact ⟨['+'], rfl, by simp⟩
  · exact ⟨[], rfl, by simp⟩

theorem asciiLower_inv {c d : Char} (h : asciiLower c = d) (hd : d ∈ "naifty".toList) : c = d ∨ c = d.toUpper := by
  unfold asciiLower at h
  split at h
  · next hc =>
    right
    have hb : ∀ n ∈ List.range 91, 65 ≤ n → (Char.ofNat (n + 32)).toUpper = Char.ofNat n := by decide
    rw [← h, hb c.toNat (List.mem_range.2 (by omega)) hc.1, Char.ofNat_toNat]
  · exact Or.inl h

theorem asciiLower_sign {c : Char} (h : asciiLower c = '+' ∨ asciiLower c = '-') : asciiLower c = c := by
  unfold asciiLower at h ⊢
  split
  · next hc =>
    exfalso
    rw [if_pos hc] at h
    have hb : ∀ n ∈ List.range 91, 65 ≤ n → Char.ofNat (n + 32) ≠ '+' ∧ Char.ofNat (n + 32) ≠ '-' := by decide
    obtain ⟨h1, h2⟩ := hb c.toNat (List.mem_range.2 (by omega)) hc.1
    rcases h with h | h
    · exact h1 h
    · exact h2 h
  · rfl

theorem lower_anyCase {t : List Char} (ht : ∀ d ∈ t, d ∈ "naifty".toList) : ∀ {w : List Char}, w.map asciiLower = t → AnyCase w t := by
  induction t with
  | nil => intro w h; rw [List.map_eq_nil_iff.1 h]; exact List.Forall₂.nil
  | cons d t ih =>
    intro w h
    cases w with
    | nil => cases h
    | cons c w =>
      rw [List.map_cons, List.cons.injEq] at h
      exact List.Forall₂.cons (asciiLower_inv h.1 (ht d (by simp))) (ih (fun d hd => ht d (by simp [hd])) h.2)

theorem special_form {w : List Char} {x : F64} (h : parseSpecial w = some x) : IsSpecialForm w := by
  unfold parseSpecial at h
  simp only at h
  split at h
  · next hn => exact Or.inl (lower_anyCase (by decide) hn)
  · split at h
    · next hn =>
      right
      obtain ⟨sg, h1, h2⟩ := splitSign_form (w.map asciiLower)
      have hv : ∃ sign v, w = sign ++ v ∧ (sign = [] ∨ sign = ['+'] ∨ sign = ['-']) ∧
          v.map asciiLower = (splitSign (w.map asciiLower)).2 := by
        rcases h2 with rfl | rfl | rfl
        · exact ⟨[], w, rfl, Or.inl rfl, h1⟩
        · cases w with
          | nil => cases h1
          | cons c w =>
            simp only [List.map_cons, List.cons_append, List.nil_append, List.cons.injEq] at h1
            have := asciiLower_sign (c := c) (Or.inl h1.1)
            rw [h1.1] at this
            exact ⟨['+'], w, by rw [this]; rfl, by simp, h1.2⟩
        · cases w with
          | nil => cases h1
          | cons c w =>
            simp only [List.map_cons, List.cons_append, List.nil_append, List.cons.injEq] at h1
            have := asciiLower_sign (c := c) (Or.inr h1.1)
            rw [h1.1] at this
            exact ⟨['-'], w, by rw [this]; rfl, by simp, h1.2⟩
      obtain ⟨sign, v, e1, e2, e3⟩ := hv
      refine ⟨sign, v, e1, e2, ?_⟩
      rw [← e3] at hn
      rcases hn with hn | hn
      · exact Or.inl (lower_anyCase (by decide) hn)
      · exact Or.inr (lower_anyCase (by decide) hn)
    · cases h

theorem sci_form {w : List Char} {t} (h : parseSci w = some t) : IsSciForm w := by
  unfold parseSci at h
  split at h
  · cases h
  · next c x hd =>
    split at h
    · cases h
    · next hds =>
      simp only [Bool.or_eq_true, not_or, Bool.not_eq_true, Bool.not_eq_false', List.isEmpty_eq_false_iff] at hds
      rw [Option.map_eq_some_iff] at h
      obtain ⟨⟨s, m, k⟩, hp, -⟩ := h
      obtain ⟨sg, e1, e2⟩ := splitSign_form x
      refine ⟨w.takeWhile (fun c => !isExp c), sg, (splitSign x).2, c, s, _, ?_, (isPlain_iff _ s _).2 ⟨m, k, hp, rfl⟩, ?_, e2, ?_, hds.1⟩
      · rw [← e1, ← hd, List.takeWhile_append_dropWhile]
      · have := List.head?_dropWhile_not (fun c => !isExp c) w
        rw [hd] at this
        simp only [List.head?_cons, Bool.not_eq_false', isExp] at this
        simpa using this
      · rw [allDigits_iff]
        have := hds.2
        rwa [List.all_eq_true] at this

/-- **C52 (only numbers).** A field without an underscore that does not begin like a hexadecimal number is accepted only if it
is a decimal number, a decimal number with an exponent, or a special value; any other field makes `Load` fail. -/
theorem C52_only_numbers (rest : Word → Option F64) (w : Word) (hu : '_' ∉ w)
    (hx : ∀ sign v, (sign = [] ∨ sign = ['+'] ∨ sign = ['-']) → w ≠ sign ++ '0' :: 'x' :: v ∧ w ≠ sign ++ '0' :: 'X' :: v) :
    (∀ x, parseFloat (goNumber rest) w = some x → (∃ s q, IsPlainNumber w s q) ∨ IsSciForm w ∨ IsSpecialForm w) ∧
    (¬ (∃ s q, IsPlainNumber w s q) → ¬ IsSciForm w → ¬ IsSpecialForm w →
      ∀ (p : Pass) (lines : List (List Char)), RawLines p.text lines → ∀ l ∈ lines, (stripCR l).head? ≠ some ' ' →
        ∀ ws : List Word, IsWords (stripCR l) ws → w ∈ ws.tail → ∃ e, load (goNumber rest) p = .err e) := by
  have h1 : ∀ x, parseFloat (goNumber rest) w = some x → (∃ s q, IsPlainNumber w s q) ∨ IsSciForm w ∨ IsSpecialForm w := by
    intro x h
    by_cases hsp : IsSpecial w
    · right; right
      rcases hsp with rfl | rfl | rfl
      · exact special_form (x := .nan) rfl
      · exact special_form (x := .inf false) rfl
      · exact special_form (x := .inf true) rfl
    · cases hp : parsePlain w with
      | some t =>
        obtain ⟨s, m, k⟩ := t
        exact Or.inl ⟨s, _, (isPlain_iff w s _).2 ⟨m, k, hp, rfl⟩⟩
      | none =>
        rw [parseFloat_goNumber hp hsp] at h
        unfold goNumber at h
        split at h
        · next y hy => exact Or.inr (Or.inr (special_form hy))
        · split at h
          · next hs => exact Or.inr (Or.inl (sci_form hs))
          · rw [if_neg] at h
            · cases h
            · have hh : hexPrefix w = false := by
                obtain ⟨sg, e1, e2⟩ := splitSign_form w
                unfold hexPrefix
                split
                · next v hv => rw [hv] at e1; exact absurd e1 (hx sg v e2).1
                · next v hv => rw [hv] at e1; exact absurd e1 (hx sg v e2).2
                · rfl
              rw [hh]
              simpa using hu
  refine ⟨h1, ?_⟩
  intro n1 n2 n3 p lines hr l hl hsp ws hws hw
  refine C52_bad_line (goNumber rest) p lines hr l hl hsp ws hws (Or.inr ⟨w, hw, ?_⟩)
  cases h : parseFloat (goNumber rest) w with
  | none => rfl
  | some x => rcases h1 x h with h | h | h <;> contradiction

/-- witness: the field `1e` is none of these -/
example : '_' ∉ "1e".toList ∧ (∀ sign v, (sign = [] ∨ sign = ['+'] ∨ sign = ['-']) →
    "1e".toList ≠ sign ++ '0' :: 'x' :: v ∧ "1e".toList ≠ sign ++ '0' :: 'X' :: v) := by
  refine ⟨by decide, ?_⟩
  rintro sign v (rfl | rfl | rfl) <;> simp

/-- witnesses: `-1.5e-07`, `2E3`; `NaN`, `-Infinity` -/
example : IsSciNumber "-1.5e-07".toList true (3 / 20000000) ∧ IsSciNumber "2E3".toList false 2000 ∧
    AnyCase "NaN".toList "nan".toList ∧ AnyCase "Infinity".toList "infinity".toList := by
  refine ⟨⟨"-1.5".toList, ['-'], "07".toList, 'e', 3 / 2, rfl, ?_, Or.inl rfl, ?_, by decide, Or.inr ⟨rfl, ?_⟩, by decide⟩,
    ⟨"2".toList, [], "3".toList, 'E', 2, rfl, ?_, Or.inr rfl, ?_, by decide, Or.inl ⟨Or.inl rfl, ?_⟩, by decide⟩, ?_, ?_⟩
  · exact (isPlain_iff _ _ _).2 ⟨15, 1, by decide, by norm_num⟩
  · rw [allDigits_iff]; decide
  · have : digitsValue "07".toList = 7 := by decide
    rw [this]; norm_num
  · exact (isPlain_iff _ _ _).2 ⟨2, 0, by decide, by norm_num⟩
  · rw [allDigits_iff]; decide
  · have : digitsValue "3".toList = 3 := by decide
    rw [this]; norm_num
  · unfold AnyCase
    simp [String.toList]
    decide
  · unfold AnyCase
    simp [String.toList]
    decide

end Wego.Props
