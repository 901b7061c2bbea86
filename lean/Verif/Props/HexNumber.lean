import Verif.Props.Scientific
import Verif.Model.ParseHex
import Verif.Spec.HexNumber

/-! # C52: hexadecimal numbers and underscores; `strconv.ParseFloat` without anything left open -/

namespace Wego.Props
open Wego Wego.Spec

theorem lower_toNat {n : Nat} (h : n ≤ 90) : (Char.ofNat (n + 32)).toNat = n + 32 := by
  have hb : ∀ n ∈ List.range 91, (Char.ofNat (n + 32)).toNat = n + 32 := by decide
  exact hb n (List.mem_range.2 (by omega))

theorem isHexDig_iff (c : Char) : isHexDig c = true ↔ IsHexDigit c := by
  unfold isHexDig IsHexDigit
  rw [Bool.or_eq_true, isDig_iff, Bool.and_eq_true, decide_eq_true_eq, decide_eq_true_eq]
  have e1 : 'a'.toNat = 97 := rfl
  have e2 : 'f'.toNat = 102 := rfl
  have e3 : 'A'.toNat = 65 := rfl
  have e4 : 'F'.toNat = 70 := rfl
  rw [e1, e2, e3, e4]
  unfold asciiLower
  split
  · next h =>
    have : (Char.ofNat (c.toNat + 32)).toNat = c.toNat + 32 := lower_toNat (by omega)
    rw [this]; omega
  · next h => omega

theorem hexDig_eq {c : Char} (h : IsHexDigit c) : hexDig c = hexDigitValue c := by
  unfold hexDig hexDigitValue
  unfold IsHexDigit at h
  have e0 : '0'.toNat = 48 := rfl
  have e9 : '9'.toNat = 57 := rfl
  have e1 : 'a'.toNat = 97 := rfl
  have e2 : 'f'.toNat = 102 := rfl
  have e3 : 'A'.toNat = 65 := rfl
  have e4 : 'F'.toNat = 70 := rfl
  rw [e0, e9, e1, e2, e3, e4] at h
  rw [e0, e9, e1, e3, e4]
  by_cases hd : c.toNat ≤ 57
  · rw [if_pos ((isDig_iff c).2 (by rw [e0, e9]; omega)), if_pos hd]
  · have : ¬ isDig c = true := fun h' => by rw [isDig_iff, e0, e9] at h'; omega
    rw [if_neg this, if_neg hd]
    unfold asciiLower
    split
    · next h2 =>
      have : (Char.ofNat (c.toNat + 32)).toNat = c.toNat + 32 := lower_toNat (by omega)
      rw [this, if_pos (by omega)]; omega
    · next h2 => rw [if_neg (by omega)]

theorem hexVal_eq {ds : List Char} (h : ∀ d ∈ ds, IsHexDigit d) : hexVal ds = hexValue ds := by
  have key : ∀ (ds : List Char), (∀ d ∈ ds, IsHexDigit d) → ∀ a, ds.foldl (fun a c => a * 16 + hexDig c) a = a * 16 ^ ds.length + hexValue ds := by
    intro ds
    induction ds with
    | nil => intro _ a; simp [hexValue]
    | cons c ds ih =>
      intro h a
      rw [List.foldl_cons, ih (fun d hd => h d (by simp [hd])), hexDig_eq (h c (by simp)), hexValue, List.length_cons, pow_succ]
      ring
  have := key ds h 0
  unfold hexVal
  rw [this]; simp

theorem takeWhile_split {p : Char → Bool} {ip r : List Char} (h : ∀ c ∈ ip, p c = true) (hr : ∀ c, r.head? = some c → p c = false) :
    (ip ++ r).takeWhile p = ip ∧ (ip ++ r).dropWhile p = r := by
  induction ip with
  | nil =>
    cases r with
    | nil => simp
    | cons c r => simp [hr c rfl]
  | cons c ip ih =>
    have h1 := h c (by simp)
    obtain ⟨a, b⟩ := ih (fun x hx => h x (by simp [hx]))
    simp [h1, a, b]

theorem hexPrefix_iff (w : List Char) : hexPrefix w = true ↔ HexBegins w := by
  unfold hexPrefix HexBegins
  constructor
  · intro h
    obtain ⟨sg, e1, e2⟩ := splitSign_form w
    split at h
    · next v hv => rw [hv] at e1; exact ⟨sg, _, v, e1, e2, Or.inl rfl⟩
    · next v hv => rw [hv] at e1; exact ⟨sg, _, v, e1, e2, Or.inr rfl⟩
    · cases h
  · rintro ⟨sign, x, v, rfl, rfl | rfl | rfl, rfl | rfl⟩ <;> rfl

theorem splitSign_zero (sign : List Char) (s : Bool) (r : List Char)
    (h : (sign = [] ∧ s = false) ∨ (sign = ['+'] ∧ s = false) ∨ (sign = ['-'] ∧ s = true)) :
    splitSign (sign ++ '0' :: r) = (s, '0' :: r) := by
  rcases h with ⟨rfl, rfl⟩ | ⟨rfl, rfl⟩ | ⟨rfl, rfl⟩ <;> rfl

theorem splitSign_cases (w : List Char) : ∃ sign, w = sign ++ (splitSign w).2 ∧
    ((sign = [] ∧ (splitSign w).1 = false) ∨ (sign = ['+'] ∧ (splitSign w).1 = false) ∨ (sign = ['-'] ∧ (splitSign w).1 = true)) := by
  unfold splitSign
  split
  · exact ⟨['-'], rfl, by simp⟩
  · exact ⟨['+'], rfl, by simp⟩
  · exact ⟨[], rfl, by simp⟩

theorem parseHexMan_iff (r : List Char) (m k : Nat) : parseHexMan r = some (m, k) ↔
    ∃ ip fp, (∀ d ∈ ip ++ fp, IsHexDigit d) ∧ ip ++ fp ≠ [] ∧ ((r = ip ∧ fp = []) ∨ r = ip ++ '.' :: fp) ∧
      m = hexValue (ip ++ fp) ∧ k = fp.length := by
  have hdot : isHexDig '.' = false := by decide
  constructor
  · intro h
    have hsplit : r = r.takeWhile isHexDig ++ r.dropWhile isHexDig := (List.takeWhile_append_dropWhile).symm
    have hd : ∀ c ∈ r.takeWhile isHexDig, IsHexDigit c := fun c hc => (isHexDig_iff c).1 (List.mem_takeWhile_imp hc)
    unfold parseHexMan at h
    simp only at h
    split at h
    · next hdrop =>
      split at h
      · cases h
      · next hne =>
        simp only [Option.some.injEq, Prod.mk.injEq] at h
        rw [hdrop, List.append_nil] at hsplit
        refine ⟨r.takeWhile isHexDig, [], by simpa using hd, by simpa using hne, Or.inl ⟨hsplit, rfl⟩, ?_, h.2.symm⟩
        rw [List.append_nil, ← hexVal_eq hd]; exact h.1.symm
    · next fp hdrop =>
      split at h
      · next hc =>
        rw [Bool.and_eq_true, List.all_eq_true] at hc
        simp only [Option.some.injEq, Prod.mk.injEq] at h
        have hall : ∀ d ∈ r.takeWhile isHexDig ++ fp, IsHexDigit d := by
          intro d hd'
          rcases List.mem_append.1 hd' with h' | h'
          · exact hd d h'
          · exact (isHexDig_iff d).1 (hc.1 d h')
        refine ⟨r.takeWhile isHexDig, fp, hall, ?_, Or.inr (by rw [← hdrop]; exact hsplit), ?_, h.2.symm⟩
        · intro h'; rw [h'] at hc; simp at hc
        · rw [← hexVal_eq hall]; exact h.1.symm
      · cases h
    · cases h
  · rintro ⟨ip, fp, hall, hne, hr, rfl, rfl⟩
    have hip : ∀ c ∈ ip, isHexDig c = true := fun c hc => (isHexDig_iff c).2 (hall c (by simp [hc]))
    have hfp : ∀ c ∈ fp, isHexDig c = true := fun c hc => (isHexDig_iff c).2 (hall c (by simp [hc]))
    rcases hr with ⟨rfl, rfl⟩ | rfl
    · obtain ⟨h1, h2⟩ := takeWhile_split (r := []) hip (by simp)
      rw [List.append_nil] at h1 h2 hne hall
      unfold parseHexMan
      simp only [h1, h2, List.append_nil, List.length_nil]
      rw [if_neg hne, hexVal_eq hall]
    · obtain ⟨h1, h2⟩ := takeWhile_split (r := '.' :: fp) hip (by
        intro c hc; simp only [List.head?_cons, Option.some.injEq] at hc; subst hc; exact hdot)
      unfold parseHexMan
      simp only [h1, h2]
      rw [if_pos, hexVal_eq hall]
      rw [Bool.and_eq_true, List.all_eq_true]
      refine ⟨hfp, ?_⟩
      cases h : ip ++ fp with
      | nil => exact absurd h hne
      | cons a l => rfl

/-- The exact language and value of `parseHex`. -/
theorem parseHex_iff (w : List Char) (s : Bool) (m k : Nat) (neg : Bool) (e : Nat) :
    parseHex w = some ((s, m, k), neg, e) ↔
      ∃ ip fp ds, IsHexForm w s ip fp neg ds ∧ m = hexValue (ip ++ fp) ∧ k = fp.length ∧ e = expVal ds := by
  constructor
  · intro h
    unfold parseHex at h
    split at h
    · next hx =>
      simp only at h
      split at h
      · cases h
      · next c x hd =>
        split at h
        · cases h
        · next hds =>
          simp only [Bool.or_eq_true, not_or, Bool.not_eq_true, Bool.not_eq_false', List.isEmpty_eq_false_iff] at hds
          rw [Option.map_eq_some_iff] at h
          obtain ⟨⟨m', k'⟩, hp, he⟩ := h
          simp only [Prod.mk.injEq] at he
          obtain ⟨⟨rfl, rfl, rfl⟩, rfl, rfl⟩ := he
          obtain ⟨ip, fp, h1, h2, h3, h4, h5⟩ := (parseHexMan_iff _ _ _).1 hp
          obtain ⟨sg, e1, e2⟩ := splitSign_cases w
          obtain ⟨sx, f1, f2⟩ := splitSign_cases x
          have hpre : ∃ y, (splitSign w).2 = '0' :: y :: (splitSign w).2.drop 2 ∧ (y = 'x' ∨ y = 'X') := by
            unfold hexPrefix at hx
            split at hx
            · next v hv => rw [hv]; exact ⟨'x', rfl, Or.inl rfl⟩
            · next v hv => rw [hv]; exact ⟨'X', rfl, Or.inr rfl⟩
            · cases hx
          obtain ⟨y, hy1, hy2⟩ := hpre
          refine ⟨ip, fp, (splitSign x).2, ⟨sg, _, sx, y, c, ?_, e2, hy2, h1, h2, h3, ?_, f2, ?_, hds.1⟩, h4, h5, rfl⟩
          · rw [← f1, ← hd, List.takeWhile_append_dropWhile, ← hy1]; exact e1
          · have := List.head?_dropWhile_not (fun c => !isPow c) ((splitSign w).2.drop 2)
            rw [hd] at this
            simp only [List.head?_cons, Bool.not_eq_false', isPow] at this
            simpa using this
          · rw [allDigits_iff]
            have := hds.2
            rwa [List.all_eq_true] at this
    · cases h
  · rintro ⟨ip, fp, ds, ⟨sign, man, ex, x, c, rfl, hsign, hx, hall, hne, hman, hc, hex, hds, hds0⟩, rfl, rfl, rfl⟩
    have hss := splitSign_zero sign s (x :: (man ++ c :: (ex ++ ds))) hsign
    have hpre : hexPrefix (sign ++ '0' :: x :: (man ++ c :: (ex ++ ds))) = true := by
      unfold hexPrefix; rw [hss]; rcases hx with rfl | rfl <;> rfl
    have hcp : isPow c = true := by rcases hc with rfl | rfl <;> rfl
    have hnp : ∀ d ∈ man, (!isPow d) = true := by
      intro d hd
      have : d = '.' ∨ IsHexDigit d := by
        rcases hman with ⟨rfl, rfl⟩ | rfl
        · exact Or.inr (hall d (by simp [hd]))
        · simp only [List.mem_append, List.mem_cons] at hd
          rcases hd with h | h | h
          · exact Or.inr (hall d (by simp [h]))
          · exact Or.inl h
          · exact Or.inr (hall d (by simp [h]))
      rcases this with rfl | h
      · rfl
      · rw [Bool.not_eq_true']
        unfold isPow
        simp only [Bool.or_eq_false_iff, beq_eq_false_iff_ne]
        constructor <;> rintro rfl <;> revert h <;> unfold IsHexDigit <;> decide
    obtain ⟨h1, h2⟩ := takeWhile_split (p := fun c => !isPow c) (r := c :: (ex ++ ds)) hnp (by
      intro d hd; simp only [List.head?_cons, Option.some.injEq] at hd; subst hd; rw [hcp]; rfl)
    have hdig := (allDigits_iff ds).1 hds
    have hhead : ds.head? ≠ some '-' ∧ ds.head? ≠ some '+' := by
      cases ds with
      | nil => exact absurd rfl hds0
      | cons x xs =>
        have := hdig x (by simp)
        constructor <;> (intro h; simp only [List.head?_cons, Option.some.injEq] at h; subst h; revert this; decide)
    have hse : splitSign (ex ++ ds) = (neg, ds) := by
      have h0 : splitSign ds = (false, ds) := by
        unfold splitSign
        split
        · simp at hhead
        · simp at hhead
        · rfl
      rcases hex with ⟨rfl, rfl⟩ | ⟨rfl, rfl⟩ | ⟨rfl, rfl⟩
      · rw [List.nil_append, h0]
      · rfl
      · rfl
    have hm : parseHexMan man = some (hexValue (ip ++ fp), fp.length) := (parseHexMan_iff _ _ _).2 ⟨ip, fp, hall, hne, hman, rfl, rfl⟩
    unfold parseHex
    rw [if_pos hpre]
    simp only [hss, List.drop_succ_cons, List.drop_zero, h1, h2, hse, hm, Option.map_some]
    rw [if_neg]
    have : ds.all isDig = true := by rw [List.all_eq_true]; exact hdig
    rw [this]
    simpa using hds0

theorem hexForm_chars {w : List Char} {s ip fp neg ds} (h : IsHexForm w s ip fp neg ds) :
    HexBegins w ∧ '_' ∉ w ∧ '0' ∈ w ∧ ('x' ∈ w ∨ 'X' ∈ w) := by
  obtain ⟨sign, man, ex, x, c, rfl, hsign, hx, hall, hne, hman, hc, hex, hds, hds0⟩ := h
  refine ⟨⟨sign, x, _, rfl, by tauto, hx⟩, ?_, by simp, ?_⟩
  · have hman' : '_' ∉ man := by
      intro h
      have hh : '_' ∈ ip ++ fp := by
        rcases hman with ⟨rfl, rfl⟩ | rfl
        · simpa using h
        · simp only [List.mem_append, List.mem_cons] at h ⊢
          rcases h with h | h | h
          · exact Or.inl h
          · exact absurd h (by decide)
          · exact Or.inr h
      have := hall _ hh
      revert this; unfold IsHexDigit; decide
    have hds' : '_' ∉ ds := by
      intro h
      have := hds _ h
      revert this; decide
    have h1 : '_' ∉ sign := by rcases hsign with ⟨rfl, -⟩ | ⟨rfl, -⟩ | ⟨rfl, -⟩ <;> decide
    have h2 : '_' ∉ ex := by rcases hex with ⟨rfl, -⟩ | ⟨rfl, -⟩ | ⟨rfl, -⟩ <;> decide
    have h3 : '_' ≠ x := by rcases hx with rfl | rfl <;> decide
    have h4 : '_' ≠ c := by rcases hc with rfl | rfl <;> decide
    simp [hman', hds', h1, h2, h3, h4]
  · rcases hx with rfl | rfl <;> simp

theorem exp_not_x {w : List Char} (h : HexBegins w) : parsePlain w = none ∧ parseSci w = none ∧ parseSpecial w = none ∧ ¬ IsSpecial w := by
  obtain ⟨sign, x, v, rfl, hsign, hx⟩ := h
  have hxd : isExp x = false ∧ isDig x = false ∧ x ≠ '+' ∧ x ≠ '-' ∧ x ≠ '.' := by rcases hx with rfl | rfl <;> decide
  have hplain : ∀ man : List Char, x ∈ man → parsePlain man = none := by
    intro man hm
    cases h : parsePlain man with
    | none => rfl
    | some t =>
      obtain ⟨s', m', k'⟩ := t
      have := (plain_no_exp ((isPlain_iff _ s' _).2 ⟨m', k', h, rfl⟩) x hm).2
      rcases this with h | h | h | h
      · exact absurd h hxd.2.2.1
      · exact absurd h hxd.2.2.2.1
      · exact absurd h hxd.2.2.2.2
      · rw [hxd.2.1] at h; cases h
  have hsp : ∀ y, parseSpecial (sign ++ '0' :: x :: v) ≠ some y := by
    intro y h
    have := special_no_digit h '0' (by simp)
    revert this; decide
  refine ⟨hplain _ (by simp), ?_, ?_, ?_⟩
  · cases h : parseSci (sign ++ '0' :: x :: v) with
    | none => rfl
    | some t =>
      exfalso
      unfold parseSci at h
      split at h
      · cases h
      · split at h
        · cases h
        · have : x ∈ (sign ++ '0' :: x :: v).takeWhile (fun c => !isExp c) := by
            have h0 : ∀ c ∈ sign, (!isExp c) = true := by
              rcases hsign with rfl | rfl | rfl <;> decide
            rw [List.takeWhile_append_of_pos h0]
            have h1 : (!isExp '0') = true := by decide
            simp [h1, hxd.1]
          rw [hplain _ this] at h
          cases h
  · cases h : parseSpecial (sign ++ '0' :: x :: v) with
    | none => rfl
    | some y => exact absurd h (hsp y)
  · intro h
    have h0 : '0' ∈ sign ++ '0' :: x :: v := by simp
    rcases h with h | h | h <;> rw [h] at h0 <;> revert h0 <;> decide

theorem goFloat_hex {w : List Char} (h : HexBegins w) (hu : '_' ∉ w) : goFloat w = hexNumber w := by
  obtain ⟨h1, h2, h3, h4⟩ := exp_not_x h
  unfold goFloat
  rw [parseFloat_goNumber h1 h4]
  unfold goNumber
  rw [h3, h2]
  simp only
  rw [if_pos (by rw [(hexPrefix_iff w).2 h]; rfl)]
  unfold goRest
  rw [if_neg (by simpa using hu)]

/-- **C52 (hexadecimal).** A field that is a hexadecimal number with absolute value `q` is read as a double with its sign whose
absolute value is nearest to `q` - or refused, and then `q` is above every finite double. -/
theorem C52_hexadecimal (w : Word) (s : Bool) (q : ℚ) (hw : IsHexNumber w s q) :
    (∃ n h, goFloat w = some (.fin s n h) ∧
      ∀ s' n' h', |(|F64.toRat (.fin s n h)| - q)| ≤ |(|F64.toRat (.fin s' n' h')| - q)|) ∨
    (goFloat w = none ∧ ∀ s' n' h', |F64.toRat (.fin s' n' h')| < q) := by
  obtain ⟨ip, fp, neg, ds, hf, hlt, rfl⟩ := hw
  obtain ⟨c1, c2, -, -⟩ := hexForm_chars hf
  have hexp : expVal ds = digitsValue ds := by
    rw [digitsValue_eq]
    rw [digitsValue_eq] at hlt
    exact expVal_aux ds 0 hlt
  have hp : parseHex w = some ((s, hexValue (ip ++ fp), fp.length), neg, digitsValue ds) :=
    (parseHex_iff _ _ _ _ _ _).2 ⟨ip, fp, ds, hf, rfl, rfl, hexp.symm⟩
  rw [goFloat_hex c1 c2]
  unfold hexNumber
  rw [hp]
  generalize hexValue (ip ++ fp) = m
  generalize fp.length = k
  generalize digitsValue ds = e
  cases neg with
  | false =>
    have := nearest_or_above s (m * 2 ^ e) (16 ^ k) (Nat.pow_pos (by decide))
    have hval : ((m * 2 ^ e : Nat) : ℚ) / ((16 ^ k : Nat) : ℚ) = (m : ℚ) / 16 ^ k * 2 ^ e := by
      push_cast; ring
    rw [hval] at this
    simpa only [Bool.false_eq_true, if_false] using this
  | true =>
    have := nearest_or_above s m (16 ^ k * 2 ^ e) (Nat.mul_pos (Nat.pow_pos (by decide)) (Nat.pow_pos (by decide)))
    have hval : (m : ℚ) / ((16 ^ k * 2 ^ e : Nat) : ℚ) = (m : ℚ) / 16 ^ k * (1 / 2 ^ e) := by
      push_cast; rw [mul_one_div, div_div]
    rw [hval] at this
    simpa only [if_true] using this

/-- what `underscoreScan` counts as a digit -/
def ScanDigit (hex : Bool) (c : Char) : Prop := (isDig c || (hex && isHexDig c)) = true

theorem scanDigit_underscore (hex : Bool) : ¬ ScanDigit hex '_' := by unfold ScanDigit; cases hex <;> decide

theorem getLast?_cons_some {c d : Char} {l : List Char} (h : l.getLast? = some d) : (c :: l).getLast? = some d := by
  rw [List.getLast?_cons, h]; rfl

theorem getLast?_cons_inv {c d : Char} {l : List Char} (h : (c :: l).getLast? = some d) : (l = [] ∧ c = d) ∨ l.getLast? = some d := by
  rw [List.getLast?_cons, Option.some.injEq] at h
  cases l with
  | nil => exact Or.inl ⟨rfl, h⟩
  | cons a l =>
    right
    rw [List.getLast?_cons] at h ⊢
    rw [Option.getD_some] at h
    rw [h]

theorem scan_iff (hex : Bool) : ∀ (l : List Char) (saw : Char), underscoreScan hex saw l = true ↔
    (saw = '_' → ∃ d, l.head? = some d ∧ ScanDigit hex d) ∧
    ∀ a b, l = a ++ '_' :: b → (∃ d, b.head? = some d ∧ ScanDigit hex d) ∧
      ((a = [] ∧ saw = '0') ∨ ∃ d, a.getLast? = some d ∧ ScanDigit hex d) := by
  intro l
  induction l with
  | nil => intro saw; simp [underscoreScan]
  | cons c cs ih =>
    intro saw
    rw [underscoreScan]
    by_cases hd : ScanDigit hex c
    · have hcu : c ≠ '_' := by rintro rfl; exact scanDigit_underscore hex hd
      rw [if_pos (show (isDig c || (hex && isHexDig c)) = true from hd), ih]
      constructor
      · rintro ⟨-, h⟩
        refine ⟨fun _ => ⟨c, rfl, hd⟩, ?_⟩
        intro a b hab
        cases a with
        | nil => exact absurd (List.cons.inj hab).1 hcu
        | cons a0 a =>
          rw [List.cons_append, List.cons.injEq] at hab
          obtain ⟨rfl, hab⟩ := hab
          obtain ⟨h1, h2⟩ := h a b hab
          refine ⟨h1, Or.inr ?_⟩
          rcases h2 with ⟨rfl, -⟩ | ⟨d, e1, e2⟩
          · exact ⟨c, rfl, hd⟩
          · exact ⟨d, getLast?_cons_some e1, e2⟩
      · rintro ⟨-, h⟩
        refine ⟨fun h' => absurd h' (by decide), ?_⟩
        intro a b hab
        obtain ⟨h1, h2⟩ := h (c :: a) b (by rw [hab]; rfl)
        refine ⟨h1, ?_⟩
        rcases h2 with ⟨h2, -⟩ | ⟨d, e1, e2⟩
        · cases h2
        · rcases getLast?_cons_inv e1 with ⟨h, -⟩ | h
          · exact Or.inl ⟨h, rfl⟩
          · exact Or.inr ⟨d, h, e2⟩
    · rw [if_neg (show ¬ (isDig c || (hex && isHexDig c)) = true from hd)]
      by_cases hcu : c = '_'
      · subst hcu
        rw [if_pos rfl]
        by_cases hs : saw = '0'
        · subst hs
          rw [if_neg (by decide), ih]
          constructor
          · rintro ⟨h0, h⟩
            refine ⟨fun h' => absurd h' (by decide), ?_⟩
            intro a b hab
            cases a with
            | nil => obtain rfl := (List.cons.inj hab).2; exact ⟨h0 rfl, Or.inl ⟨rfl, rfl⟩⟩
            | cons a0 a =>
              rw [List.cons_append, List.cons.injEq] at hab
              obtain ⟨rfl, hab⟩ := hab
              obtain ⟨h1, h2⟩ := h a b hab
              refine ⟨h1, Or.inr ?_⟩
              rcases h2 with ⟨-, h2⟩ | ⟨d, e1, e2⟩
              · exact absurd h2 (by decide)
              · exact ⟨d, getLast?_cons_some e1, e2⟩
          · rintro ⟨-, h⟩
            refine ⟨fun _ => (h [] cs rfl).1, ?_⟩
            intro a b hab
            obtain ⟨h1, h2⟩ := h ('_' :: a) b (by rw [hab]; rfl)
            refine ⟨h1, Or.inr ?_⟩
            rcases h2 with ⟨h2, -⟩ | ⟨d, e1, e2⟩
            · cases h2
            · rcases getLast?_cons_inv e1 with ⟨-, rfl⟩ | h
              · exact absurd e2 (scanDigit_underscore hex)
              · exact ⟨d, h, e2⟩
        · rw [if_pos (by simpa using hs)]
          constructor
          · intro h; cases h
          · rintro ⟨-, h⟩
            rcases (h [] cs rfl).2 with ⟨-, h⟩ | ⟨d, h, -⟩
            · exact absurd h hs
            · cases h
      · rw [if_neg hcu]
        by_cases hs : saw = '_'
        · rw [if_pos hs]
          constructor
          · intro h; cases h
          · rintro ⟨h, -⟩
            obtain ⟨d, e1, e2⟩ := h hs
            rw [List.head?_cons, Option.some.injEq] at e1
            subst e1
            exact absurd e2 hd
        · rw [if_neg hs, ih]
          constructor
          · rintro ⟨-, h⟩
            refine ⟨fun h' => absurd h' hs, ?_⟩
            intro a b hab
            cases a with
            | nil => exact absurd (List.cons.inj hab).1 hcu
            | cons a0 a =>
              rw [List.cons_append, List.cons.injEq] at hab
              obtain ⟨rfl, hab⟩ := hab
              obtain ⟨h1, h2⟩ := h a b hab
              refine ⟨h1, Or.inr ?_⟩
              rcases h2 with ⟨-, h2⟩ | ⟨d, e1, e2⟩
              · exact absurd h2 (by decide)
              · exact ⟨d, getLast?_cons_some e1, e2⟩
          · rintro ⟨-, h⟩
            refine ⟨fun h' => absurd h' (by decide), ?_⟩
            intro a b hab
            obtain ⟨h1, h2⟩ := h (c :: a) b (by rw [hab]; rfl)
            refine ⟨h1, Or.inr ?_⟩
            rcases h2 with ⟨h2, -⟩ | ⟨d, e1, e2⟩
            · cases h2
            · rcases getLast?_cons_inv e1 with ⟨-, rfl⟩ | h
              · exact absurd e2 hd
              · exact ⟨d, h, e2⟩

theorem digitIn_hex {w : List Char} (h : HexBegins w) (c : Char) : ScanDigit true c ↔ DigitIn w c := by
  unfold ScanDigit DigitIn
  rw [Bool.or_eq_true, isDig_iff, Bool.true_and, isHexDig_iff]
  simp [h]

theorem digitIn_dec {w : List Char} (h : ¬ HexBegins w) (c : Char) : ScanDigit false c ↔ DigitIn w c := by
  unfold ScanDigit DigitIn
  rw [Bool.or_eq_true, isDig_iff, Bool.false_and]
  simp [h]

/-- `underscoreOK` is the specification. -/
theorem underscoreOK_iff (w : List Char) : underscoreOK w = true ↔ Separators w := by
  unfold underscoreOK Separators
  by_cases hx : HexBegins w
  · rw [if_pos ((hexPrefix_iff w).2 hx), scan_iff]
    obtain ⟨sign, x, v, rfl, hsign, hxx⟩ := id hx
    have hss : (splitSign (sign ++ '0' :: x :: v)).2.drop 2 = v := by
      rcases hsign with rfl | rfl | rfl <;> rfl
    rw [hss]
    simp only [digitIn_hex hx]
    have hsu : '_' ∉ sign := by rcases hsign with rfl | rfl | rfl <;> decide
    have hxu : x ≠ '_' := by rcases hxx with rfl | rfl <;> decide
    constructor
    · rintro ⟨-, h⟩ a b hab
      have : ∃ a', a = sign ++ '0' :: x :: a' ∧ v = a' ++ '_' :: b := by
        rcases hsign with rfl | rfl | rfl
        · rcases a with _ | ⟨a0, _ | ⟨a1, a⟩⟩ <;> simp_all
          exact hab.1.symm
        · rcases a with _ | ⟨a0, _ | ⟨a1, _ | ⟨a2, a⟩⟩⟩ <;> simp_all
          exact ⟨hab.1.symm, hab.2.1.symm⟩
        · rcases a with _ | ⟨a0, _ | ⟨a1, _ | ⟨a2, a⟩⟩⟩ <;> simp_all
          exact ⟨hab.1.symm, hab.2.1.symm⟩
      obtain ⟨a', rfl, hv⟩ := this
      obtain ⟨h1, h2⟩ := h a' b hv
      refine ⟨h1, ?_⟩
      rcases h2 with ⟨rfl, -⟩ | ⟨d, e1, e2⟩
      · exact Or.inr ⟨sign, x, rfl, hsign, hxx⟩
      · left
        refine ⟨d, ?_, e2⟩
        rw [List.getLast?_append, getLast?_cons_some (getLast?_cons_some e1)]; rfl
    · intro h
      refine ⟨fun h' => absurd h' (by decide), ?_⟩
      intro a' b hv
      obtain ⟨h1, h2⟩ := h (sign ++ '0' :: x :: a') b (by rw [hv]; simp)
      refine ⟨h1, ?_⟩
      cases a' with
      | nil => simp
      | cons a0 a' =>
        right
        rcases h2 with ⟨d, e1, e2⟩ | ⟨sign', x', e, e1, e2⟩
        · refine ⟨d, ?_, e2⟩
          rw [List.getLast?_append, List.getLast?_cons, List.getLast?_cons, List.getLast?_cons] at e1
          rw [List.getLast?_cons]
          simpa using e1
        · exfalso
          have hx'0 : x' ≠ '0' := by rcases e2 with rfl | rfl <;> decide
          rcases hsign with rfl | rfl | rfl <;> rcases e1 with rfl | rfl | rfl <;> simp_all
  · have hpf : ¬ hexPrefix w = true := fun h => hx ((hexPrefix_iff w).1 h)
    rw [if_neg hpf, scan_iff]
    obtain ⟨sg, e1, e2⟩ := splitSign_form w
    generalize hr : (splitSign w).2 = r at e1
    simp only [digitIn_dec hx]
    have hsu : '_' ∉ sg := by rcases e2 with rfl | rfl | rfl <;> decide
    constructor
    · rintro ⟨-, h⟩ a b hab
      have : ∃ a', a = sg ++ a' ∧ r = a' ++ '_' :: b := by
        rw [e1] at hab
        rcases e2 with rfl | rfl | rfl
        · exact ⟨a, rfl, hab⟩
        · rcases a with _ | ⟨a0, a⟩ <;> simp_all
          exact hab.1.symm
        · rcases a with _ | ⟨a0, a⟩ <;> simp_all
          exact hab.1.symm
      obtain ⟨a', rfl, hv⟩ := this
      obtain ⟨h1, h2⟩ := h a' b hv
      refine ⟨h1, Or.inl ?_⟩
      rcases h2 with ⟨-, h2⟩ | ⟨d, e1, e2⟩
      · exact absurd h2 (by decide)
      · exact ⟨d, by rw [List.getLast?_append, e1]; rfl, e2⟩
    · intro h
      refine ⟨fun h' => absurd h' (by decide), ?_⟩
      intro a' b hv
      obtain ⟨h1, h2⟩ := h (sg ++ a') b (by rw [e1, hv]; simp)
      refine ⟨h1, Or.inr ?_⟩
      rcases h2 with ⟨d, f1, f2⟩ | ⟨sign', x', e, f1, f2⟩
      · cases a' with
        | nil =>
          exfalso
          rw [List.append_nil] at f1
          rcases e2 with rfl | rfl | rfl
          · cases f1
          · simp only [List.getLast?_singleton, Option.some.injEq] at f1
            subst f1
            rcases f2 with h | ⟨h, -⟩
            · revert h; decide
            · exact hx h
          · simp only [List.getLast?_singleton, Option.some.injEq] at f1
            subst f1
            rcases f2 with h | ⟨h, -⟩
            · revert h; decide
            · exact hx h
        | cons a0 a' =>
          refine ⟨d, ?_, f2⟩
          rw [List.getLast?_append, List.getLast?_cons] at f1
          rw [List.getLast?_cons]
          simpa using f1
      · exact absurd ⟨sign', x', '_' :: b, by rw [e1, hv, ← List.append_assoc, e]; simp, f1, f2⟩ hx

theorem goFloat_underscore {w : List Char} (hu : '_' ∈ w) : goFloat w = goRest w := by
  have hplain : ∀ man : List Char, '_' ∈ man → parsePlain man = none := by
    intro man hm
    cases h : parsePlain man with
    | none => rfl
    | some t =>
      obtain ⟨s', m', k'⟩ := t
      have := (plain_no_exp ((isPlain_iff _ s' _).2 ⟨m', k', h, rfl⟩) '_' hm).2
      exact absurd this (by decide)
  have hns : ¬ IsSpecial w := by
    intro h
    rcases h with h | h | h <;> rw [h] at hu <;> revert hu <;> decide
  have hsp : parseSpecial w = none := by
    cases h : parseSpecial w with
    | none => rfl
    | some y =>
      exfalso
      have hl : '_' ∈ w.map asciiLower := List.mem_map.2 ⟨'_', hu, by decide⟩
      unfold parseSpecial at h
      simp only at h
      split at h
      · next hn => rw [hn] at hl; revert hl; decide
      · split at h
        · next hn =>
          obtain ⟨sg, e1, e2⟩ := splitSign_form (w.map asciiLower)
          rw [e1] at hl
          rcases List.mem_append.1 hl with hl | hl
          · rcases e2 with rfl | rfl | rfl <;> revert hl <;> decide
          · rcases hn with hn | hn <;> rw [hn] at hl <;> revert hl <;> decide
        · cases h
  have hsci : parseSci w = none := by
    cases h : parseSci w with
    | none => rfl
    | some t =>
      exfalso
      obtain ⟨man, ex, ds, c, s, q, rfl, h1, h2, h3, h4, -⟩ := sci_form h
      simp only [List.mem_append, List.mem_cons] at hu
      rcases hu with hu | hu | hu | hu
      · exact absurd (plain_no_exp h1 _ hu).2 (by decide)
      · rcases h2 with rfl | rfl <;> revert hu <;> decide
      · rcases h3 with rfl | rfl | rfl <;> revert hu <;> decide
      · have := h4 _ hu; revert this; decide
  unfold goFloat
  rw [parseFloat_goNumber (hplain w hu) hns]
  unfold goNumber
  rw [hsp, hsci]
  simp only
  rw [if_pos]
  rw [Bool.or_eq_true]
  right
  simpa using hu

theorem goFloat_no_underscore {w : List Char} (hu : '_' ∉ w) : goFloat w = parseFloat (goNumber hexNumber) w := by
  unfold goFloat parseFloat
  have : goNumber goRest w = goNumber hexNumber w := by
    unfold goNumber goRest
    have hc : w.contains '_' = false := by simpa using hu
    rw [hc]; rfl
  rw [this]

/-- **C52 (underscores).** A field with underscores is accepted if and only if every underscore stands between two digits (or
between `0x` and a digit) and the field without the underscores is accepted; it is read as the same number. -/
theorem C52_underscores (w : Word) (hu : '_' ∈ w) (x : F64) :
    goFloat w = some x ↔ Separators w ∧ goFloat (w.filter (fun c => c != '_')) = some x := by
  have hs : '_' ∉ w.filter (fun c => c != '_') := by simp
  rw [goFloat_underscore hu, goFloat_no_underscore hs]
  unfold goRest
  rw [if_pos (by simpa using hu), ← underscoreOK_iff]
  by_cases h : underscoreOK w = true
  · rw [if_pos h]; simp [h]
  · rw [if_neg h]; simp [h]

/-- `w` is spelled like a number: decimal, decimal with an exponent, hexadecimal, or a special value. -/
def IsNumberForm (w : List Char) : Prop :=
  (∃ s q, IsPlainNumber w s q) ∨ IsSciForm w ∨ IsSpecialForm w ∨ ∃ s ip fp neg ds, IsHexForm w s ip fp neg ds

/-- **C52 (only numbers, all spellings).** A field is accepted only if it is spelled like a number - decimal, with or without
exponent, hexadecimal, special - possibly with underscores between digits; any other field makes `Load` fail. -/
theorem C52_only_numbers_all (w : Word) :
    (∀ x, goFloat w = some x → IsNumberForm w ∨ ('_' ∈ w ∧ Separators w ∧ IsNumberForm (w.filter (fun c => c != '_')))) ∧
    (¬ IsNumberForm w → ¬ ('_' ∈ w ∧ Separators w ∧ IsNumberForm (w.filter (fun c => c != '_'))) →
      ∀ (p : Pass) (lines : List (List Char)), RawLines p.text lines → ∀ l ∈ lines, (stripCR l).head? ≠ some ' ' →
        ∀ ws : List Word, IsWords (stripCR l) ws → w ∈ ws.tail → ∃ e, load (goNumber goRest) p = .err e) := by
  have hno : ∀ (w : Word) x, '_' ∉ w → goFloat w = some x → IsNumberForm w := by
    intro w x hu h
    by_cases hx : HexBegins w
    · rw [goFloat_hex hx hu] at h
      unfold hexNumber at h
      split at h
      · next s m k neg e hp =>
        obtain ⟨ip, fp, ds, hf, -⟩ := (parseHex_iff _ _ _ _ _ _).1 hp
        exact Or.inr (Or.inr (Or.inr ⟨s, ip, fp, neg, ds, hf⟩))
      · cases h
    · rcases (C52_only_numbers goRest w hu (by
        intro sign v hs
        constructor
        · intro h; exact hx ⟨sign, 'x', v, h, hs, Or.inl rfl⟩
        · intro h; exact hx ⟨sign, 'X', v, h, hs, Or.inr rfl⟩)).1 x h with h | h | h
      · exact Or.inl h
      · exact Or.inr (Or.inl h)
      · exact Or.inr (Or.inr (Or.inl h))
  have h1 : ∀ x, goFloat w = some x → IsNumberForm w ∨ ('_' ∈ w ∧ Separators w ∧ IsNumberForm (w.filter (fun c => c != '_'))) := by
    intro x h
    by_cases hu : '_' ∈ w
    · obtain ⟨h1, h2⟩ := (C52_underscores w hu x).1 h
      exact Or.inr ⟨hu, h1, hno _ x (by simp) h2⟩
    · exact Or.inl (hno w x hu h)
  refine ⟨h1, ?_⟩
  intro n1 n2 p lines hr l hl hsp ws hws hw
  refine C52_bad_line (goNumber goRest) p lines hr l hl hsp ws hws (Or.inr ⟨w, hw, ?_⟩)
  cases h : parseFloat (goNumber goRest) w with
  | none => rfl
  | some x => rcases h1 x h with h | h <;> contradiction

/-- witnesses: `-0x1.8p-3` is -3/16; `0x_1F` and `1_000` have their underscores between digits; `1__0` and `_1` do not -/
example : IsHexNumber "-0x1.8p-3".toList true (3 / 16) ∧ Separators "1_000".toList ∧ Separators "-0x_1Fp0".toList ∧
    ¬ Separators "1__0".toList ∧ ¬ Separators "_1".toList ∧ ¬ Separators "1_e5".toList := by
  refine ⟨⟨['1'], ['8'], true, ['3'], ⟨['-'], "1.8".toList, ['-'], 'x', 'p', rfl, by simp, by simp, ?_, by simp, by simp, by simp,
    by simp, by rw [allDigits_iff]; decide, by simp⟩, by decide, ?_⟩, (underscoreOK_iff _).1 (by decide), (underscoreOK_iff _).1 (by decide), ?_, ?_, ?_⟩
  · intro d hd; rw [← isHexDig_iff]; revert d; decide
  · have e1 : hexValue (['1'] ++ ['8']) = 24 := by decide
    have e2 : digitsValue ['3'] = 3 := by decide
    rw [e1, e2]; norm_num
  · rw [← underscoreOK_iff]; decide
  · rw [← underscoreOK_iff]; decide
  · rw [← underscoreOK_iff]; decide

/-- witness: the field `0b1` is none of these spellings -/
example : goFloat "0b1".toList = none := by decide +kernel

end Wego.Props
