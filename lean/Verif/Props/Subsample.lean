import Mathlib.MeasureTheory.Measure.Lebesgue.Basic
import Verif.Model.Subsample
import Verif.Proofs.F64Sqrt
import Verif.Props.Dictionary

/-! # C27: subsampling -/

namespace Wego.Props
open Wego Wego.Spec MeasureTheory

/-- After any `Add` calls, the table has one entry per word: `sampleValue` of its number of occurrences. -/
theorem subsamples_eq {F : Type} [GoFloat F] (d : Dictionary) (ws : List Word) (r : d.Rep ws) (t : F) :
    subsamples d t = .ok ((firstOcc ws).map (fun w => sampleValue t (ws.count w))) := by
  obtain ⟨s, h1, h2⟩ := forN_inv
    (fun i (s : List F) => s = ((firstOcc ws).map (fun w => sampleValue t (ws.count w))).take i)
    d.maxid [] (fun i acc => d.idFreq i >>= fun f => .ok (acc ++ [sampleValue t f])) (by simp) (by
      intro i s hi hs
      rw [r.maxid] at hi
      rw [r.idFreq_nat]
      simp only [hi, List.getElem?_eq_getElem, Res.ok_bind]
      refine ⟨_, rfl, ?_⟩
      subst hs
      rw [List.take_add_one]
      simp [hi])
  unfold subsamples
  rw [h1, h2, r.maxid, List.take_of_length_le (by simp)]

theorem trial_word {F : Type} [GoFloat F] (d : Dictionary) (ws : List Word) (r : d.Rep ws) (t u : F) (w : Word)
    (hw : w ∈ ws) (i : Nat) (hi : d.id? w = some i) :
    ∃ s, subsamples d t = .ok s ∧ trial s i u = .ok (GoFloat.lt u (sampleValue t (ws.count w))) := by
  refine ⟨_, subsamples_eq d ws r t, ?_⟩
  rw [Dictionary.id?, r.get, if_pos hw] at hi
  simp only [Option.some.injEq] at hi
  have hlt : (firstOcc ws).idxOf w < (firstOcc ws).length := List.idxOf_lt_length_iff.2 (by simpa using hw)
  subst hi
  have hn : ¬ (((firstOcc ws).idxOf w : Int) < 0) := by omega
  unfold trial idxI
  simp only [hn, if_false, Int.toNat_natCast]
  rw [idx_of_lt _ _ (by simpa using hlt)]
  simp

/-- The acceptance probability of a word that occurs `f` times. -/
noncomputable def acceptProb (threshold : ℝ) (f : Nat) : ℝ := max 0 (1 - Real.sqrt (threshold / f))

theorem sampleValue_real (t : ℝ) (f : Nat) : sampleValue t f = acceptProb t f := by
  unfold sampleValue acceptProb
  simp only [real_ofRat, real_sqrt, real_div, real_sub, real_lt, real_fzero, decide_eq_true_eq]
  push_cast
  split
  · next h => rw [max_eq_left (le_of_lt h)]
  · next h => rw [max_eq_right (not_lt.1 h)]

/-- **C27 (probability).** For every document, word of it and threshold `>= 0`: when `rand.Float64()` is
uniform on `[0,1)`, the set of outcomes for which `Trial` accepts the word has measure
`max(0, 1 - sqrt(threshold / occurrences))`. -/
theorem C27_accept_probability (calls : List (List Word)) (t : ℝ) (w : Word) (hw : w ∈ calls.flatten) :
    ∃ d s i, addCalls calls = .ok d ∧ subsamples d t = .ok s ∧ d.id? w = some i ∧
      volume {u : ℝ | u ∈ Set.Ico 0 1 ∧ trial s (i : Int) u = .ok true} =
        ENNReal.ofReal (acceptProb t (calls.flatten.count w)) := by
  obtain ⟨d, hd, r⟩ := addCalls_rep calls
  have hi := r.id?_eq w
  rw [if_pos hw] at hi
  obtain ⟨s, hs, _⟩ := trial_word d _ r t 0 w hw _ hi
  refine ⟨d, s, _, hd, hs, hi, ?_⟩
  have hset : {u : ℝ | u ∈ Set.Ico 0 1 ∧ trial s ((distinctBefore calls.flatten w : Nat) : Int) u = .ok true} =
      Set.Ico 0 (acceptProb t (calls.flatten.count w)) := by
    ext u
    obtain ⟨s', hs', ht⟩ := trial_word d _ r t u w hw _ hi
    rw [hs] at hs'
    simp only [Res.ok.injEq] at hs'
    subst hs'
    simp only [Set.mem_setOf_eq, ht, sampleValue_real, real_lt, Res.ok.injEq, decide_eq_true_eq, Set.mem_Ico]
    have h1 : acceptProb t (calls.flatten.count w) ≤ 1 := by
      unfold acceptProb
      refine max_le (by norm_num) ?_
      have := Real.sqrt_nonneg (t / (calls.flatten.count w))
      linarith
    constructor
    · rintro ⟨⟨h0, _⟩, h2⟩; exact ⟨h0, h2⟩
    · rintro ⟨h0, h2⟩; exact ⟨⟨h0, by linarith⟩, h2⟩
  rw [hset, Real.volume_Ico, sub_zero]

/-- `C27_accept_probability` for `a`, which occurs twice, and threshold 1/2: the probability is 1/2. -/
example : ∃ d s i, addCalls [[['a'],['b'],['a']]] = .ok d ∧ subsamples d (1/2 : ℝ) = .ok s ∧ d.id? ['a'] = some i ∧
    volume {u : ℝ | u ∈ Set.Ico 0 1 ∧ trial s (i : Int) u = .ok true} = ENNReal.ofReal (1/2) := by
  obtain ⟨d, s, i, h1, h2, h3, h4⟩ := C27_accept_probability [[['a'],['b'],['a']]] (1/2) ['a'] (by decide)
  refine ⟨d, s, i, h1, h2, h3, h4.trans ?_⟩
  rw [show (([[['a'],['b'],['a']]] : List (List Word)).flatten.count ['a']) = 2 by decide]
  congr 1
  unfold acceptProb
  rw [show (1/2 : ℝ) / ((2 : ℕ) : ℝ) = (1/2) ^ 2 by norm_num, Real.sqrt_sq (by norm_num)]
  norm_num

/-- **C27 (shape).** The probability lies in `[0,1]`, does not decrease with the number of occurrences
(for thresholds `>= 0`; so more frequent words are kept more often), is 1 for threshold 0 and 0 when the
threshold is at least the number of occurrences. -/
theorem C27_accept_shape (t : ℝ) (ht : 0 ≤ t) (f g : Nat) (hf : 0 < f) (hfg : f ≤ g) :
    0 ≤ acceptProb t f ∧ acceptProb t f ≤ 1 ∧ acceptProb t f ≤ acceptProb t g ∧
      acceptProb 0 f = 1 ∧ ((f : ℝ) ≤ t → acceptProb t f = 0) := by
  have hf' : (0 : ℝ) < f := by exact_mod_cast hf
  have hfg' : (f : ℝ) ≤ g := by exact_mod_cast hfg
  refine ⟨le_max_left _ _, ?_, ?_, ?_, ?_⟩
  · refine max_le (by norm_num) ?_
    have := Real.sqrt_nonneg (t / f)
    linarith
  · unfold acceptProb
    refine max_le_max_left _ ?_
    have := Real.sqrt_le_sqrt (div_le_div_of_nonneg_left ht hf' hfg')
    linarith
  · simp [acceptProb]
  · intro h
    unfold acceptProb
    rw [max_eq_left]
    have h1 : 1 ≤ t / f := by rw [le_div_iff₀ hf']; linarith
    have h2 : Real.sqrt 1 ≤ Real.sqrt (t / f) := Real.sqrt_le_sqrt h1
    rw [Real.sqrt_one] at h2
    linarith

/-- `C27_accept_shape` for the frequencies 2 and 5. -/
example := C27_accept_shape (1/1000) (by norm_num) 2 5 (by decide) (by decide)

/-- Position of the sample value in binary64. -/
theorem key_sampleValue (t : F64) (a : Nat) (ha : F64.key t = some (a : Int)) (k : Nat) (hk : 0 < k) (hk2 : k ≤ 2 ^ 53) :
    ∃ b : Nat, F64.key (sampleValue t k) =
        some (max 0 (if F64.skey b < ovf then F64.rkey (1 - (F64.skey b : ℚ) / one1) else -(ovf : Int))) ∧
      (b : Int) = if a < ovf then F64.rkey ((a : ℚ) / one1 / k) else (ovf : Int) := by
  obtain ⟨b, hb, hbe⟩ := F64.key_div_nat t a ha k hk hk2
  refine ⟨b, ?_, hbe⟩
  have hs := F64.key_sqrt _ b hb
  have hz := F64.key_one_sub _ _ hs
  have h0 : F64.key (fzero : F64) = some 0 := by
    have := F64.key_round 0 false
    rw [show F64.rkey 0 = 0 from le_antisymm (F64.rkey_nonpos (le_refl _)) (F64.rkey_nonneg (le_refl _))] at this
    exact this
  unfold sampleValue
  dsimp only
  set z := (GoFloat.ofRat 1 : F64) -. GoFloat.sqrt (t /. GoFloat.ofRat (k : ℚ)) with hzd
  have hz' : F64.key z = some (if F64.skey b < ovf then F64.rkey (1 - (F64.skey b : ℚ) / one1) else -(ovf : Int)) := hz
  have hlt : GoFloat.lt z fzero = true ↔
      (if F64.skey b < ovf then F64.rkey (1 - (F64.skey b : ℚ) / one1) else -(ovf : Int)) < 0 := by
    rw [F64.lt_iff]
    constructor
    · rintro ⟨x, y, h1, h2, h3⟩
      rw [hz'] at h1; rw [h0] at h2
      simp only [Option.some.injEq] at h1 h2
      rw [h1]; rw [← h2] at h3; exact h3
    · intro h; exact ⟨_, _, hz', h0, h⟩
  split
  · next h => rw [h0, max_eq_left (le_of_lt (hlt.1 h))]
  · next h => rw [hz', max_eq_right (not_lt.1 (fun hc => h (hlt.2 hc)))]

/-- **C27 (binary64).** The same in float64 arithmetic, for every threshold `t >= 0` (infinity included)
and frequencies `1 <= f <= g <= 2^53`: the table entry is a number between 0 and 1 and does not decrease
with the frequency. -/
theorem C27_float64 (t : F64) (ht : GoFloat.le fzero t = true) (f g : Nat) (hf : 0 < f) (hfg : f ≤ g)
    (hg : g ≤ 2 ^ 53) :
    GoFloat.le fzero (sampleValue t f) = true ∧ GoFloat.le (sampleValue t f) (GoFloat.ofRat 1) = true ∧
      GoFloat.le (sampleValue t f) (sampleValue t g) = true := by
  have h0 : F64.key (fzero : F64) = some 0 := by
    have := F64.key_round 0 false
    rw [show F64.rkey 0 = 0 from le_antisymm (F64.rkey_nonpos (le_refl _)) (F64.rkey_nonneg (le_refl _))] at this
    exact this
  obtain ⟨a, ha⟩ : ∃ a : Nat, F64.key t = some (a : Int) := by
    rw [F64.le_iff] at ht
    obtain ⟨x, y, h1, h2, h3⟩ := ht
    rw [h0] at h1
    simp only [Option.some.injEq] at h1
    obtain ⟨n, hn⟩ := Int.eq_ofNat_of_zero_le (show 0 ≤ y by omega)
    exact ⟨n, by rw [h2, hn]⟩
  obtain ⟨b, hb, hbe⟩ := key_sampleValue t a ha f hf (by omega)
  obtain ⟨c, hc, hce⟩ := key_sampleValue t a ha g (by omega) hg
  have hp : (0 : ℚ) < one1 := by exact_mod_cast one1_pos
  have h1 : F64.key (GoFloat.ofRat 1 : F64) = some (F64.rkey 1) := F64.key_round 1 false
  have hcb : c ≤ b := by
    have : (c : Int) ≤ b := by
      rw [hbe, hce]
      split
      · apply F64.rkey_mono
        have hf' : (0 : ℚ) < f := by exact_mod_cast hf
        have hfg' : (f : ℚ) ≤ g := by exact_mod_cast hfg
        exact div_le_div_of_nonneg_left (by positivity) hf' hfg'
      · exact le_refl _
    exact_mod_cast this
  have hs := F64.skey_mono hcb
  refine ⟨(F64.le_iff _ _).2 ⟨_, _, h0, hb, le_max_left _ _⟩, (F64.le_iff _ _).2 ⟨_, _, hb, h1, ?_⟩,
    (F64.le_iff _ _).2 ⟨_, _, hb, hc, ?_⟩⟩
  · refine max_le (F64.rkey_nonneg (by norm_num)) ?_
    split
    · apply F64.rkey_mono
      have : (0 : ℚ) ≤ (F64.skey b : ℚ) / one1 := by positivity
      linarith
    · have := F64.rkey_nonneg (q := 1) (by norm_num)
      have := ovf_pos
      omega
  · refine max_le_max_left _ ?_
    split
    · next hlt =>
      rw [if_pos (lt_of_le_of_lt hs hlt)]
      apply F64.rkey_mono
      have : (F64.skey c : ℚ) ≤ F64.skey b := by exact_mod_cast hs
      have := div_le_div_of_nonneg_right this (le_of_lt hp)
      linarith
    · split
      · next hlt =>
        have : -(ovf : Int) ≤ F64.rkey (1 - (F64.skey c : ℚ) / one1) := by
          unfold F64.rkey
          dsimp only
          have := Nat.min_le_right (roundMag ((1 - (F64.skey c : ℚ) / one1).num.natAbs * one1) (1 - (F64.skey c : ℚ) / one1).den) ovf
          split <;> omega
        exact this
      · exact le_refl _

/-- `C27_float64` for the threshold 1/1000 and the frequencies 2 and 5. -/
example := C27_float64 (GoFloat.ofRat (1/1000)) (by decide +kernel) 2 5 (by decide) (by decide) (by norm_num)

example : GoFloat.le (fzero : F64) (GoFloat.ofRat (1/1000)) = true := by decide +kernel

end Wego.Props
