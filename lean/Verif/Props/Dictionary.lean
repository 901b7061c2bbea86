import Verif.Proofs.Dictionary

/-! # C01, C02: the dictionary -/

namespace Wego.Props
open Wego Wego.Spec

/-- The state after a sequence of `Add(words...)` calls on a new dictionary. -/
def addCalls (calls : List (List Word)) : Res Dictionary :=
  forEach calls Dictionary.new (fun ws d => d.add ws)

theorem addCalls_rep (calls : List (List Word)) :
    ∃ d, addCalls calls = .ok d ∧ d.Rep calls.flatten := by
  suffices H : ∀ (d : Dictionary) (ws : List Word), d.Rep ws →
      ∃ d', forEach calls d (fun ws d => d.add ws) = .ok d' ∧ d'.Rep (ws ++ calls.flatten) by
    simpa [addCalls] using H _ _ Dictionary.rep_new
  induction calls with
  | nil => intro d ws h; exact ⟨d, rfl, by simpa using h⟩
  | cons c cs ih =>
    intro d ws h
    obtain ⟨d1, h1, r1⟩ := Dictionary.add_rep h c
    obtain ⟨d2, h2, r2⟩ := ih d1 _ r1
    exact ⟨d2, by simp [h1, h2], by simpa using r2⟩

/-- **C01.** Ids are dense, ordered by first occurrence, and `ID`/`Word` are inverse. -/
theorem C01_dictionary_ids (calls : List (List Word)) :
    ∃ d, addCalls calls = .ok d ∧
      d.len = calls.flatten.dedup.length ∧
      (∀ w, d.id? w =
        if w ∈ calls.flatten then some (distinctBefore calls.flatten w) else none) ∧
      (∀ w i, d.id? w = some i → i < d.len ∧ d.word i = .ok (some w)) ∧
      (∀ i : Nat, i < d.len → ∃ w, d.word i = .ok (some w) ∧ d.id? w = some i) ∧
      (∀ i : Int, (d.len : Int) ≤ i → d.word i = .ok none) := by
  obtain ⟨d, hd, r⟩ := addCalls_rep calls
  have hword : ∀ i : Nat, (h : i < (firstOcc calls.flatten).length) →
      d.word i = .ok (some (firstOcc calls.flatten)[i]) := by
    intro i h
    have h1 : ¬ ((i : Int) ≥ (d.maxid : Int)) := by rw [r.maxid]; omega
    have h2 : ¬ ((i : Int) < 0) := by omega
    simp only [Dictionary.word, h1, h2, if_false, Int.toNat_natCast, r.id2word]
    rw [idx_of_lt _ _ h]; rfl
  refine ⟨d, hd, r.len_eq, r.id?_eq, ?_, ?_, ?_⟩
  · intro w i h
    rw [Dictionary.id?, r.get] at h
    split at h
    · next hw =>
      simp only [Option.some.injEq] at h
      have hlt : i < (firstOcc calls.flatten).length := by
        rw [← h]; exact List.idxOf_lt_length_iff.2 (by simpa using hw)
      refine ⟨by rw [Dictionary.len, r.maxid]; exact hlt, ?_⟩
      rw [hword i hlt]
      subst h; simp
    · simp at h
  · intro i hi
    have hlt : i < (firstOcc calls.flatten).length := by rw [Dictionary.len, r.maxid] at hi; exact hi
    refine ⟨_, hword i hlt, ?_⟩
    have hm : (firstOcc calls.flatten)[i] ∈ calls.flatten := by
      rw [← mem_firstOcc]; exact List.getElem_mem hlt
    rw [Dictionary.id?, r.get, if_pos hm]
    rw [List.Nodup.idxOf_getElem (nodup_firstOcc _) i hlt]
  · intro i hi
    simp [Dictionary.word, show i ≥ (d.maxid : Int) from hi]

/-- `C01_dictionary_ids` on `Add("a","b"); Add("b","c")`: three ids, `c` is the third word. -/
example : ∃ d, addCalls [[['a'], ['b']], [['b'], ['c']]] = .ok d ∧ d.len = 3 ∧ d.id? ['c'] = some 2 := by
  obtain ⟨d, h, h1, h2, _⟩ := C01_dictionary_ids [[['a'], ['b']], [['b'], ['c']]]
  exact ⟨d, h, h1, (h2 ['c']).trans (by decide)⟩

/-- **C02.** Frequencies are exact. -/
theorem C02_dictionary_freqs (calls : List (List Word)) :
    ∃ d, addCalls calls = .ok d ∧
      (∀ w, d.wordFreq w = .ok (calls.flatten.count w)) ∧
      (∀ w i, d.id? w = some i → d.idFreq i = .ok (calls.flatten.count w)) ∧
      (∀ i : Int, (d.len : Int) ≤ i → d.idFreq i = .ok 0) ∧
      (∀ i : Nat, i < d.len → ∃ f, d.idFreq i = .ok f ∧ 1 ≤ f) ∧
      (∃ fs : List Nat, fs.length = d.len ∧ (∀ i (h : i < fs.length), d.idFreq i = .ok fs[i]) ∧
        fs.sum = calls.flatten.length) := by
  obtain ⟨d, hd, r⟩ := addCalls_rep calls
  refine ⟨d, hd, ?_, ?_, ?_, ?_, ?_⟩
  · intro w
    rw [Dictionary.wordFreq, r.get]
    by_cases hw : w ∈ calls.flatten
    · have : (firstOcc calls.flatten).idxOf w < d.cfs.length := by
        rw [r.cfs, List.length_map]; exact List.idxOf_lt_length_iff.2 (by simpa using hw)
      simp only [hw, if_true]
      rw [idx_of_lt _ _ this]
      simp [r.cfs]
    · simp only [hw, if_false]
      rw [List.count_eq_zero.2 hw]
  · intro w i h
    rw [Dictionary.id?, r.get] at h
    split at h
    · next hw =>
      simp only [Option.some.injEq] at h
      subst h
      exact r.idFreq_id w hw
    · simp at h
  · intro i hi
    simp [Dictionary.idFreq, show i ≥ (d.maxid : Int) from hi]
  · intro i hi
    have hlt : i < (firstOcc calls.flatten).length := by rw [Dictionary.len, r.maxid] at hi; exact hi
    refine ⟨_, r.idFreq_nat i, ?_⟩
    simp only [List.getElem?_eq_getElem hlt]
    have hm : (firstOcc calls.flatten)[i] ∈ calls.flatten := by
      rw [← mem_firstOcc]; exact List.getElem_mem hlt
    exact List.count_pos_iff.2 hm
  · refine ⟨(firstOcc calls.flatten).map (fun w => calls.flatten.count w), ?_, ?_, ?_⟩
    · simp [Dictionary.len, r.maxid]
    · intro i h
      have h' : i < (firstOcc calls.flatten).length := by simpa using h
      rw [r.idFreq_nat i]
      simp [List.getElem?_eq_getElem h']
    · exact Dictionary.sum_count_firstOcc _

/-- `C02_dictionary_freqs` on `Add("a","b"); Add("b","c")`: `b` was added twice, `z` never. -/
example : ∃ d, addCalls [[['a'], ['b']], [['b'], ['c']]] = .ok d ∧ d.wordFreq ['b'] = .ok 2 ∧
    d.wordFreq ['z'] = .ok 0 := by
  obtain ⟨d, h, h1, _⟩ := C02_dictionary_freqs [[['a'], ['b']], [['b'], ['c']]]
  exact ⟨d, h, h1 _, h1 _⟩

/-- Negative ids, which no API call returns, panic. -/
theorem C01_negative_id_panics (d : Dictionary) (i : Int) (h : i < 0) :
    d.word i = .panic .indexOutOfRange ∧ d.idFreq i = .panic .indexOutOfRange := by
  have : ¬ (i ≥ (d.maxid : Int)) := by omega
  simp [Dictionary.word, Dictionary.idFreq, this, h]

/-- `C01_negative_id_panics` at the id -1. -/
example := C01_negative_id_panics Dictionary.new (-1) (by decide)

/-- A concrete case: `Add("a","b"); Add("a")`. -/
example : ∃ d, addCalls [[['a'], ['b']], [['a']]] = .ok d ∧ d.len = 2 ∧ d.id? ['b'] = some 1 ∧
    d.wordFreq ['a'] = .ok 2 ∧ d.word 1 = .ok (some ['b']) := by
  refine ⟨_, rfl, ?_⟩; decide

end Wego.Props
