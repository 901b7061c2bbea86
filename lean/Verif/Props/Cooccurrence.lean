import Verif.Proofs.Cooccurrence
import Verif.Proofs.F64

/-! # C04, C05: co-occurrence counting -/

namespace Wego
theorem bumpN_f64 (k : Nat) (hk : 1 ≤ k) (hk2 : k ≤ 2 ^ 53) :
    bumpN none (GoFloat.ofRat 1 : F64) k = some (F64.round (k : ℚ)) := by
  induction k with
  | zero => omega
  | succ k ih =>
    have h1 : (GoFloat.ofRat 1 : F64) = .fin false (1 * one1) (isRep_nat (by norm_num)) := by
      have := F64.round_nat 1 (by norm_num); simpa using this
    have h0 : ((bumpN none (GoFloat.ofRat 1 : F64) k).getD fzero) =
        .fin false (k * one1) (isRep_nat (by omega)) := by
      by_cases h : k = 0
      · subst h
        have := F64.round_nat 0 (by norm_num)
        simpa [bumpN, fzero] using this
      · rw [ih (by omega) (by omega), Option.getD_some, F64.round_nat k (by omega)]
    rw [bumpN, h0, h1]
    show some (F64.add _ _) = _
    unfold F64.add
    have e : F64.toRat (.fin false (k * one1) (isRep_nat (by omega)))
        + F64.toRat (.fin false (1 * one1) (isRep_nat (by norm_num))) = ((k + 1 : Nat) : ℚ) := by
      rw [← F64.round_nat k (by omega), ← F64.round_nat 1 (by norm_num), F64.toRat_round_nat k (by omega),
        F64.toRat_round_nat 1 (by norm_num)]
      push_cast; ring
    simp only [e, Bool.and_false]

theorem bumpN_f64_sat (k : Nat) (hk : 2 ^ 53 ≤ k) :
    bumpN none (GoFloat.ofRat 1 : F64) k = some (F64.round ((2 ^ 53 : Nat) : ℚ)) := by
  induction k, hk using Nat.le_induction with
  | base => exact bumpN_f64 _ (by norm_num) (le_refl _)
  | succ k hk ih =>
    rw [bumpN, ih, Option.getD_some]
    congr 1
    have : (F64.round ((2 ^ 53 : Nat) : ℚ)) +. (GoFloat.ofRat 1 : F64) = F64.round ((2 ^ 53 : Nat) : ℚ) := by
      decide +kernel
    exact this

end Wego

namespace Wego.Props
open Wego

/-- The entry of the matrix for the ids `a`, `b`. -/
noncomputable def entry {F : Type} [GoFloat F] (co : Cooccurrence F) (a b : Nat) : Option F :=
  co.encodedMatrix.get? (encodeBigram (BitVec.ofNat 64 a) (BitVec.ofNat 64 b))

/-- A sequence of `Add` calls on a new co-occurrence of the given count type. -/
def cooCalls {F : Type} [GoFloat F] (typ : String) (calls : List (Nat × Nat)) : Res (Cooccurrence F) :=
  Cooccurrence.new typ >>= fun co => forEach calls co (fun q co => co.add q.1 q.2)

/-- Number of calls for the unordered pair `{a, b}`. -/
def pairCount (calls : List (Nat × Nat)) (a b : Nat) : Nat :=
  calls.countP (fun q => q = (a, b) ∨ q = (b, a))

theorem countP_key (calls : List (Nat × Nat)) (h : ∀ q ∈ calls, q.1 < 2^32 ∧ q.2 < 2^32)
    (a b : Nat) (ha : a < 2^32) (hb : b < 2^32) :
    calls.countP (fun q => pairKey q = pairKey (a, b)) = pairCount calls a b := by
  unfold pairCount
  apply List.countP_congr
  intro q hq
  have := pairKey_eq_iff q (a, b) (h q hq).1 (h q hq).2 ha hb
  simp only [decide_eq_true_eq]
  exact this

theorem new_inc {F : Type} [GoFloat F] :
    (Cooccurrence.new "inc" : Res (Cooccurrence F)) = .ok ⟨countInc, GoMap.empty⟩ := by
  simp [Cooccurrence.new, countInc]

theorem new_prox {F : Type} [GoFloat F] :
    (Cooccurrence.new "prox" : Res (Cooccurrence F)) = .ok ⟨countProx, GoMap.empty⟩ := by
  simp [Cooccurrence.new, countProx]

theorem cooCalls_inc {F : Type} [GoFloat F] (calls : List (Nat × Nat))
    (h : ∀ q ∈ calls, q.1 < 2^32 ∧ q.2 < 2^32) :
    ∃ co : Cooccurrence F, cooCalls "inc" calls = .ok co ∧
      ∀ a b, a < 2^32 → b < 2^32 →
        entry co a b = bumpN none (GoFloat.ofRat 1) (pairCount calls a b) := by
  obtain ⟨co, h1, _, _, h4⟩ := addPairs_inc (F := F) calls ⟨countInc, GoMap.empty⟩ rfl
  refine ⟨co, ?_, ?_⟩
  · unfold cooCalls; rw [new_inc]; exact h1
  · intro a b ha hb
    have := h4 (pairKey (a, b))
    rw [countP_key calls h a b ha hb] at this
    exact this

/-- **C04 (exact arithmetic).** -/
theorem C04_inc_counts (calls : List (Nat × Nat)) (h : ∀ q ∈ calls, q.1 < 2^32 ∧ q.2 < 2^32) :
    ∃ co : Cooccurrence ℝ, cooCalls "inc" calls = .ok co ∧
      ∀ a b, a < 2^32 → b < 2^32 →
        entry co a b = if pairCount calls a b = 0 then none else some (pairCount calls a b : ℝ) := by
  obtain ⟨co, h1, h2⟩ := cooCalls_inc (F := ℝ) calls h
  refine ⟨co, h1, fun a b ha hb => ?_⟩
  rw [h2 a b ha hb]
  split
  · next h => rw [h]; rfl
  · next h => rw [bumpN_real _ _ (by omega)]; simp

/-- `C04_inc_counts` on the calls `Add(1,2); Add(2,1); Add(1,3)`: the entry of {1,2} is 2. -/
example : ∃ co : Cooccurrence ℝ, cooCalls "inc" [(1,2),(2,1),(1,3)] = .ok co ∧ entry co 1 2 = some ((2 : ℕ) : ℝ) ∧
    entry co 2 3 = none := by
  obtain ⟨co, h, h1⟩ := C04_inc_counts [(1,2),(2,1),(1,3)] (by decide)
  exact ⟨co, h, (h1 1 2 (by decide) (by decide)).trans (if_neg (by decide)),
    (h1 2 3 (by decide) (by decide)).trans (if_pos (by decide))⟩

/-- **C04 (float64).** Up to `2^53` calls per pair the stored double is exactly the number of calls. -/
theorem C04_inc_counts_f64 (calls : List (Nat × Nat)) (h : ∀ q ∈ calls, q.1 < 2^32 ∧ q.2 < 2^32) :
    ∃ co : Cooccurrence F64, cooCalls "inc" calls = .ok co ∧
      ∀ a b, a < 2^32 → b < 2^32 → pairCount calls a b ≤ 2 ^ 53 →
        (pairCount calls a b = 0 → entry co a b = none) ∧
        (pairCount calls a b ≠ 0 → ∃ v, entry co a b = some v ∧ v = GoFloat.ofRat (pairCount calls a b) ∧
          F64.toRat v = pairCount calls a b) := by
  obtain ⟨co, h1, h2⟩ := cooCalls_inc (F := F64) calls h
  refine ⟨co, h1, fun a b ha hb hc => ⟨?_, ?_⟩⟩
  · intro h0; rw [h2 a b ha hb, h0]; rfl
  · intro h0
    refine ⟨_, ?_, rfl, F64.toRat_round_nat _ hc⟩
    rw [h2 a b ha hb, bumpN_f64 _ (by omega) hc]; rfl

/-- `C04_inc_counts_f64` on the same calls. -/
example : ∃ (co : Cooccurrence F64) (v : F64), cooCalls "inc" [(1,2),(2,1),(1,3)] = .ok co ∧ entry co 1 2 = some v ∧
    F64.toRat v = ((2 : ℕ) : ℚ) := by
  obtain ⟨co, h, h1⟩ := C04_inc_counts_f64 [(1,2),(2,1),(1,3)] (by decide)
  obtain ⟨v, e1, _, e2⟩ := (h1 1 2 (by decide) (by decide) (by decide)).2 (by decide)
  exact ⟨co, v, h, e1, e2⟩

/-- Beyond `2^53` calls the float64 count stays at `2^53`. -/
theorem C04_f64_saturates (calls : List (Nat × Nat)) (h : ∀ q ∈ calls, q.1 < 2^32 ∧ q.2 < 2^32) :
    ∃ co : Cooccurrence F64, cooCalls "inc" calls = .ok co ∧
      ∀ a b, a < 2^32 → b < 2^32 → 2 ^ 53 ≤ pairCount calls a b →
        entry co a b = some (GoFloat.ofRat (2 ^ 53)) := by
  obtain ⟨co, h1, h2⟩ := cooCalls_inc (F := F64) calls h
  refine ⟨co, h1, fun a b ha hb hc => ?_⟩
  rw [h2 a b ha hb, bumpN_f64_sat _ hc]
  norm_num

/-- `C04_f64_saturates`: `2^53 + 1` calls for the pair {1,2} leave the entry at `2^53`. -/
example : ∃ co : Cooccurrence F64, cooCalls "inc" (List.replicate (2 ^ 53 + 1) (1, 2)) = .ok co ∧
    entry co 1 2 = some (GoFloat.ofRat (2 ^ 53)) := by
  obtain ⟨co, h, h1⟩ := C04_f64_saturates (List.replicate (2 ^ 53 + 1) (1, 2))
    (fun q hq => by rw [List.eq_of_mem_replicate hq]; decide)
  refine ⟨co, h, h1 1 2 (by decide) (by decide) ?_⟩
  rw [pairCount, List.countP_replicate, if_pos (by decide)]
  exact Nat.le_succ _

/-- **C05 (count types).** -/
theorem C05_new {F : Type} [GoFloat F] (typ : String) :
    (∃ co : Cooccurrence F, Cooccurrence.new typ = .ok co ∧ co.encodedMatrix = []) ↔
      (typ = "inc" ∨ typ = "prox") := by
  unfold Cooccurrence.new countInc countProx
  by_cases h1 : typ = "inc"
  · simp [h1, Cooccurrence.encodedMatrix, GoMap.empty]
  · by_cases h2 : typ = "prox" <;> simp [h1, h2, Cooccurrence.encodedMatrix, GoMap.empty]

/-- Any other count type is an error. -/
theorem C05_new_invalid {F : Type} [GoFloat F] (typ : String) (h1 : typ ≠ "inc") (h2 : typ ≠ "prox") :
    (Cooccurrence.new typ : Res (Cooccurrence F)) = .err .invalidCountType := by
  simp [Cooccurrence.new, countInc, countProx, h1, h2]

/-- `C05_new_invalid` for the count type `increment`. -/
example := C05_new_invalid (F := ℝ) "increment" (by decide) (by decide)

/-- **C05 (one call).** On a proximity co-occurrence `Add(a, b)` fails exactly when `a = b`; otherwise
the entry of `{a,b}` grows by `1/|a-b|` and no other entry changes. -/
theorem C05_prox_add (co : Cooccurrence ℝ) (hp : co.typ = "prox") (a b : Nat) (ha : a < 2^32)
    (hb : b < 2^32) :
    (a = b → co.add a b = .err .divideByZero) ∧
    (a ≠ b → ∃ co', co.add a b = .ok co' ∧ co'.typ = "prox" ∧
      entry co' a b = some ((entry co a b).getD 0 + 1 / |(a : ℝ) - b|) ∧
      (∀ c d, c < 2^32 → d < 2^32 → ¬ ((c = a ∧ d = b) ∨ (c = b ∧ d = a)) →
        entry co' c d = entry co c d)) := by
  refine ⟨fun h => ?_, fun h => ?_⟩
  · rw [add_prox co hp, if_pos h]
  · refine ⟨{ co with ma := Cooccurrence.addAt co.ma (pairKey (a, b)) (proxW (a, b)) },
      by rw [add_prox co hp, if_neg h], hp, ?_, ?_⟩
    · simp only [entry, Cooccurrence.encodedMatrix, Cooccurrence.addAt]
      show GoMap.get? (GoMap.set _ (pairKey (a, b)) _) (pairKey (a, b)) = _
      rw [GoMap.get?_set_self]
      simp [proxW, pairKey]
    · intro c d hc hd hne
      simp only [entry, Cooccurrence.encodedMatrix, Cooccurrence.addAt]
      show GoMap.get? (GoMap.set _ (pairKey (a, b)) _) (pairKey (c, d)) = GoMap.get? _ (pairKey (c, d))
      rw [GoMap.get?_set, if_neg]
      rw [pairKey_eq_iff _ _ ha hb hc hd]
      simp only [Prod.mk.injEq]
      tauto

/-- `C05_prox_add` on a new proximity co-occurrence: `Add(1,3)` gives the entry 1/2, `Add(3,3)` fails. -/
example : (∃ co', (⟨"prox", []⟩ : Cooccurrence ℝ).add 1 3 = .ok co' ∧
      entry co' 1 3 = some (0 + 1 / |((1 : ℕ) : ℝ) - (3 : ℕ)|)) ∧
    (⟨"prox", []⟩ : Cooccurrence ℝ).add 3 3 = .err .divideByZero := by
  obtain ⟨co', h, _, h1, _⟩ := (C05_prox_add ⟨"prox", []⟩ rfl 1 3 (by decide) (by decide)).2 (by decide)
  exact ⟨⟨co', h, h1⟩, (C05_prox_add ⟨"prox", []⟩ rfl 3 3 (by decide) (by decide)).1 rfl⟩

/-- **C05 (any sequence of calls).** The calls succeed exactly when none has equal ids, and then the
entry of `{a,b}` is (number of calls for the pair) / |a-b|. -/
theorem C05_prox_counts (calls : List (Nat × Nat)) (h : ∀ q ∈ calls, q.1 < 2^32 ∧ q.2 < 2^32) :
    ((∃ q ∈ calls, q.1 = q.2) →
      (cooCalls "prox" calls : Res (Cooccurrence ℝ)) = .err .divideByZero) ∧
    ((∀ q ∈ calls, q.1 ≠ q.2) → ∃ co : Cooccurrence ℝ, cooCalls "prox" calls = .ok co ∧
      ∀ a b, a < 2^32 → b < 2^32 →
        entry co a b = if pairCount calls a b = 0 then none
          else some (pairCount calls a b / |(a : ℝ) - b|)) := by
  refine ⟨fun he => ?_, fun hne => ?_⟩
  · unfold cooCalls; rw [new_prox]; exact addPairs_prox_fail calls _ rfl he
  · -- the result does not depend on the key inspected
    obtain ⟨co, hco⟩ : ∃ co : Cooccurrence ℝ, addPairs calls ⟨countProx, GoMap.empty⟩ = .ok co :=
      addPairs_prox_ok _ _ rfl hne
    refine ⟨co, by unfold cooCalls; rw [new_prox]; exact hco, fun a b ha hb => ?_⟩
    obtain ⟨co', h1, _, _, h4⟩ := addPairs_prox (F := ℝ) calls ⟨countProx, GoMap.empty⟩ rfl hne
      (pairKey (a, b)) (1 / |(a : ℝ) - b|) (by
        intro q hq hk
        rw [pairKey_eq_iff q (a, b) (h q hq).1 (h q hq).2 ha hb] at hk
        rcases hk with rfl | rfl
        · simp [proxW]
        · simp [proxW, abs_sub_comm])
    rw [hco] at h1
    simp only [Res.ok.injEq] at h1
    subst h1
    rw [countP_key calls h a b ha hb] at h4
    show co.ma.get? (pairKey (a, b)) = _
    rw [h4]
    split
    · next h => rw [h]; rfl
    · next h =>
      show bumpN none _ _ = _
      rw [bumpN_real _ _ (by omega)]; congr 1; ring

/-- `C05_prox_counts`: `Add(1,3); Add(3,1)` gives the entry 2/2, and a call `Add(2,2)` makes the sequence fail. -/
example : (∃ co : Cooccurrence ℝ, cooCalls "prox" [(1,3),(3,1)] = .ok co ∧
      entry co 1 3 = some (((2 : ℕ) : ℝ) / |((1 : ℕ) : ℝ) - (3 : ℕ)|)) ∧
    (cooCalls "prox" [(1,3),(2,2)] : Res (Cooccurrence ℝ)) = .err .divideByZero := by
  obtain ⟨co, h, h1⟩ := (C05_prox_counts [(1,3),(3,1)] (by decide)).2 (by decide)
  exact ⟨⟨co, h, (h1 1 3 (by decide) (by decide)).trans (if_neg (by decide))⟩,
    (C05_prox_counts [(1,3),(2,2)] (by decide)).1 ⟨(2, 2), by decide, rfl⟩⟩

/-- A concrete sequence: the pair {1,2} is counted twice, in both orders. -/
example : (∀ q ∈ [(1,2),(2,1),(1,3)], q.1 < 2^32 ∧ q.2 < 2^32) ∧
    pairCount [(1,2),(2,1),(1,3)] 1 2 = 2 ∧ pairCount [(1,2),(2,1),(1,3)] 2 3 = 0 ∧
    (∀ q ∈ [(1,2),(2,1),(1,3)], q.1 ≠ q.2) := by decide

end Wego.Props
