import Verif.Proofs.Text

/-! Lemmas about `ReadWordWithForwardContext`. -/

namespace Wego
open Spec

section
variable {α σ : Type}

theorem postFn_eq (fn : Word → Word → σ → σ × Ctl) (axis : Word) (ws : List Word) (s : σ) :
    postFn fn axis ws s =
      callEach (fun p : Word × Word => fn p.1 p.2) (ws.map (fun b => (axis, b))) s := by
  unfold postFn
  induction ws generalizing s with
  | nil => rfl
  | cons a l ih =>
    simp only [List.map_cons, callEach]
    congr 1; funext s'; exact ih s'

theorem fwdLoop_else (n : Nat) (fn : Word → Word → σ → σ × Ctl) (axis : Word) (ws toks : List Word)
    (s : σ) (ha : axis ≠ []) (hn : ws.length = n) (hn1 : 1 ≤ n)
    (hws : toks ≠ [] → ∀ w ∈ ws, w ≠ []) (ht : ∀ t ∈ toks, t ≠ []) :
    fwdLoop n fn axis ws toks s =
      callEach (fun p : Word × Word => fn p.1 p.2)
        (windowPairsUpTo n (toks.length + 1) (ws ++ toks)) s := by
  induction toks generalizing axis ws s with
  | nil =>
    cases ws with
    | nil => simp at hn; omega
    | cons w0 ws =>
      rw [fwdLoop.eq_def]
      simp only [ha, if_false, List.append_nil, List.length_nil, Nat.zero_add, windowPairsUpTo]
      rw [postFn_eq, List.take_of_length_le (by simp at hn; omega)]
  | cons t toks ih =>
    cases ws with
    | nil => simp at hn; omega
    | cons w0 ws =>
      rw [fwdLoop.eq_def]
      simp only [ha, if_false, List.cons_append, List.length_cons, windowPairsUpTo]
      have hl : (ws ++ [t]).length = n := by simp at hn ⊢; omega
      have e : ws ++ t :: toks = (ws ++ [t]) ++ toks := by simp
      rw [e, List.take_append_of_le_length (by omega), List.take_of_length_le (by omega),
        callEach_append, postFn_eq]
      congr 1; funext s'
      apply ih
      · exact hws (by simp) w0 (by simp)
      · exact hl
      · intro _ w hw
        rcases List.mem_append.1 hw with hw | hw
        · exact hws (by simp) w (by simp [hw])
        · simp at hw; subst hw; exact ht _ (by simp)
      · exact fun t h => ht t (by simp [h])

theorem fwdLoop_start (n : Nat) (fn : Word → Word → σ → σ × Ctl) (w : Word) (ws : List Word)
    (s : σ) (hn1 : 1 ≤ n) (ht : ∀ t ∈ w :: ws, t ≠ []) :
    fwdLoop n fn [] (List.replicate n []) (w :: ws) s =
      callEach (fun p : Word × Word => fn p.1 p.2)
        (windowPairsUpTo n ((padTo n (w :: ws)).length - n + 1) (padTo n (w :: ws))) s := by
  have hw : w ≠ [] := ht w (by simp)
  have hws : ∀ t ∈ ws, t ≠ [] := fun t h => ht t (by simp [h])
  rw [fwdLoop.eq_def]
  simp only [if_true]
  have hlen : (fillWs n (List.replicate n []) ws).1.length = n := by
    simp [fillWs]
  have hsplit : padTo n (w :: ws) =
      w :: ((fillWs n (List.replicate n []) ws).1 ++ (fillWs n (List.replicate n []) ws).2) := by
    simp only [padTo, fillWs, List.length_cons, List.cons_append, List.cons.injEq, true_and]
    by_cases h : ws.length ≤ n
    · rw [List.take_of_length_le h, List.drop_of_length_le h, List.drop_replicate]
      simp
    · have h' : n + 1 - (ws.length + 1) = 0 := by omega
      rw [h']
      have h2 : (List.take n ws).length = n := by simp; omega
      rw [h2]; simp
  have hcond : (fillWs n (List.replicate n []) ws).2 ≠ [] →
      ∀ w ∈ (fillWs n (List.replicate n []) ws).1, w ≠ [] := by
    intro h w hw
    simp only [fillWs] at h hw
    have h1 : n < ws.length := by
      by_contra hc; exact h (List.drop_of_length_le (by omega))
    have h2 : (List.take n ws).length = n := by simp; omega
    rw [h2] at hw
    simp only [List.drop_replicate, Nat.sub_self, List.replicate_zero, List.append_nil] at hw
    exact hws w (List.mem_of_mem_take hw)
  have hcnt : (padTo n (w :: ws)).length - n + 1 =
      ((fillWs n (List.replicate n []) ws).2.length + 1) + 1 := by
    rw [hsplit]; simp only [List.length_cons, List.length_append, hlen]; omega
  rw [hcnt, hsplit]
  generalize fillWs n (List.replicate n []) ws = r at *
  obtain ⟨ws1, toks1⟩ := r
  simp only at *
  rw [windowPairsUpTo, List.take_append_of_le_length (by omega),
    List.take_of_length_le (by omega), callEach_append, postFn_eq]
  congr 1; funext s'
  apply fwdLoop_else n fn w ws1 toks1 s' hw hlen hn1 hcond
  intro t h
  have : t ∈ padTo n (w :: ws) := by rw [hsplit]; simp [h]
  have hne : toks1 ≠ [] := by rintro rfl; simp at h
  have hlong : n < ws.length := by
    have := congrArg List.length hsplit
    simp [padTo, hlen] at this
    have := List.length_pos_iff.2 hne
    omega
  simp only [padTo, List.length_cons] at this
  rw [show n + 1 - (ws.length + 1) = 0 by omega] at this
  simp only [List.replicate_zero, List.append_nil] at this
  exact ht t this

theorem fwdLoop_empty (n : Nat) (fn : Word → Word → σ → σ × Ctl) (s : σ) :
    fwdLoop n fn [] (List.replicate n []) [] s =
      callEach (fun p : Word × Word => fn p.1 p.2) (List.replicate n ([], [])) s := by
  rw [fwdLoop.eq_def]
  simp [postFn_eq]

theorem fwdLoop_zero (fn : Word → Word → σ → σ × Ctl) (w : Word) (ws : List Word) (s : σ)
    (hw : w ≠ []) : fwdLoop 0 fn [] [] (w :: ws) s = (s, .crash .indexOutOfRange) := by
  rw [fwdLoop.eq_def]
  simp only [if_true, fillWs, List.take_zero, List.nil_append, List.length_nil, List.drop_zero,
    postFn, callEach, thenDo_next]
  rw [fwdLoop.eq_def]
  simp [hw]

end

/-! ### Counting pairs -/

theorem windowPairsUpTo_append {α : Type} (n m : Nat) (l : List α) :
    windowPairs n l = windowPairsUpTo n m l ++ windowPairs n (l.drop m) := by
  induction m generalizing l with
  | zero => simp [windowPairsUpTo]
  | succ m ih =>
    cases l with
    | nil => simp [windowPairsUpTo, windowPairs]
    | cons a l =>
      simp only [windowPairs, windowPairsUpTo, List.drop_succ_cons, List.append_assoc]
      rw [← ih l]

theorem windowPairs_ne_nil {α : Type} (n : Nat) (hn : 1 ≤ n) (l : List α) (hl : 2 ≤ l.length) :
    windowPairs n l ≠ [] := by
  match l, hl with
  | a :: b :: l, _ =>
    obtain ⟨n, rfl⟩ : ∃ k, n = k + 1 := ⟨n - 1, by omega⟩
    simp [windowPairs]

theorem windowPairs_short {α : Type} (n : Nat) (l : List α) (hl : l.length ≤ 1) :
    windowPairs n l = [] := by
  match l, hl with
  | [], _ => rfl
  | [a], _ => simp [windowPairs]

end Wego
