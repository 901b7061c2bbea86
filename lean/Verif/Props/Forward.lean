import Verif.Proofs.Forward

/-! # C08, C09: `ReadWordWithForwardContext` -/

namespace Wego.Props
open Wego Wego.Spec

/-- The document can be read completely and its words are `ws`. -/
structure Readable (p : Pass) (ws : List Word) : Prop where
  words : IsWords p.text ws
  noerr : p.fails = false
  short : ∀ w ∈ ws, utf8Len w ≤ 65533

theorem Readable.scan {p : Pass} {ws : List Word} (h : Readable p ws) :
    scanWords p = ⟨ws, none⟩ := by
  rw [scanWords_ok 3 (by omega) p (fun c _ => space_utf8Size c) ws h.words
    (fun w hw => by have := h.short w hw; simp [maxTok]; omega)]
  simp [h.noerr]

theorem Readable.ne_nil {p : Pass} {ws : List Word} (h : Readable p ws) : ∀ w ∈ ws, w ≠ [] := by
  rw [h.words.eq_fields]; exact fields_ne_nil _

theorem fwd_unfold {σ : Type} {p : Pass} {ws : List Word} (h : Readable p ws) (n : Nat)
    (fn : Word → Word → σ → σ × Ctl) (s : σ) :
    readWordWithForwardContext p n fn s = fwdLoop n fn [] (List.replicate n []) ws s := by
  unfold readWordWithForwardContext
  rw [if_neg (by omega), h.scan]
  have : scanEnd (σ := σ) none = fun s => (s, Ctl.next) := rfl
  simp only [Int.toNat_natCast, this, thenDo_id]

/-- the document `a b c d e` used in the examples -/
theorem readable_abcde : Readable ⟨['a',' ','b',' ','c',' ','d',' ','e'], false⟩ [['a'],['b'],['c'],['d'],['e']] :=
  ⟨isWords_fields _, rfl, by decide⟩

/-- **C09 (document longer than the window).** With `N > n >= 1` words the callback is called exactly
on the pairs `(w_i, w_j)`, `i < j <= i+n`, for the axis positions `i < N-n+1` only, ordered by `i`
then `j`, up to the first call that does not return nil. -/
theorem C09_long {σ : Type} (p : Pass) (ws : List Word) (h : Readable p ws) (n : Nat)
    (hn : 1 ≤ n) (hN : n < ws.length) (fn : Word → Word → σ → σ × Ctl) (s : σ) :
    Runs (fun q : Word × Word => fn q.1 q.2) (windowPairsUpTo n (ws.length - n + 1) ws) s
      (readWordWithForwardContext p n fn s) := by
  rw [fwd_unfold h]
  cases ws with
  | nil => simp at hN
  | cons w ws =>
    rw [fwdLoop_start n fn w ws s hn h.ne_nil]
    have : padTo n (w :: ws) = w :: ws := by
      simp only [padTo]; rw [show n + 1 - (w :: ws).length = 0 by omega]; simp
    rw [this]
    exact callEach_runs _ _ _

/-- `C09_long` on `a b c d e` with window 3. -/
example (fn : Word → Word → Nat → Nat × Ctl) (s : Nat) := C09_long _ _ readable_abcde 3 (by decide) (by decide) fn s

/-- **C09 (short document).** With `1 <= N <= n` words, the words are padded with empty strings to
`n+1` words; the first two of these are used as axis. -/
theorem C09_short {σ : Type} (p : Pass) (ws : List Word) (h : Readable p ws) (n : Nat)
    (h1 : 1 ≤ ws.length) (hN : ws.length ≤ n) (fn : Word → Word → σ → σ × Ctl) (s : σ) :
    Runs (fun q : Word × Word => fn q.1 q.2)
      (windowPairsUpTo n 2 (ws ++ List.replicate (n + 1 - ws.length) [])) s
      (readWordWithForwardContext p n fn s) := by
  rw [fwd_unfold h]
  cases ws with
  | nil => simp at h1
  | cons w ws =>
    rw [fwdLoop_start n fn w ws s (by omega) h.ne_nil]
    have : (padTo n (w :: ws)).length - n + 1 = 2 := by
      simp [padTo] at hN ⊢; omega
    rw [this]
    exact callEach_runs _ _ _

/-- `C09_short` on `a b c d e` with window 7. -/
example (fn : Word → Word → Nat → Nat × Ctl) (s : Nat) := C09_short _ _ readable_abcde 7 (by decide) (by decide) fn s

/-- **C09 (empty document).** The callback receives `("","")` `n` times. -/
theorem C09_empty {σ : Type} (p : Pass) (h : Readable p []) (n : Nat)
    (fn : Word → Word → σ → σ × Ctl) (s : σ) :
    Runs (fun q : Word × Word => fn q.1 q.2) (List.replicate n ([], [])) s
      (readWordWithForwardContext p n fn s) := by
  rw [fwd_unfold h, fwdLoop_empty]
  exact callEach_runs _ _ _

/-- `C09_empty` on a text of two spaces, window 2: a counting callback is called twice. -/
example : readWordWithForwardContext ⟨[' ', ' '], false⟩ (2 : Nat) (fun _ _ (n : Nat) => (n + 1, .next)) 0 = (2, .next) :=
  (C09_empty ⟨[' ', ' '], false⟩ ⟨isWords_fields _, rfl, by decide⟩ 2 (fun _ _ (n : Nat) => (n + 1, .next)) 0).eq

/-- **C09 (window 0).** A non-empty document panics, before any callback. -/
theorem C09_window_zero {σ : Type} (p : Pass) (ws : List Word) (h : Readable p ws)
    (h1 : ws ≠ []) (fn : Word → Word → σ → σ × Ctl) (s : σ) :
    readWordWithForwardContext p 0 fn s = (s, .crash .indexOutOfRange) := by
  have := fwd_unfold h 0 fn s
  simp only [Nat.cast_zero] at this
  rw [this]
  cases ws with
  | nil => exact absurd rfl h1
  | cons w ws => exact fwdLoop_zero fn w ws s (h.ne_nil w (by simp))

/-- `C09_window_zero` on `a b c d e`. -/
example (fn : Word → Word → Nat → Nat × Ctl) := C09_window_zero _ _ readable_abcde (by decide) fn 0

/-- **C09 (negative window).** Panics. -/
theorem C09_window_negative {σ : Type} (p : Pass) (n : Int) (hn : n < 0)
    (fn : Word → Word → σ → σ × Ctl) (s : σ) :
    readWordWithForwardContext p n fn s = (s, .crash .makeNegLen) := by
  simp [readWordWithForwardContext, hn]

/-- `C09_window_negative` for the window -1. -/
example (fn : Word → Word → Nat → Nat × Ctl) := C09_window_negative ⟨['a'], false⟩ (-1) (by decide) fn 0

/-- **C08, proved part.** For the window sizes 1 and 2 and documents longer than the window the
calls are exactly all in-window pairs. Missing: windows of 3 and more and short documents, for which
the property is false (`C08_false_for_windows_from_3`, `C08_false_for_short_documents`). -/
theorem C08_all_pairs_partial {σ : Type} (p : Pass) (ws : List Word) (h : Readable p ws) (n : Nat)
    (hn : n = 1 ∨ n = 2) (hN : n < ws.length) (fn : Word → Word → σ → σ × Ctl) (s : σ) :
    Runs (fun q : Word × Word => fn q.1 q.2) (windowPairs n ws) s
      (readWordWithForwardContext p n fn s) := by
  have := C09_long p ws h n (by omega) hN fn s
  rw [windowPairsUpTo_append n (ws.length - n + 1) ws, windowPairs_short n (ws.drop _) (by simp; omega)]
  simpa using this

/-- `C08_all_pairs_partial` on `a b c d e` with window 2. -/
example (fn : Word → Word → Nat → Nat × Ctl) (s : Nat) :=
  C08_all_pairs_partial _ _ readable_abcde 2 (Or.inr rfl) (by decide) fn s

/-- **C08 is false for every window of 3 or more** (and every document longer than the window):
a callback that counts its calls is called strictly less often than there are in-window pairs. -/
theorem C08_false_for_windows_from_3 (p : Pass) (ws : List Word) (h : Readable p ws) (n : Nat)
    (hn : 3 ≤ n) (hN : n < ws.length) :
    ∃ k, readWordWithForwardContext p n (fun _ _ (c : Nat) => (c + 1, .next)) 0 = (k, .next) ∧
      k < (windowPairs n ws).length := by
  have hr := C09_long p ws h n (by omega) hN (fun _ _ (c : Nat) => (c + 1, Ctl.next)) 0
  refine ⟨(windowPairsUpTo n (ws.length - n + 1) ws).length, ?_, ?_⟩
  · rw [hr.eq]
    generalize windowPairsUpTo n (ws.length - n + 1) ws = l
    suffices H : ∀ c, callEach (fun (_ : Word × Word) (c : Nat) => (c + 1, Ctl.next)) l c
        = (c + l.length, .next) by simpa using H 0
    induction l with
    | nil => intro c; rfl
    | cons a l ih => intro c; simp [callEach, ih]; omega
  · rw [windowPairsUpTo_append n (ws.length - n + 1) ws, List.length_append]
    have := windowPairs_ne_nil n (by omega) (ws.drop (ws.length - n + 1)) (by simp; omega)
    have := List.length_pos_iff.2 this
    omega

/-- `C08_false_for_windows_from_3` on `a b c d e` with window 3: fewer than the 9 in-window pairs are reported. -/
example := C08_false_for_windows_from_3 _ _ readable_abcde 3 (by decide) (by decide)

/-- **C08 is false for short documents**: the text `a` with window 1 has no pair, yet the callback
is called on `("a", "")`. -/
theorem C08_false_for_short_documents :
    Readable ⟨['a'], false⟩ [['a']] ∧ windowPairs 1 [['a']] = [] ∧
    readWordWithForwardContext ⟨['a'], false⟩ 1
      (fun a b (l : List (Word × Word)) => (l ++ [(a, b)], .next)) [] = ([(['a'], [])], .next) := by
  have h : Readable ⟨['a'], false⟩ [['a']] :=
    ⟨.last [] ['a'] (by decide) (by decide) (by decide), rfl, by decide⟩
  refine ⟨h, rfl, ?_⟩
  have hr := C09_short _ _ h 1 (by decide) (by decide)
    (fun a b (l : List (Word × Word)) => (l ++ [(a, b)], Ctl.next)) []
  rw [show ((1 : Nat) : Int) = 1 from rfl] at hr
  rw [hr.eq]; rfl

/-- Non-vacuity: a readable document of five words, window 3 (the pair `(d, e)` is not reported). -/
example : ∃ p ws, Readable p ws ∧ 3 < ws.length ∧
    windowPairsUpTo 3 (ws.length - 3 + 1) ws =
      [(['a'],['b']),(['a'],['c']),(['a'],['d']),(['b'],['c']),(['b'],['d']),(['b'],['e']),
       (['c'],['d']),(['c'],['e'])] := by
  refine ⟨⟨['a',' ','b',' ','c',' ','d',' ','e'], false⟩, [['a'],['b'],['c'],['d'],['e']], ⟨?_, rfl, by decide⟩, by decide, by decide⟩
  have := isWords_fields ['a',' ','b',' ','c',' ','d',' ','e']
  exact this

end Wego.Props
