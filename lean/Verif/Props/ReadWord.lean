import Verif.Proofs.Text

/-! # C06, C07: `ReadWord` -/

namespace Wego.Props
open Wego Wego.Spec

/-- Every text has exactly one decomposition into words. -/
theorem C06_words_exist_unique (text : List Char) : ∃! ws, IsWords text ws :=
  ⟨fields text, isWords_fields text, fun _ h => h.eq_fields⟩

/-- **C06.** On a document that can be read, all of whose words (of at most 65533 bytes, or at most
65535 when the white space is ASCII: `k` bounds the size of a white-space character) are `ws`,
`ReadWord` calls the callback on exactly `ws`, in order, up to the first call that does not return
nil, and returns what that call returned. -/
theorem C06_readWord {σ : Type} (p : Pass) (ws : List Word) (k : Nat) (hk : 1 ≤ k)
    (hw : IsWords p.text ws) (hp : p.fails = false)
    (hsp : ∀ c ∈ p.text, isSpace c = true → c.utf8Size ≤ k)
    (hlen : ∀ w ∈ ws, utf8Len w + k ≤ 65536)
    (fn : Word → σ → σ × Ctl) (s : σ) : Runs fn ws s (readWord p fn s) := by
  unfold readWord
  rw [scanWords_ok k hk p hsp ws hw hlen, hp]
  have : scanEnd (σ := σ) none = fun s => (s, Ctl.next) := rfl
  simp only [Bool.false_eq_true, if_false, this, thenDo_id]
  exact callEach_runs fn ws s

/-- `C06_readWord` on `" ab\tc"`: a callback that collects its words and stops at `c` sees `ab`, `c`, and its error
is what `ReadWord` returns. -/
example : Runs (fun w (l : List Word) => (l ++ [w], if w = ['c'] then Ctl.fail .divideByZero else .next))
    [['a','b'], ['c']] [] (readWord ⟨[' ', 'a', 'b', '\t', 'c'], false⟩
      (fun w (l : List Word) => (l ++ [w], if w = ['c'] then Ctl.fail .divideByZero else .next)) []) :=
  C06_readWord ⟨[' ', 'a', 'b', '\t', 'c'], false⟩ [['a','b'], ['c']] 1 (by decide) (isWords_fields _) rfl (by decide)
    (by decide) _ _

/-- The same for any white space. -/
theorem C06_readWord_any_space {σ : Type} (p : Pass) (ws : List Word)
    (hw : IsWords p.text ws) (hp : p.fails = false) (hlen : ∀ w ∈ ws, utf8Len w ≤ 65533)
    (fn : Word → σ → σ × Ctl) (s : σ) : Runs fn ws s (readWord p fn s) :=
  C06_readWord p ws 3 (by omega) hw hp (fun c _ => space_utf8Size c)
    (fun w h => by have := hlen w h; omega) fn s

/-- `C06_readWord_any_space` on a text with the two-byte space U+00A0. -/
example (fn : Word → Nat → Nat × Ctl) (s : Nat) :
    Runs fn [['a'], ['b']] s (readWord ⟨['a', Char.ofNat 0xA0, 'b'], false⟩ fn s) :=
  C06_readWord_any_space ⟨['a', Char.ofNat 0xA0, 'b'], false⟩ [['a'], ['b']] (isWords_fields _) rfl (by decide) fn s

/-- The outcome of `Runs` is unique, so `C06_readWord` determines the result. -/
theorem C06_runs_unique {α σ : Type} (fn : α → σ → σ × Ctl) (l : List α) (s : σ) (r r' : σ × Ctl)
    (h : Runs fn l s r) (h' : Runs fn l s r') : r = r' := h.det h'

/-- **C06 (white space).** Two documents with the same words behave identically. -/
theorem C06_whitespace_irrelevant {σ : Type} (t₁ t₂ : List Char) (ws : List Word)
    (h₁ : IsWords t₁ ws) (h₂ : IsWords t₂ ws) (hlen : ∀ w ∈ ws, utf8Len w ≤ 65533)
    (fn : Word → σ → σ × Ctl) (s : σ) :
    readWord ⟨t₁, false⟩ fn s = readWord ⟨t₂, false⟩ fn s :=
  (C06_readWord_any_space ⟨t₁, false⟩ ws h₁ rfl hlen fn s).det
    (C06_readWord_any_space ⟨t₂, false⟩ ws h₂ rfl hlen fn s)

/-- `C06_whitespace_irrelevant`: `"a b"` and `"\n a\tb "`. -/
example (fn : Word → Nat → Nat × Ctl) (s : Nat) :
    readWord ⟨['a', ' ', 'b'], false⟩ fn s = readWord ⟨['\n', ' ', 'a', '\t', 'b', ' '], false⟩ fn s :=
  C06_whitespace_irrelevant _ _ [['a'], ['b']] (isWords_fields _) (isWords_fields _) (by decide) fn s

/-- **C07 (success).** With words that fit and a callback that always returns nil, `ReadWord`
returns nil. -/
theorem C07_no_error {σ : Type} (p : Pass) (ws : List Word) (k : Nat) (hk : 1 ≤ k)
    (hw : IsWords p.text ws) (hp : p.fails = false)
    (hsp : ∀ c ∈ p.text, isSpace c = true → c.utf8Size ≤ k)
    (hlen : ∀ w ∈ ws, utf8Len w + k ≤ 65536)
    (fn : Word → σ → σ × Ctl) (hfn : ∀ w s, (fn w s).2 = .next) (s : σ) :
    (readWord p fn s).2 = .next := by
  have h := C06_readWord p ws k hk hw hp hsp hlen fn s
  generalize readWord p fn s = r at h
  clear hlen hw
  induction h with
  | done => rfl
  | step _ _ ih => exact ih
  | @stop a l s s' c h hc => have := hfn a s; rw [h] at this; exact absurd this hc

/-- `C07_no_error` with a callback that counts. -/
example : (readWord ⟨[' ', 'a', 'b', '\t', 'c'], false⟩ (fun _ (n : Nat) => (n + 1, .next)) 0).2 = .next :=
  C07_no_error _ [['a','b'], ['c']] 1 (by decide) (isWords_fields _) rfl (by decide) (by decide) _ (fun _ _ => rfl) 0

/-- **C07 (over-long word).** If a word has 65536 bytes or more, exactly the words before it are
delivered (`r` is the outcome of calling `fn` on them), and unless the callback stopped earlier
`ReadWord` returns an error. -/
theorem C07_too_long {σ : Type} (p : Pass) (pre post : List Word) (w : Word) (k : Nat)
    (hw : IsWords p.text (pre ++ w :: post))
    (hsp : ∀ c ∈ p.text, isSpace c = true → c.utf8Size ≤ k)
    (hpre : ∀ w ∈ pre, utf8Len w + k ≤ 65536) (hlong : 65536 ≤ utf8Len w)
    (fn : Word → σ → σ × Ctl) (s : σ) (r : σ × Ctl) (hr : Runs fn pre s r) :
    readWord p fn s = if r.2 = .next then (r.1, .fail .tokenTooLong) else r := by
  unfold readWord
  rw [scanWords_err k p hsp pre post w hw hpre hlong]
  simp only [← hr.eq]
  obtain ⟨s', c⟩ := r
  cases c <;> simp [scanEnd]

/-- A read error after the available text is reported after all words read so far. -/
theorem C07_read_error {σ : Type} (p : Pass) (ws : List Word)
    (hw : IsWords p.text ws) (hp : p.fails = true) (hlen : ∀ w ∈ ws, utf8Len w ≤ 65533)
    (fn : Word → σ → σ × Ctl) (s : σ) (r : σ × Ctl) (hr : Runs fn ws s r) :
    readWord p fn s = if r.2 = .next then (r.1, .fail .readErr) else r := by
  unfold readWord
  rw [scanWords_ok 3 (by omega) p (fun c _ => space_utf8Size c) ws hw
    (fun w h => by have := hlen w h; simp [maxTok]; omega), hp]
  simp only [← hr.eq]
  obtain ⟨s', c⟩ := r
  cases c <;> simp [scanEnd]

/-- `C07_read_error`: the reader fails after `a b`; both words are delivered, then the error is returned. -/
example : readWord ⟨['a', ' ', 'b'], true⟩ (fun _ (n : Nat) => (n + 1, .next)) 0 = (2, .fail .readErr) :=
  C07_read_error ⟨['a', ' ', 'b'], true⟩ [['a'], ['b']] (isWords_fields _) rfl (by decide) _ 0 (2, .next)
    (.step rfl (.step rfl (.done _)))

/-- Non-vacuity: `" ab\tc"` has the words `ab`, `c`. -/
example : IsWords [' ', 'a', 'b', '\t', 'c'] [['a','b'], ['c']] :=
  .cons [' '] ['a','b'] '\t' ['c'] [['c']] (by decide) (by decide) (by decide) (by decide)
    (.last [] ['c'] (by decide) (by decide) (by decide))

/-- The over-long case: a text of one word of `n >= 65536` bytes. -/
theorem long_word (n : Nat) (hn : 65536 ≤ n) : IsWords (List.replicate n 'a') ([] ++ List.replicate n 'a' :: []) ∧
    65536 ≤ utf8Len (List.replicate n 'a') := by
  refine ⟨IsWords.last [] (List.replicate n 'a') (by intro c hc; cases hc)
      (by intro h; have := congrArg List.length h; rw [List.length_replicate] at this; simp at this; omega)
      (by intro c hc; rw [List.eq_of_mem_replicate hc]; decide), ?_⟩
  rw [utf8Len, List.map_replicate, List.sum_replicate]
  have : Char.utf8Size 'a' = 1 := by decide
  simp only [this, smul_eq_mul]; omega

/-- `C07_too_long` on a text of one word of 70000 bytes: no call, and an error. -/
example (fn : Word → Nat → Nat × Ctl) :
    readWord ⟨List.replicate 70000 'a', false⟩ fn 0 = (0, .fail .tokenTooLong) :=
  C07_too_long ⟨List.replicate 70000 'a', false⟩ [] [] (List.replicate 70000 'a') 1 (long_word 70000 (by decide)).1
    (fun c hc h => by rw [List.eq_of_mem_replicate hc] at h; exact absurd h (by decide)) (fun w h => by cases h)
    (long_word 70000 (by decide)).2 fn 0 (0, .next) (.done _)

end Wego.Props
