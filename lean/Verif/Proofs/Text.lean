import Verif.Spec.Words
import Verif.Model.Corpus

namespace Wego
open Spec

/-! ## Word splitting -/

theorem isWords_cons_space {c : Char} (hc : isSpace c = true) {l : List Char} {ws : List Word}
    (h : IsWords l ws) : IsWords (c :: l) ws := by
  have key : ∀ sp : List Char, (∀ x ∈ sp, isSpace x = true) → ∀ x ∈ c :: sp, isSpace x = true := by
    intro sp h x hx
    rcases List.mem_cons.1 hx with rfl | hx
    · exact hc
    · exact h x hx
  cases h with
  | spaces sp h => exact .spaces _ (key _ h)
  | last sp w h hw hn => exact .last (c :: sp) w (key _ h) hw hn
  | cons sp w d rest ws h hw hn hd hr => exact .cons (c :: sp) w d rest ws (key _ h) hw hn hd hr

theorem isWords_fieldsAux (l cur : List Char) (hcur : ∀ c ∈ cur, isSpace c = false) :
    IsWords (cur ++ l) (fieldsAux l cur) := by
  induction l generalizing cur with
  | nil =>
    simp only [fieldsAux, List.append_nil]
    split
    · next h => subst h; exact .spaces [] (by simp)
    · next h => exact .last [] cur (by simp) h hcur
  | cons c l ih =>
    simp only [fieldsAux]
    by_cases hc : isSpace c = true
    · simp only [hc, if_true]
      have ih0 := ih [] (by simp)
      split
      · next h => subst h; exact isWords_cons_space hc ih0
      · next h => exact .cons [] cur c l _ (by simp) h hcur hc ih0
    · simp only [hc]
      have := ih (cur ++ [c]) (by
        intro x hx
        rcases List.mem_append.1 hx with hx | hx
        · exact hcur x hx
        · simp at hx; subst hx; simpa using hc)
      simpa using this

theorem isWords_fields (l : List Char) : IsWords l (fields l) := by
  simpa [fields] using isWords_fieldsAux l [] (by simp)

theorem fieldsAux_spaces (sp l : List Char) (h : ∀ c ∈ sp, isSpace c = true) :
    fieldsAux (sp ++ l) [] = fieldsAux l [] := by
  induction sp with
  | nil => rfl
  | cons c sp ih =>
    simp only [List.cons_append, fieldsAux, h c (by simp), if_true]
    exact ih (fun x hx => h x (by simp [hx]))

theorem fieldsAux_word (w l cur : List Char) (h : ∀ c ∈ w, isSpace c = false) :
    fieldsAux (w ++ l) cur = fieldsAux l (cur ++ w) := by
  induction w generalizing cur with
  | nil => simp
  | cons c w ih =>
    simp only [List.cons_append, fieldsAux, h c (by simp)]
    rw [if_neg (by simp), ih _ (fun x hx => h x (by simp [hx]))]
    simp

theorem Spec.IsWords.eq_fields {l : List Char} {ws : List Word} (h : IsWords l ws) : ws = fields l := by
  unfold fields
  induction h with
  | spaces sp h =>
    have := fieldsAux_spaces sp [] h
    simp only [List.append_nil] at this
    rw [this]; rfl
  | last sp w h hw hn =>
    rw [fieldsAux_spaces sp w h]
    have := fieldsAux_word w [] [] hn
    simp only [List.append_nil, List.nil_append] at this
    rw [this]; simp [fieldsAux, hw]
  | cons sp w c rest ws h hw hn hc hr ih =>
    rw [List.append_assoc, fieldsAux_spaces sp _ h, fieldsAux_word w _ [] hn]
    simp [fieldsAux, hc, hw, ih]

theorem fieldsAux_ne_nil (l cur : List Char) : ∀ w ∈ fieldsAux l cur, w ≠ [] := by
  induction l generalizing cur with
  | nil =>
    simp only [fieldsAux]; split <;> simp_all
  | cons c l ih =>
    simp only [fieldsAux]
    split
    · split
      · exact ih []
      · next h =>
        intro w hw
        rcases List.mem_cons.1 hw with rfl | hw
        · exact h
        · exact ih [] w hw
    · exact ih _

theorem fields_ne_nil (l : List Char) : ∀ w ∈ fields l, w ≠ [] := fieldsAux_ne_nil l []

theorem fieldsAux_nospace (l cur : List Char) (hcur : ∀ c ∈ cur, isSpace c = false) :
    ∀ w ∈ fieldsAux l cur, ∀ c ∈ w, isSpace c = false := by
  induction l generalizing cur with
  | nil =>
    simp only [fieldsAux]; split
    · simp
    · intro w hw; simp at hw; subst hw; exact hcur
  | cons c l ih =>
    simp only [fieldsAux]
    split
    · split
      · exact ih [] (by simp)
      · next h =>
        intro w hw
        rcases List.mem_cons.1 hw with rfl | hw
        · exact hcur
        · exact ih [] (by simp) w hw
    · next hc =>
      apply ih
      intro x hx
      rcases List.mem_append.1 hx with hx | hx
      · exact hcur x hx
      · simp at hx; subst hx; simpa using hc

theorem fields_nospace (l : List Char) : ∀ w ∈ fields l, ∀ c ∈ w, isSpace c = false :=
  fieldsAux_nospace l [] (by simp)

theorem scanWordsAux_ok (k : Nat) (hk : 1 ≤ k) (l cur : List Char)
    (hl : ∀ c ∈ l, isSpace c = true → c.utf8Size ≤ k)
    (h : ∀ w ∈ fieldsAux l cur, utf8Len w + k ≤ maxTok) :
    scanWordsAux l cur = ⟨fieldsAux l cur, none⟩ := by
  induction l generalizing cur with
  | nil =>
    simp only [scanWordsAux, fieldsAux] at h ⊢
    by_cases hc : cur = []
    · simp [hc]
    · simp only [hc, if_false, List.mem_singleton, forall_eq] at h ⊢
      rw [if_pos (by omega)]
  | cons c l ih =>
    simp only [scanWordsAux, fieldsAux] at h ⊢
    by_cases hs : isSpace c = true
    · simp only [hs, if_true] at h ⊢
      by_cases hc : cur = []
      · simp only [hc, if_true] at h ⊢
        exact ih [] (fun d hd => hl d (by simp [hd])) h
      · simp only [hc, if_false] at h ⊢
        have h1 := hl c (by simp) hs
        have h2 := h cur (by simp)
        rw [if_pos (by omega), ih [] (fun d hd => hl d (by simp [hd])) (fun w hw => h w (by simp [hw]))]
    · simp only [hs] at h ⊢
      exact ih _ (fun d hd => hl d (by simp [hd])) h

theorem scanWordsAux_err (k : Nat) (l cur : List Char)
    (hl : ∀ c ∈ l, isSpace c = true → c.utf8Size ≤ k)
    (pre post : List Word) (w : Word) (hf : fieldsAux l cur = pre ++ w :: post)
    (hpre : ∀ w ∈ pre, utf8Len w + k ≤ maxTok) (hw : maxTok ≤ utf8Len w) :
    scanWordsAux l cur = ⟨pre, some .tokenTooLong⟩ := by
  induction l generalizing cur pre with
  | nil =>
    simp only [scanWordsAux, fieldsAux] at hf ⊢
    by_cases hc : cur = []
    · simp [hc] at hf
    · simp only [hc, if_false] at hf ⊢
      cases pre with
      | nil =>
        simp only [List.nil_append, List.cons.injEq] at hf
        rw [hf.1, if_neg (by omega)]
      | cons a pre => simp at hf
  | cons c l ih =>
    simp only [scanWordsAux, fieldsAux] at hf ⊢
    have hl' : ∀ c ∈ l, isSpace c = true → c.utf8Size ≤ k := fun d hd => hl d (by simp [hd])
    by_cases hs : isSpace c = true
    · simp only [hs, if_true] at hf ⊢
      by_cases hc : cur = []
      · simp only [hc, if_true] at hf ⊢
        exact ih [] hl' pre hf hpre
      · simp only [hc, if_false] at hf ⊢
        have h1 := hl c (by simp) hs
        have h3 := Char.utf8Size_pos c
        cases pre with
        | nil =>
          simp only [List.nil_append, List.cons.injEq] at hf
          rw [hf.1, if_neg (by omega)]
        | cons a pre =>
          simp only [List.cons_append, List.cons.injEq] at hf
          have h2 := hpre cur (by simp [hf.1])
          rw [if_pos (by omega), ih [] hl' pre hf.2 (fun w hw => hpre w (by simp [hw])), hf.1]
    · simp only [hs] at hf ⊢
      exact ih _ hl' pre hf hpre

/-- White space characters take at most three bytes. -/
theorem space_utf8Size (c : Char) (h : isSpace c = true) : c.utf8Size ≤ 3 := by
  have hn : c.toNat ≤ 0x3000 := by
    simp only [isSpace, Bool.or_eq_true, Bool.and_eq_true, decide_eq_true_eq, beq_iff_eq] at h
    omega
  have hv : c.val.toNat ≤ 0x3000 := hn
  simp only [Char.utf8Size, UInt32.le_iff_toNat_le]
  split
  · omega
  · split
    · omega
    · split
      · omega
      · next h => exact absurd (le_trans hv (by decide)) h

theorem scanWords_ok (k : Nat) (hk : 1 ≤ k) (p : Pass)
    (hl : ∀ c ∈ p.text, isSpace c = true → c.utf8Size ≤ k) (ws : List Word)
    (hw : IsWords p.text ws) (h : ∀ w ∈ ws, utf8Len w + k ≤ maxTok) :
    scanWords p = ⟨ws, if p.fails then some .readErr else none⟩ := by
  have e := hw.eq_fields
  unfold scanWords
  rw [scanWordsAux_ok k hk p.text [] hl (by rw [e] at h; exact h)]
  simp only [e, fields]

theorem scanWords_err (k : Nat) (p : Pass)
    (hl : ∀ c ∈ p.text, isSpace c = true → c.utf8Size ≤ k) (pre post : List Word) (w : Word)
    (hw : IsWords p.text (pre ++ w :: post)) (hpre : ∀ w ∈ pre, utf8Len w + k ≤ maxTok)
    (h : maxTok ≤ utf8Len w) :
    scanWords p = ⟨pre, some .tokenTooLong⟩ := by
  have e := hw.eq_fields
  unfold scanWords
  rw [scanWordsAux_err k p.text [] hl pre post w e.symm hpre h]

/-! ## Callback loops -/

section
variable {α σ : Type}

@[simp] theorem thenDo_next (s : σ) (k : σ → σ × Ctl) : thenDo (s, .next) k = k s := rfl
@[simp] theorem thenDo_fail (s : σ) (e : Err) (k : σ → σ × Ctl) : thenDo (s, .fail e) k = (s, .fail e) := rfl
@[simp] theorem thenDo_crash (s : σ) (p : Panic) (k : σ → σ × Ctl) :
    thenDo (s, .crash p) k = (s, .crash p) := rfl

theorem thenDo_assoc (r : σ × Ctl) (k k' : σ → σ × Ctl) :
    thenDo (thenDo r k) k' = thenDo r (fun s => thenDo (k s) k') := by
  obtain ⟨s, c⟩ := r
  cases c <;> rfl

theorem thenDo_id (r : σ × Ctl) : thenDo r (fun s => (s, .next)) = r := by
  obtain ⟨s, c⟩ := r
  cases c <;> rfl

theorem callEach_append (fn : α → σ → σ × Ctl) (l₁ l₂ : List α) (s : σ) :
    callEach fn (l₁ ++ l₂) s = thenDo (callEach fn l₁ s) (callEach fn l₂) := by
  induction l₁ generalizing s with
  | nil => rfl
  | cons a l ih =>
    simp only [List.cons_append, callEach, thenDo_assoc]
    congr 1; funext s'; exact ih s'

/-- A callback that is a lifted `Res` computation: the loop is the `Res` loop. -/
theorem ctlRes_callEach_lift (l : List α) (f : α → σ → Res σ) (s : σ) :
    ctlRes (callEach (fun a s => liftCtl s (f a s)) l s) = forEach l s f := by
  induction l generalizing s with
  | nil => rfl
  | cons a l ih =>
    simp only [callEach, forEach_cons]
    cases h : f a s with
    | ok s' => exact ih s'
    | err e => simp [liftCtl, ctlRes]
    | panic p => simp [liftCtl, ctlRes]

theorem callEach_runs (fn : α → σ → σ × Ctl) (l : List α) (s : σ) :
    Runs fn l s (callEach fn l s) := by
  induction l generalizing s with
  | nil => exact .done s
  | cons a l ih =>
    simp only [callEach]
    rcases h : fn a s with ⟨s1, c⟩
    cases c with
    | next => exact .step h (ih s1)
    | fail e => exact .stop h (by simp)
    | crash p => exact .stop h (by simp)

theorem Spec.Runs.eq {fn : α → σ → σ × Ctl} {l : List α} {s : σ} {r : σ × Ctl}
    (h : Runs fn l s r) : r = callEach fn l s := by
  induction h with
  | done => rfl
  | step h _ ih => simp [callEach, h, ih]
  | @stop a l s s' c h hc =>
    cases c with
    | next => exact absurd rfl hc
    | fail e => simp [callEach, h]
    | crash p => simp [callEach, h]

theorem Spec.Runs.det {fn : α → σ → σ × Ctl} {l : List α} {s : σ} {r r' : σ × Ctl}
    (h : Runs fn l s r) (h' : Runs fn l s r') : r = r' := by rw [h.eq, h'.eq]

end
end Wego
