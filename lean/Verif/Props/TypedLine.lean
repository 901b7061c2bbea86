import Verif.Proofs.ParseExpr
import Verif.Props.Console

/-! # C102: what is typed at the console -/

namespace Wego.Props
open Wego Wego.Spec

section
variable {F : Type} [GoFloat F] [LawfulCmp F]

/-- **C102 (one word).** On a console made by `New` from a valid searcher with `k ≥ 1`, typing a word that has the form of a
Go identifier and is not reserved, with blanks around it: if the vocabulary has the word, the line prints the table of
`SearchInternal` for it; otherwise a message and an empty table. No error is returned. -/
theorem C102_word (S : GoSyntax) (c : Console F) (hr : Ready c) (t : Typed) (ht : t.OK S) :
    (∀ e, FirstNamed c.searcher t.word e →
      ∃ ns, (c.eval S.parseExpr t.text).2 = { out := [.table ns], res := .ok () } ∧ c.searcher.searchInternal t.word c.k = .ok ns) ∧
    (Unknown c.searcher t.word → (c.eval S.parseExpr t.text).2 = { out := [.searchFailed, .table []], res := .ok () }) := by
  have hp : S.parseExpr t.text = some (.ident t.word) := by
    have := parseExpr_line t [] ht (by simp)
    simpa [lineOf] using this
  refine ⟨fun e he => ?_, fun h => ?_⟩
  · obtain ⟨ns, h1, h2, _⟩ := C60_single_word S.parseExpr c hr.valid hr.k t.text t.word e hp he
    exact ⟨ns, h1, h2⟩
  · unfold Console.eval
    rw [hp]
    simp only [Console.evalBody, (C58_search_internal c.searcher t.word c.k).1.1 (Or.inr h)]

/-- **C102 (two words).** Typing `x + y` or `x - y` (blanks are free, none are needed) with two words of the vocabulary that
are identifiers and not reserved prints the neighbours of the element-wise sum (difference) of their vectors, without these
two words; if the vocabulary lacks the first word, the line prints nothing and returns an error. -/
theorem C102_sum (S : GoSyntax) (c : Console F) (hr : Ready c) (x y : Typed) (minus : Bool) (hx : x.OK S) (hy : y.OK S) :
    (∀ ex ey, FirstNamed c.searcher x.word ex → FirstNamed c.searcher y.word ey →
      ∃ ns, (c.eval S.parseExpr (lineOf x [(minus, y)])).2 = { out := [.table ns], res := .ok () } ∧
        c.searcher.search (vecQuery (List.zipWith (fun a b => if minus then a -. b else a +. b) ex.vector ey.vector)) c.k
          [x.word, y.word] = .ok ns ∧
        ∀ n ∈ ns, n.word ≠ x.word ∧ n.word ≠ y.word) ∧
    (Unknown c.searcher x.word →
      (c.eval S.parseExpr (lineOf x [(minus, y)])).2.out = [] ∧ ∃ e, (c.eval S.parseExpr (lineOf x [(minus, y)])).2.res = .err e) := by
  have hp := parseExpr_line (S := S) x [(minus, y)] hx (by simpa using hy)
  simp only [List.foldl_cons, List.foldl_nil] at hp
  refine ⟨fun ex ey h1 h2 => ?_, fun h => ?_⟩
  · obtain ⟨ns, h3, h4, h5⟩ := C60_arithmetic S.parseExpr c hr.valid hr.k _ x.word y.word ex ey (signOp minus)
      (by cases minus <;> simp [signOp]) hp h1 h2
    refine ⟨ns, h3, ?_, h5⟩
    cases minus <;> simpa [signOp] using h4
  · obtain ⟨h1, h2, _, _⟩ := C62_reported_partial S.parseExpr c hr (lineOf x [(minus, y)])
    obtain ⟨e, he⟩ := h1.2 (Or.inr (Or.inr ⟨_, _, _, hp, Or.inl (by
      rintro ⟨w, e, hw, hf⟩
      simp only [Expr.ident.injEq] at hw
      subst hw
      exact h e (firstNamed_mem hf).1 (firstNamed_mem hf).2)⟩))
    exact ⟨h2 e he, e, he⟩

/-- **C102 (three and more words).** Sums and differences of three or more words, such as `king - man + woman`, are never
evaluated: the line prints no table and returns an error, whether or not the words are known. -/
theorem C102_longer_sum (S : GoSyntax) (c : Console F) (hr : Ready c) (x : Typed) (p q : Bool × Typed) (rest : List (Bool × Typed))
    (hx : x.OK S) (hrest : ∀ r ∈ p :: q :: rest, r.2.OK S) :
    (c.eval S.parseExpr (lineOf x (p :: q :: rest))).2.out = [] ∧
      ∃ e, (c.eval S.parseExpr (lineOf x (p :: q :: rest))).2.res = .err e := by
  have hp := parseExpr_line (S := S) x (p :: q :: rest) hx hrest
  have hb : ∀ (rest : List (Bool × Typed)) (a b d : Expr) (o o' : Op), ∃ a' o1 b' o2 d',
      rest.foldl (fun x p => Expr.binary x (signOp p.1) (.ident p.2.word)) (.binary (.binary a o b) o' d) =
        .binary (.binary a' o1 b') o2 d' := by
    intro rest
    induction rest with
    | nil => intro a b d o o'; exact ⟨a, o, b, o', d, rfl⟩
    | cons r rest ih => intro a b d o o'; exact ih _ _ _ _ _
  obtain ⟨a', o1, b', o2, d', hb⟩ := hb rest (.ident x.word) (.ident p.2.word) (.ident q.2.word) (signOp p.1) (signOp q.1)
  simp only [List.foldl_cons] at hp
  rw [hb] at hp
  obtain ⟨h1, h2, _, _⟩ := C62_reported_partial S.parseExpr c hr (lineOf x (p :: q :: rest))
  obtain ⟨e, he⟩ := h1.2 (Or.inr (Or.inr ⟨_, _, _, hp, Or.inl (by rintro ⟨w, e, hw, _⟩; simp at hw)⟩))
  exact ⟨h2 e he, e, he⟩

/-- **C102 (what cannot be looked up).** A reserved word of Go (`go`, `type`, `map`, ...), a decimal number, and a word with a
sign in front print no table and return an error, even if the vocabulary has the word. -/
theorem C102_not_looked_up (S : GoSyntax) (c : Console F) (hr : Ready c) (line : Word)
    (h : (∃ before w after, line = before ++ w ++ after ∧ Blanks before ∧ Blanks after ∧
        (Reserved w ∨ (w ≠ [] ∧ (∀ d ∈ w, '0' ≤ d ∧ d ≤ '9') ∧ (w.head? = some '0' → w = ['0'])))) ∨
      ∃ (before : Word) (minus : Bool) (t : Typed), line = before ++ signChar minus :: t.text ∧ Blanks before ∧ t.OK S) :
    (c.eval S.parseExpr line).2.out = [] ∧ ∃ e, (c.eval S.parseExpr line).2.res = .err e := by
  obtain ⟨h1, h2, _, _⟩ := C62_reported_partial S.parseExpr c hr line
  have hp : S.parseExpr line = none ∨ S.parseExpr line = some .other := by
    rcases h with ⟨before, w, after, rfl, hb, ha, hw | ⟨hne, hd, h0⟩⟩ | ⟨before, minus, t, rfl, hb, ht⟩
    · exact Or.inl (parseExpr_reserved hb ha hw)
    · exact Or.inr (parseExpr_number hb ha hd hne h0)
    · exact Or.inr (parseExpr_signed hb minus t ht)
  obtain ⟨e, he⟩ := h1.2 (hp.elim Or.inl (fun h => Or.inr (Or.inl h)))
  exact ⟨h2 e he, e, he⟩

/-- **C102 (hyphens).** A word of the vocabulary with a hyphen, `x-y`, cannot be looked up: typing it prints the neighbours
of the difference of `x` and `y`, or, if `x` is not a word, an error and no table. -/
theorem C102_hyphen (S : GoSyntax) (c : Console F) (hr : Ready c) (x y : Word) (hx : WordLike S x) (hx' : ¬ Reserved x)
    (hy : WordLike S y) (hy' : ¬ Reserved y) :
    (∀ ex ey, FirstNamed c.searcher x ex → FirstNamed c.searcher y ey →
      ∃ ns, (c.eval S.parseExpr (x ++ '-' :: y)).2 = { out := [.table ns], res := .ok () } ∧
        c.searcher.search (vecQuery (List.zipWith (fun a b => a -. b) ex.vector ey.vector)) c.k [x, y] = .ok ns) ∧
    (Unknown c.searcher x →
      (c.eval S.parseExpr (x ++ '-' :: y)).2.out = [] ∧ ∃ e, (c.eval S.parseExpr (x ++ '-' :: y)).2.res = .err e) := by
  have hX : (Typed.mk [] x []).OK S := ⟨by simp [Blanks], by simp [Blanks], hx, hx'⟩
  have hY : (Typed.mk [] y []).OK S := ⟨by simp [Blanks], by simp [Blanks], hy, hy'⟩
  have hl : lineOf ⟨[], x, []⟩ [(true, ⟨[], y, []⟩)] = x ++ '-' :: y := by simp [lineOf, Typed.text, signChar]
  obtain ⟨h1, h2⟩ := C102_sum S c hr ⟨[], x, []⟩ ⟨[], y, []⟩ true hX hY
  rw [hl] at h1 h2
  refine ⟨fun ex ey hex hey => ?_, h2⟩
  obtain ⟨ns, h3, h4, _⟩ := h1 ex ey hex hey
  exact ⟨ns, h3, by simpa using h4⟩

theorem lex_double (S : GoSyntax) (m : Bool) (cs cur : List Char) :
    S.lex (signChar m :: signChar m :: cs) cur = S.emit cur ((S.lex cs []).map ((if m then Tok.dec else Tok.inc) :: ·)) := by
  have h1 := sign_not_part S m
  have h2 : lineBlank (signChar m) = false := by cases m <;> rfl
  rw [GoSyntax.lex.eq_def]
  simp only [h1, h2]
  cases m <;> simp [signChar]

theorem lex_then {S : GoSyntax} {t : Typed} (h : t.OK S) (rest : List Char)
    (hr : ∀ cur, S.lex rest cur = S.emit cur (S.lex rest [])) :
    S.lex (t.text ++ rest) [] = (S.lex rest []).map (.ident t.word :: ·) := by
  obtain ⟨h1, h2, h3, h4⟩ := h
  unfold Typed.text
  have h5 : S.lex (t.after ++ rest) t.word = S.emit t.word (S.lex rest []) := by
    cases ha : t.after with
    | nil => exact hr _
    | cons b sp =>
      rw [ha] at h2
      rw [List.cons_append, lex_blank S (h2 b (by simp)), lex_blanks S sp rest (fun d hd => h2 d (by simp [hd]))]
  rw [List.append_assoc, List.append_assoc, lex_blanks S _ _ h1, lex_run S _ _ _ (wordLike_parts h3), List.nil_append, h5, emit_word h3,
    if_neg (fun hk => h4 ((reserved_iff _).1 hk))]

/-- **C102 (words side by side, doubled signs).** Two words with only blanks between them (`new york`) and a word followed by `++` or `--` are
errors, with or without more words and signs behind; nothing is printed, even if the vocabulary has the words. -/
theorem C102_no_operator (S : GoSyntax) (c : Console F) (hr : Ready c) (x : Typed) (hx : x.OK S) (line : Word)
    (h : (∃ (b : Char) (y : Typed) (rest : List (Bool × Typed)), (b = ' ' ∨ b = '\t') ∧ y.OK S ∧ (∀ r ∈ rest, r.2.OK S) ∧ line = x.text ++ b :: lineOf y rest) ∨
      ∃ (minus : Bool) (tail : Word), line = x.text ++ signChar minus :: signChar minus :: tail ∧
        (Blanks tail ∨ ∃ (y : Typed) (rest : List (Bool × Typed)), y.OK S ∧ (∀ r ∈ rest, r.2.OK S) ∧ tail = lineOf y rest)) :
    (c.eval S.parseExpr line).2.out = [] ∧ ∃ e, (c.eval S.parseExpr line).2.res = .err e := by
  obtain ⟨h1, h2, _, _⟩ := C62_reported_partial S.parseExpr c hr line
  have hp : S.parseExpr line = none := by
    unfold GoSyntax.parseExpr
    rcases h with ⟨b, y, rest, hb, hy, hrest, rfl⟩ | ⟨m, tail, rfl, ht⟩
    · have hl : S.lex (x.text ++ b :: lineOf y rest) [] = some (.ident x.word :: toksOf y rest) := by
        rw [lex_then hx _ (fun cur => by rw [lex_blank S hb, lex_blank S hb, emit_nil]), lex_blank S hb, emit_nil, lex_line y rest hy hrest]
        rfl
      rw [hl]
      simp only
      rw [if_neg (by simp), if_neg (by simp only [List.mem_cons, not_or]; exact ⟨by simp, keyword_notin y rest⟩)]
      unfold toksOf
      simp [parseToks]
    · obtain ⟨toks, htl, hk⟩ : ∃ toks, S.lex tail [] = some toks ∧ .keyword ∉ toks := by
        rcases ht with ht | ⟨y, rest, hy, hrest, rfl⟩
        · refine ⟨[], ?_, by simp⟩
          have := lex_blanks S tail [] ht
          rw [List.append_nil] at this
          rw [this, GoSyntax.lex.eq_def]
          rfl
        · exact ⟨_, lex_line y rest hy hrest, keyword_notin y rest⟩
      have hl : S.lex (x.text ++ signChar m :: signChar m :: tail) [] = some (.ident x.word :: (if m then Tok.dec else Tok.inc) :: toks) := by
        rw [lex_then hx _ (fun cur => by rw [lex_double, lex_double, emit_nil]), lex_double, emit_nil, htl]
        rfl
      rw [hl]
      simp only
      rw [if_neg (by simp), if_neg (by cases m <;> simpa using hk)]
      cases m <;> simp [parseToks]
  obtain ⟨e, he⟩ := h1.2 (Or.inl hp)
  exact ⟨h2 e he, e, he⟩

end

/-! ### Concrete cases -/

/-- ASCII only: no other letters or digits, and everything that is not modelled is a syntax error. -/
def asciiSyntax : GoSyntax := ⟨fun _ => false, fun _ => false, fun _ => none⟩

theorem ex_typed (before after : Word) (hb : Blanks before) (ha : Blanks after) (ch : Char) (h : 'a' ≤ ch ∧ ch ≤ 'z') :
    (Typed.mk before [ch] after).OK asciiSyntax := by
  refine ⟨hb, ha, ⟨ch, [], rfl, Or.inl h, by simp⟩, ?_⟩
  rw [← reserved_iff]
  have : ∀ w ∈ goKeywords, w.length ≠ 1 := by decide +kernel
  exact fun hk => this _ hk rfl

/-- the typed words ` b`, `d `, `z` -/
theorem ex_tb : (Typed.mk [' '] ['b'] []).OK asciiSyntax := ex_typed _ _ (by simp [Blanks]) (by simp [Blanks]) 'b' (by decide)
theorem ex_td : (Typed.mk [] ['d'] [' ']).OK asciiSyntax := ex_typed _ _ (by simp [Blanks]) (by simp [Blanks]) 'd' (by decide)
theorem ex_tz : (Typed.mk [] ['z'] []).OK asciiSyntax := ex_typed _ _ (by simp [Blanks]) (by simp [Blanks]) 'z' (by decide)

/-- `C102_word`: ` b` is found, `z` is not. -/
example := (C102_word asciiSyntax exConsole ex_ready _ ex_tb).1 _ ex_b
example := (C102_word asciiSyntax exConsole ex_ready _ ex_tz).2 ex_z

/-- `C102_sum`: ` b-d `; and `z+d `, where `z` is unknown. -/
example := (C102_sum asciiSyntax exConsole ex_ready _ _ true ex_tb ex_td).1 _ _ ex_b ex_d
example := (C102_sum asciiSyntax exConsole ex_ready _ _ false ex_tz ex_td).2 ex_z

/-- `C102_longer_sum`: ` b-d +z`. -/
example : ∃ e, (exConsole.eval asciiSyntax.parseExpr [' ', 'b', '-', 'd', ' ', '+', 'z']).2.res = .err e :=
  (C102_longer_sum asciiSyntax exConsole ex_ready ⟨[' '], ['b'], []⟩ (true, ⟨[], ['d'], [' ']⟩) (false, ⟨[], ['z'], []⟩) [] ex_tb
    (by simp [ex_td, ex_tz])).2

/-- `C102_not_looked_up`: `go`, `42` and `-b`. -/
example := C102_not_looked_up asciiSyntax exConsole ex_ready ['g', 'o'] (Or.inl ⟨[], ['g', 'o'], [], rfl, by simp [Blanks],
  by simp [Blanks], Or.inl (by rw [← reserved_iff]; decide +kernel)⟩)
example := C102_not_looked_up asciiSyntax exConsole ex_ready ['4', '2'] (Or.inl ⟨[], ['4', '2'], [], rfl, by simp [Blanks],
  by simp [Blanks], Or.inr ⟨by simp, by decide, by simp⟩⟩)
example := C102_not_looked_up asciiSyntax exConsole ex_ready ['-', 'd', ' '] (Or.inr ⟨[], true, ⟨[], ['d'], [' ']⟩, rfl, by simp [Blanks], ex_td⟩)

/-- `C102_hyphen`: `b-d`. -/
example := (C102_hyphen asciiSyntax exConsole ex_ready ['b'] ['d'] ex_tb.2.2.1 ex_tb.2.2.2 ex_td.2.2.1 ex_td.2.2.2).1 _ _ ex_b ex_d

/-- `C102_no_operator`: ` b d ` and ` b++`. -/
example := C102_no_operator asciiSyntax exConsole ex_ready _ ex_tb [' ', 'b', ' ', 'd', ' ']
  (Or.inl ⟨' ', _, [], Or.inl rfl, ex_td, by simp, by simp [lineOf, Typed.text]⟩)
example := C102_no_operator asciiSyntax exConsole ex_ready _ ex_tb [' ', 'b', '+', '+']
  (Or.inr ⟨false, [], by simp [Typed.text, signChar], Or.inl (by simp [Blanks])⟩)

/-- Longest match: `b--d` is a syntax error, `b- -d` is not a sum of two words. -/
example : asciiSyntax.parseExpr ['b', '-', '-', 'd'] = none ∧
    asciiSyntax.parseExpr ['b', '-', ' ', '-', 'd'] = some (.binary (.ident ['b']) .sub .other) ∧
    asciiSyntax.parseExpr ['b', ' ', 'd'] = none ∧ asciiSyntax.parseExpr [' '] = none ∧
    asciiSyntax.parseExpr ['b', '+', '1', '0'] = some (.binary (.ident ['b']) .add .other) := by decide +kernel

end Wego.Props
