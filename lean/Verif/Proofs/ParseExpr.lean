import Verif.Spec.TypedLine

namespace Wego
open Wego.Spec

theorem isLetter_iff (S : GoSyntax) (c : Char) : S.isLetter c = true ↔ IsLetter S c := by
  unfold GoSyntax.isLetter IsLetter
  have h1 : ∀ a b : Char, a ≤ b ↔ a.toNat ≤ b.toNat := fun a b => by
    rw [Char.le_def, UInt32.le_iff_toNat_le]; rfl
  have h2 : c = '_' ↔ c.toNat = 95 := by
    constructor
    · rintro rfl; rfl
    · intro h; exact Char.toNat_inj.1 h
  simp only [h1, h2, Bool.or_eq_true, Bool.and_eq_true, decide_eq_true_eq, beq_iff_eq]
  have : 'a'.toNat = 97 := rfl
  have : 'z'.toNat = 122 := rfl
  have : 'A'.toNat = 65 := rfl
  have : 'Z'.toNat = 90 := rfl
  tauto

theorem asciiDigit_iff (c : Char) : asciiDigit c = true ↔ ('0' ≤ c ∧ c ≤ '9') := by
  have h1 : ∀ a b : Char, a ≤ b ↔ a.toNat ≤ b.toNat := fun a b => by
    rw [Char.le_def, UInt32.le_iff_toNat_le]; rfl
  unfold asciiDigit
  simp only [h1, Bool.and_eq_true, decide_eq_true_eq]
  have : '0'.toNat = 48 := rfl
  have : '9'.toNat = 57 := rfl
  tauto

theorem isDigit_iff (S : GoSyntax) (c : Char) : S.isDigit c = true ↔ IsDigit S c := by
  unfold GoSyntax.isDigit IsDigit
  simp only [Bool.or_eq_true, Bool.and_eq_true, decide_eq_true_eq, asciiDigit_iff]

theorem reserved_iff (w : Word) : w ∈ goKeywords ↔ Reserved w := by
  unfold goKeywords Reserved
  rw [List.mem_map]
  constructor
  · rintro ⟨s, hs, rfl⟩
    rw [String.ofList_toList]
    revert s
    decide +kernel
  · intro h
    refine ⟨String.ofList w, ?_, String.toList_ofList⟩
    revert h
    generalize String.ofList w = s
    revert s
    decide +kernel

/-- part of a run -/
def runPart (S : GoSyntax) (c : Char) : Bool := S.isLetter c || S.isDigit c

theorem lex_part (S : GoSyntax) {c : Char} (h : runPart S c = true) (cs cur : List Char) :
    S.lex (c :: cs) cur = S.lex cs (cur ++ [c]) := by
  unfold runPart at h
  cases cs with
  | nil => rw [GoSyntax.lex.eq_def, GoSyntax.lex.eq_def]; simp only [h, if_true]
  | cons d cs => rw [GoSyntax.lex.eq_def]; simp only [h, if_true]

theorem lex_run (S : GoSyntax) (w rest cur : List Char) (h : ∀ c ∈ w, runPart S c = true) :
    S.lex (w ++ rest) cur = S.lex rest (cur ++ w) := by
  induction w generalizing cur with
  | nil => simp
  | cons c w ih =>
    rw [List.cons_append, lex_part S (h c (by simp)), ih _ (fun d hd => h d (by simp [hd]))]
    simp

theorem blank_not_part (S : GoSyntax) {c : Char} (h : c = ' ' ∨ c = '\t') : (S.isLetter c || S.isDigit c) = false := by
  rcases h with rfl | rfl <;> simp [GoSyntax.isLetter, GoSyntax.isDigit, asciiDigit]

theorem sign_not_part (S : GoSyntax) (m : Bool) : (S.isLetter (signChar m) || S.isDigit (signChar m)) = false := by
  cases m <;> simp [signChar, GoSyntax.isLetter, GoSyntax.isDigit, asciiDigit]

theorem emit_nil (S : GoSyntax) (r : Option (List Tok)) : S.emit [] r = r := rfl

theorem lex_blank (S : GoSyntax) {c : Char} (h : c = ' ' ∨ c = '\t') (cs cur : List Char) :
    S.lex (c :: cs) cur = S.emit cur (S.lex cs []) := by
  have h1 := blank_not_part S h
  have h2 : lineBlank c = true := by rcases h with rfl | rfl <;> rfl
  cases cs with
  | nil => rw [GoSyntax.lex.eq_def, GoSyntax.lex.eq_def S []]; simp [h1, h2, emit_nil]
  | cons d cs => rw [GoSyntax.lex.eq_def]; simp [h1, h2]

/-- the token of a sign -/
def signTok (m : Bool) : Tok := if m then .minus else .plus

theorem lex_sign (S : GoSyntax) (m : Bool) (cs cur : List Char) (h : cs.head? ≠ some (signChar m)) :
    S.lex (signChar m :: cs) cur = S.emit cur ((S.lex cs []).map (signTok m :: ·)) := by
  have h1 := sign_not_part S m
  have h2 : lineBlank (signChar m) = false := by cases m <;> rfl
  cases cs with
  | nil =>
    rw [GoSyntax.lex.eq_def, GoSyntax.lex.eq_def S []]
    simp only [h1, h2, emit_nil]
    cases m <;> rfl
  | cons d cs =>
    rw [GoSyntax.lex.eq_def]
    simp only [h1, h2]
    cases m
    · have : d ≠ '+' := fun h' => h (by simp [h', signChar])
      simp [signChar, this, signTok]
    · have : d ≠ '-' := fun h' => h (by simp [h', signChar])
      simp [signChar, this, signTok]

theorem lex_blanks (S : GoSyntax) (sp rest : List Char) (h : Blanks sp) : S.lex (sp ++ rest) [] = S.lex rest [] := by
  induction sp with
  | nil => rfl
  | cons c sp ih =>
    rw [List.cons_append, lex_blank S (h c (by simp)), emit_nil]
    exact ih (fun d hd => h d (by simp [hd]))

/-- a run is finished by what cannot continue it -/
theorem lex_finish (S : GoSyntax) (cur rest : List Char)
    (h : rest = [] ∨ ∃ m cs, rest = signChar m :: cs ∧ cs.head? ≠ some (signChar m)) :
    S.lex rest cur = S.emit cur (S.lex rest []) := by
  rcases h with rfl | ⟨m, cs, rfl, h⟩
  · rw [GoSyntax.lex.eq_def, GoSyntax.lex.eq_def S []]; simp [emit_nil]
  · rw [lex_sign S m cs cur h, lex_sign S m cs [] h, emit_nil]

theorem lex_finish_blanks (S : GoSyntax) (cur sp rest : List Char) (hsp : Blanks sp)
    (h : rest = [] ∨ ∃ m cs, rest = signChar m :: cs ∧ cs.head? ≠ some (signChar m)) :
    S.lex (sp ++ rest) cur = S.emit cur (S.lex rest []) := by
  cases sp with
  | nil => exact lex_finish S cur rest h
  | cons c sp =>
    rw [List.cons_append, lex_blank S (hsp c (by simp)), lex_blanks S sp rest (fun d hd => hsp d (by simp [hd]))]

theorem wordLike_parts {S : GoSyntax} {w : Word} (h : WordLike S w) : ∀ c ∈ w, runPart S c = true := by
  obtain ⟨c, r, rfl, h1, h2⟩ := h
  intro d hd
  unfold runPart
  simp only [Bool.or_eq_true, isLetter_iff, isDigit_iff]
  rcases List.mem_cons.1 hd with rfl | hd
  · exact Or.inl h1
  · exact h2 d hd

theorem emit_word {S : GoSyntax} {w : Word} (h : WordLike S w) (r : Option (List Tok)) :
    S.emit w r = r.map ((if w ∈ goKeywords then .keyword else .ident w) :: ·) := by
  obtain ⟨c, s, rfl, h1, h2⟩ := h
  unfold GoSyntax.emit
  simp only [GoSyntax.classify, (isLetter_iff S c).2 h1, if_true]
  cases r <;> rfl

/-- the tokens of a line -/
def toksOf (t : Typed) (rest : List (Bool × Typed)) : List Tok :=
  .ident t.word :: rest.flatMap (fun p => [signTok p.1, .ident p.2.word])

theorem text_head {S : GoSyntax} {t : Typed} (h : t.OK S) (m : Bool) (l : List Char) :
    (t.text ++ l).head? ≠ some (signChar m) := by
  obtain ⟨h1, h2, ⟨c, r, h3, h4, _⟩, _⟩ := h
  have hs := sign_not_part S m
  unfold Typed.text
  cases hb : t.before with
  | cons b bs =>
    have hb2 := h1 b (by rw [hb]; simp)
    simp only [List.cons_append, List.head?_cons, ne_eq, Option.some.injEq]
    rintro rfl
    rcases hb2 with h | h <;> cases m <;> simp [signChar] at h
  | nil =>
    simp only [h3, List.nil_append, List.cons_append, List.head?_cons, ne_eq, Option.some.injEq]
    rintro rfl
    rw [(isLetter_iff S _).2 h4] at hs
    simp at hs

theorem rest_head {S : GoSyntax} (rest : List (Bool × Typed)) (hr : ∀ p ∈ rest, p.2.OK S) :
    rest.flatMap (fun p => signChar p.1 :: p.2.text) = [] ∨
      ∃ m cs, rest.flatMap (fun p => signChar p.1 :: p.2.text) = signChar m :: cs ∧ cs.head? ≠ some (signChar m) := by
  cases rest with
  | nil => exact Or.inl rfl
  | cons p rest =>
    refine Or.inr ⟨p.1, p.2.text ++ rest.flatMap (fun p => signChar p.1 :: p.2.text), by simp, ?_⟩
    exact text_head (hr p (by simp)) _ _

theorem lex_typed {S : GoSyntax} {t : Typed} (h : t.OK S) (rest : List Char)
    (hr : rest = [] ∨ ∃ m cs, rest = signChar m :: cs ∧ cs.head? ≠ some (signChar m)) :
    S.lex (t.text ++ rest) [] = (S.lex rest []).map (.ident t.word :: ·) := by
  obtain ⟨h1, h2, h3, h4⟩ := h
  unfold Typed.text
  rw [List.append_assoc, List.append_assoc, lex_blanks S _ _ h1, lex_run S _ _ _ (wordLike_parts h3), List.nil_append,
    lex_finish_blanks S _ _ _ h2 hr, emit_word h3, if_neg (fun hk => h4 ((reserved_iff _).1 hk))]

theorem lex_line {S : GoSyntax} (t : Typed) (rest : List (Bool × Typed)) (ht : t.OK S) (hr : ∀ p ∈ rest, p.2.OK S) :
    S.lex (lineOf t rest) [] = some (toksOf t rest) := by
  unfold lineOf toksOf
  rw [lex_typed ht _ (rest_head rest hr)]
  have : ∀ rest : List (Bool × Typed), (∀ p ∈ rest, p.2.OK S) →
      S.lex (rest.flatMap (fun p => signChar p.1 :: p.2.text)) [] = some (rest.flatMap (fun p => [signTok p.1, .ident p.2.word])) := by
    intro rest
    induction rest with
    | nil => intro _; rfl
    | cons p rest ih =>
      intro hr
      have hr' : ∀ p ∈ rest, p.2.OK S := fun q hq => hr q (by simp [hq])
      simp only [List.flatMap_cons, List.cons_append]
      rw [lex_sign S _ _ _ (text_head (hr p (by simp)) _ _), emit_nil, lex_typed (hr p (by simp)) _ (rest_head rest hr'), ih hr']
      rfl
  rw [this rest hr]
  rfl

/-- the operator of a sign -/
def signOp (m : Bool) : Op := if m then .sub else .add

theorem parse_after (x : Expr) (rest : List (Bool × Typed)) :
    parseToks (.after x) (rest.flatMap (fun p => [signTok p.1, .ident p.2.word])) =
      some (rest.foldl (fun x p => .binary x (signOp p.1) (.ident p.2.word)) x) := by
  induction rest generalizing x with
  | nil => rfl
  | cons p rest ih =>
    rw [List.flatMap_cons, List.foldl_cons, ← ih]
    cases h : p.1 <;> simp [signTok, signOp, parseToks, mkBinary]

theorem keyword_notin (t : Typed) (rest : List (Bool × Typed)) : .keyword ∉ toksOf t rest := by
  unfold toksOf
  simp only [List.mem_cons, List.mem_flatMap, not_or, not_exists, not_and]
  refine ⟨by simp, fun p _ => ?_⟩
  cases p.1 <;> simp [signTok]

/-- what the parser makes of a line of words and signs -/
theorem parseExpr_line {S : GoSyntax} (t : Typed) (rest : List (Bool × Typed)) (ht : t.OK S) (hr : ∀ p ∈ rest, p.2.OK S) :
    S.parseExpr (lineOf t rest) = some (rest.foldl (fun x p => .binary x (signOp p.1) (.ident p.2.word)) (.ident t.word)) := by
  unfold GoSyntax.parseExpr
  rw [lex_line t rest ht hr]
  simp only
  rw [if_neg (by unfold toksOf; simp), if_neg (keyword_notin t rest), ← parse_after]
  rfl

/-- a reserved word alone is a syntax error -/
theorem parseExpr_reserved {S : GoSyntax} {before w after : Word} (h1 : Blanks before) (h2 : Blanks after) (hw : Reserved w) :
    S.parseExpr (before ++ w ++ after) = none := by
  have hk := (reserved_iff w).2 hw
  have hl : WordLike S w := by
    have hall : ∀ w ∈ goKeywords, w ≠ [] ∧ ∀ c ∈ w, 97 ≤ c.toNat ∧ c.toNat ≤ 122 := by decide +kernel
    obtain ⟨hne, hcs⟩ := hall w hk
    have hlet : ∀ c ∈ w, IsLetter S c := fun c hc => by
      rw [← isLetter_iff]; unfold GoSyntax.isLetter; simp [hcs c hc]
    cases w with
    | nil => exact absurd rfl hne
    | cons c r => exact ⟨c, r, rfl, hlet c (by simp), fun d hd => Or.inl (hlet d (by simp [hd]))⟩
  unfold GoSyntax.parseExpr
  have : S.lex (before ++ w ++ after) [] = some [.keyword] := by
    have h3 := lex_finish_blanks S w after [] h2 (Or.inl rfl)
    rw [List.append_nil] at h3
    rw [List.append_assoc, lex_blanks S _ _ h1, lex_run S _ _ _ (wordLike_parts hl), List.nil_append, h3, emit_word hl, if_pos hk]
    rfl
  rw [this]
  simp

/-- a decimal number alone is a literal -/
theorem parseExpr_number {S : GoSyntax} {before w after : Word} (h1 : Blanks before) (h2 : Blanks after)
    (hd : ∀ c ∈ w, '0' ≤ c ∧ c ≤ '9') (hne : w ≠ []) (h0 : w.head? = some '0' → w = ['0']) :
    S.parseExpr (before ++ w ++ after) = some .other := by
  have hall : ∀ c ∈ w, asciiDigit c = true := fun c hc => (asciiDigit_iff c).2 (hd c hc)
  unfold GoSyntax.parseExpr
  have : S.lex (before ++ w ++ after) [] = some [.int] := by
    have h3 := lex_finish_blanks S w after [] h2 (Or.inl rfl)
    rw [List.append_nil] at h3
    rw [List.append_assoc, lex_blanks S _ _ h1, lex_run S _ _ _ (fun c hc => by simp [runPart, GoSyntax.isDigit, hall c hc]),
      List.nil_append, h3]
    cases w with
    | nil => exact absurd rfl hne
    | cons c r =>
      have hc := hall c (by simp)
      have hnl : S.isLetter c = false := by
        unfold asciiDigit at hc
        simp only [Bool.and_eq_true, decide_eq_true_eq] at hc
        unfold GoSyntax.isLetter
        simp only [Bool.or_eq_false_iff, Bool.and_eq_false_iff, decide_eq_false_iff_not, beq_eq_false_iff_ne]
        refine ⟨⟨⟨Or.inl ?_, Or.inl ?_⟩, ?_⟩, Or.inl ?_⟩ <;> omega
      have hall2 : (c :: r).all asciiDigit = true := by rw [List.all_eq_true]; exact hall
      have h00 : (c != '0' || r.isEmpty) = true := by
        by_cases hc0 : c = '0'
        · subst hc0
          have := h0 rfl
          simp only [List.cons.injEq, true_and] at this
          simp [this]
        · simp [hc0]
      unfold GoSyntax.emit
      simp only [GoSyntax.classify, hnl, hall2, h00]
      rfl
  rw [this]
  simp [parseToks, mkBinary]

/-- a sign in front of a word makes it neither a word nor a sum -/
theorem parseExpr_signed {S : GoSyntax} {before : Word} (h1 : Blanks before) (m : Bool) (t : Typed) (ht : t.OK S) :
    S.parseExpr (before ++ signChar m :: t.text) = some .other := by
  unfold GoSyntax.parseExpr
  have h2 := lex_typed ht [] (Or.inl rfl)
  have h3 := text_head ht m []
  rw [List.append_nil] at h2 h3
  have : S.lex (before ++ signChar m :: t.text) [] = some [signTok m, .ident t.word] := by
    rw [lex_blanks S _ _ h1, lex_sign S m _ _ h3, emit_nil, h2]
    rfl
  rw [this]
  cases m <;> simp [signTok, parseToks, mkBinary]

end Wego
