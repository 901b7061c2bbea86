import Verif.Props.CutFile

/-! # C106: a vector file cut inside a character

`C106_cut` ranges over the cuts between two characters. A cut inside the UTF-8 encoding of a character leaves one to three bytes at the end of the file that are not valid
UTF-8. `strings.Fields` and `bufio.Scanner` take such bytes as one rune U+FFFD each, which is not white space; since nothing but this is used before `Load` fails, the
bytes are represented here by any characters that are not white space. -/

namespace Wego.Props
open Wego Spec

theorem fmtF_ascii (x : F64) : ∀ c ∈ fmtF x, c.toNat < 128 := by
  have h := fmtF_isSixDecimals x
  cases x with
  | nan => rw [show fmtF F64.nan = ['N', 'a', 'N'] from h]; decide
  | inf s =>
    cases s with
    | false => rw [show fmtF (F64.inf false) = ['+', 'I', 'n', 'f'] from h]; decide
    | true => rw [show fmtF (F64.inf true) = ['-', 'I', 'n', 'f'] from h]; decide
  | fin s n hr =>
    obtain ⟨ip, fp, e, h1, h2, -⟩ := h
    rw [e]
    intro c hc
    have d : '9'.toNat = 57 := by decide
    simp only [List.mem_append, List.mem_singleton] at hc
    rcases hc with ((hc | hc) | hc) | hc
    · cases s
      · simp at hc
      · simp only [if_true, List.mem_singleton] at hc; rw [hc]; decide
    · have := (h1 c hc).2; omega
    · rw [hc]; decide
    · have := (h2 c hc).2; omega

theorem utf8Len_append (a b : List Char) : utf8Len (a ++ b) = utf8Len a + utf8Len b := by
  unfold utf8Len; rw [List.map_append, List.sum_append]

theorem length_le_utf8Len (a : List Char) : a.length ≤ utf8Len a := by
  induction a with
  | nil => simp
  | cons c a ih =>
    have e : utf8Len (c :: a) = c.utf8Size + utf8Len a := by simp [utf8Len]
    have := c.utf8Size_pos
    rw [e, List.length_cons]; omega

theorem fmtF_three (x : F64) : 3 ≤ (fmtF x).length := by
  have h := fmtF_isSixDecimals x
  cases x with
  | nan => rw [show fmtF F64.nan = ['N', 'a', 'N'] from h]; decide
  | inf s =>
    cases s with
    | false => rw [show fmtF (F64.inf false) = ['+', 'I', 'n', 'f'] from h]; decide
    | true => rw [show fmtF (F64.inf true) = ['-', 'I', 'n', 'f'] from h]; decide
  | fin s n hr =>
    obtain ⟨ip, fp, e, -, -, h6, -⟩ := h
    rw [e]
    simp only [List.length_append, h6]
    omega

/-- **C106 (inside a character).** If a saved file is cut inside a character of more than one byte - `left` is everything before the character `c`, `junk` what its
remaining bytes are read as (one U+FFFD each, fewer than `c` has bytes, meet the condition on `junk`) - then `Load` fails. -/
theorem C106_inside_character (other : Word → Option F64) (calls : List (List Word)) (dic : Dictionary)
    (hd : addCalls calls = .ok dic) (hw : ∀ w ∈ calls.flatten, w ≠ [] ∧ ∀ c ∈ w, isSpace c = false)
    (mat : Matrix F64) (n : Nat) (hn : 1 ≤ n) (hm : mat.Shaped calls.flatten.dedup.length n) (text : List Char)
    (ht : saveText dic mat false 0 = .ok text)
    (hl : ∀ lines, RawLines text lines → ∀ l ∈ lines, utf8Len l < 65536)
    (left : List Char) (c : Char) (h : left ++ [c] <+: text) (hc : 128 ≤ c.toNat)
    (junk : List Char) (hj : junk ≠ []) (hjs : ∀ d ∈ junk, isSpace d = false) (hjl : utf8Len junk ≤ utf8Len [c] + 5) :
    load other ⟨left ++ junk, false⟩ = .err .tooFewFields := by
  obtain ⟨d, hd', hr⟩ := addCalls_rep calls
  rw [hd] at hd'; obtain rfl := Res.ok.inj hd'
  have hlen2 : calls.flatten.dedup.length = (firstOcc calls.flatten).length := by
    rw [← hr.len_eq]; exact hr.maxid
  rw [hlen2] at hm
  rw [saveText_eq hr hm false 0 (by simp)] at ht
  obtain rfl := Res.ok.inj ht
  set ws := firstOcc calls.flatten with hws
  change left ++ [c] <+: fileText ws (rowsOf mat ws.length) at h
  change ∀ lines, RawLines (fileText ws (rowsOf mat ws.length)) lines → _ at hl
  set rows := rowsOf mat ws.length with hrows
  have hw' : ∀ w ∈ ws, w ≠ [] ∧ ∀ c ∈ w, isSpace c = false := fun w h => hw w ((mem_firstOcc _ _).1 h)
  have hrow : ∀ row ∈ rows, row.length = n := by
    intro row h
    simp only [hrows, rowsOf, List.mem_map, List.mem_range] at h
    obtain ⟨i, hi, rfl⟩ := h
    exact hm.length_rowOf hi
  have hrne : ∀ row ∈ rows, row ≠ [] := fun row h he => by have := hrow row h; rw [he] at this; simp at this; omega
  have hl' := hl _ (rawLines_fileText ws rows hw')
  have hlen : ∀ p ∈ List.zip ws rows, utf8Len (lineText p.1 p.2) < maxTok := by
    intro p hp
    apply hl'
    rw [← List.map_uncurry_zip_eq_zipWith]
    exact List.mem_map.2 ⟨p, hp, rfl⟩
  have hwl : ws.length = rows.length := by simp [hrows, rowsOf]
  obtain ⟨m, part, hm1, he, hpart⟩ := cut_fileText ws rows hwl (left ++ [c]) h
  have hwt : ∀ w ∈ ws.take m, w ≠ [] ∧ ∀ c ∈ w, isSpace c = false := fun w h => hw' w (List.mem_of_mem_take h)
  have hrt : ∀ row ∈ rows.take m, row ≠ [] := fun row h => hrne row (List.mem_of_mem_take h)
  have hlt : ∀ p ∈ List.zip (ws.take m) (rows.take m), utf8Len (lineText p.1 p.2) < maxTok :=
    fun p hp => hlen p (by unfold List.zip at hp ⊢; rw [← List.take_zipWith] at hp; exact List.mem_of_mem_take hp)
  rcases hpart with rfl | ⟨h0, w, row, h1, h2, h3⟩
  · -- the character before the cut would be a newline
    exfalso
    rw [List.append_nil] at he
    have hlast : ∀ (ws : List Word) (rows : List (List F64)), fileText ws rows = [] ∨ (fileText ws rows).getLast? = some '\n' := by
      intro ws
      induction ws with
      | nil => intro rows; left; simp [fileText]
      | cons w ws ih =>
        intro rows
        cases rows with
        | nil => left; simp [fileText]
        | cons row rows =>
          right
          rw [fileText_cons]
          rcases ih rows with h | h
          · rw [h]; simp
          · rw [List.getLast?_append, List.getLast?_cons, h]
            simp
    rcases hlast (ws.take m) (rows.take m) with h | h
    · rw [h] at he; simp at he
    · rw [← he] at h
      simp only [List.getLast?_append, List.getLast?_singleton, Option.some_or, Option.some.injEq] at h
      rw [h] at hc; revert hc; decide
  · obtain ⟨part', rfl⟩ : ∃ part', part = part' ++ [c] := by
      have := congrArg List.getLast? he
      rw [List.getLast?_append_of_ne_nil _ h0, List.getLast?_append_of_ne_nil _ (by simp)] at this
      obtain ⟨p, hp⟩ := List.getLast?_eq_some_iff.1 this.symm
      exact ⟨p, by simpa using hp⟩
    rw [← List.append_assoc] at he
    obtain rfl : left = fileText (ws.take m) (rows.take m) ++ part' := (List.append_inj' he rfl).1
    obtain ⟨hw1, hw2⟩ := hw' w (List.mem_of_getElem? h1)
    have hpw : part' ++ [c] <+: w := by
      have hna : c ∉ valsText row ∧ c ≠ ' ' := by
        have hs : c ≠ ' ' := by rintro rfl; revert hc; decide
        refine ⟨?_, hs⟩
        intro hcm
        simp only [valsText, List.mem_flatMap, List.mem_append, List.mem_singleton] at hcm
        obtain ⟨x, -, hx | hx⟩ := hcm
        · have := fmtF_ascii x c hx; omega
        · exact hs hx
      unfold lineText at h3
      rw [List.append_assoc] at h3
      rcases prefix_append_cases h3 with h | ⟨t, e, hx⟩
      · exact h
      · rcases List.eq_nil_or_concat t with rfl | ⟨t', y, rfl⟩
        · rw [e, List.append_nil]
        · exfalso
          rw [List.concat_eq_append, ← List.append_assoc] at e
          have hy := (List.append_inj' e rfl).2
          have hcy : c ∈ [' '] ++ valsText row := hx.subset (by rw [List.concat_eq_append, ← hy]; simp)
          rcases List.mem_append.1 hcy with h | h
          · exact hna.2 (by simpa using h)
          · exact hna.1 h
    have hns : ∀ d ∈ part' ++ junk, isSpace d = false := by
      intro d hd
      rcases List.mem_append.1 hd with hd | hd
      · exact hw2 d (hpw.subset (by simp [hd]))
      · exact hjs d hd
    have hne : part' ++ junk ≠ [] := by simp [hj]
    have hz : (w, row) ∈ List.zip ws rows := by
      apply List.mem_of_getElem? (i := m)
      rw [List.getElem?_zip_eq_some]
      exact ⟨h1, h2⟩
    have hp : utf8Len (part' ++ junk) < maxTok := by
      refine lt_of_le_of_lt ?_ (hlen _ hz)
      obtain ⟨t, ht⟩ := hpw
      have hv : 4 ≤ utf8Len (valsText row) := by
        cases row with
        | nil => exact absurd rfl (hrne [] (List.mem_of_getElem? h2))
        | cons x row =>
          have e : valsText (x :: row) = fmtF x ++ ([' '] ++ valsText row) := by simp [valsText]
          rw [e, utf8Len_append, utf8Len_append]
          have h3 := (length_le_utf8Len (fmtF x)).trans' (fmtF_three x)
          have h1 : utf8Len [' '] = 1 := by decide
          omega
      have h1 : utf8Len [' '] = 1 := by decide
      unfold lineText
      rw [← ht]; simp only [utf8Len_append]; omega
    have hnl : '\n' ∉ part' ++ junk := fun h => by have := hns _ h; revert this; decide
    have hcr : dropCR (part' ++ junk) = part' ++ junk := by
      unfold dropCR
      rw [if_neg]
      intro h
      have := hns _ (List.mem_of_getLast? h); revert this; decide
    have hhead : (part' ++ junk).head? ≠ some ' ' := by
      intro h
      have := hns _ (List.mem_of_head? h); revert this; decide
    have hfields : fields (part' ++ junk) = [part' ++ junk] := by
      have := fieldsAux_word (part' ++ junk) [] [] hns
      rw [List.append_nil] at this
      unfold fields
      rw [this]; simp [fieldsAux, hj]
    rw [List.append_assoc, load_cut other _ _ (part' ++ junk) hwt hrt hlt hnl hcr hp, if_neg hne, loadLine_one other _ _ hhead hfields]

/-- two words, the second one with a character of two bytes -/
def ccCalls : List (List Word) := [[['a'], ['b', 'é']]]
def ccDic : Dictionary := match addCalls ccCalls with | .ok d => d | _ => Dictionary.new
def ccText : List Char := "a 0.007812 -0.000000 \nbé -Inf -12.500000 \n".toList

/-- The hypotheses of `C106_inside_character` are met: the file ends after the first byte of the `é`. -/
example : load (goNumber goRest) ⟨"a 0.007812 -0.000000 \nb\uFFFD".toList, false⟩ = .err .tooFewFields :=
  C106_inside_character (goNumber goRest) ccCalls ccDic rfl (by decide) cfMat 2 (by decide) ⟨rfl, rfl, rfl⟩ ccText (by decide +kernel)
    (fun lines h => by
      have e : lines = ["a 0.007812 -0.000000 ".toList, "bé -Inf -12.500000 ".toList] :=
        rawLines_unique h (.cons "a 0.007812 -0.000000 ".toList _ _ (by decide) (.cons "bé -Inf -12.500000 ".toList _ _ (by decide) .nil))
      subst e; decide)
    "a 0.007812 -0.000000 \nb".toList 'é' (by decide) (by decide) ['\uFFFD'] (by decide) (by decide) (by decide)

end Wego.Props
