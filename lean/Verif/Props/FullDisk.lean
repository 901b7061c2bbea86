import Verif.Props.SaveLoad

/-! # C51: a disk that fills up while `Save` writes -/

namespace Wego.Props
open Wego Spec

/-- A file on a disk with room for `cap` bytes: `Write` stores what fits and returns an error if not everything did. -/
def disk (cap : Nat) : Sink (List UInt8) where
  write s b := (s ++ b.take (cap - s.length), (b.take (cap - s.length)).length, decide ((b.take (cap - s.length)).length < b.length))

theorem sendChunks_disk (cap : Nat) (cs : List (List UInt8)) (s : List UInt8) :
    (sendChunks (disk cap) cs s).1 = s ++ cs.flatten.take (cap - s.length) := by
  induction cs generalizing s with
  | nil => simp [sendChunks]
  | cons c cs ih =>
    unfold sendChunks
    dsimp only [disk]
    by_cases h : (c.take (cap - s.length)).length < c.length
    · rw [if_pos (Or.inr h)]
      dsimp only
      rw [List.flatten_cons, List.take_append_of_le_length (by rw [List.length_take] at h; omega)]
    · rw [if_neg (by simp only [decide_eq_true_eq, or_self]; exact h)]
      dsimp only
      have hc : c.length ≤ cap - s.length := by rw [List.length_take] at h; omega
      have he : c.take (cap - s.length) = c := List.take_of_length_le hc
      have := ih (s ++ c)
      rw [he]
      refine Eq.trans this ?_
      rw [List.flatten_cons, List.take_append, he, List.length_append, List.append_assoc, Nat.sub_sub]

/-- **C51 (a full disk).** If the disk has room for only `cap` bytes, `Save` returns nil and the file holds exactly the first `cap` bytes
of the text. -/
theorem C51_refuted_full_disk (cap : Nat) (direct : Bool) (dic : Dictionary) (mat : Matrix F64) (v : Bool)
    (lb : Int) (text : List Char) (ht : saveText dic mat v lb = .ok text) :
    ∃ b, save (disk cap) direct dic mat v lb [] = .ok ((utf8 text).take cap, b) := by
  unfold save
  rw [ht, Res.ok_bind]
  dsimp only
  rw [sendChunks_disk, flatten_chunks]
  exact ⟨_, rfl⟩

/-- `C51_refuted_full_disk` on a disk with room for 10 bytes. -/
example := C51_refuted_full_disk 10 false slDic slMat false 0 slText sl_text

theorem fileText_take (ws : List Word) (rows : List (List F64)) (m : Nat) :
    ∃ rest, fileText ws rows = fileText (ws.take m) (rows.take m) ++ rest := by
  induction ws generalizing rows m with
  | nil => exact ⟨[], by simp [fileText]⟩
  | cons w ws ih =>
    cases rows with
    | nil => exact ⟨[], by simp [fileText]⟩
    | cons row rows =>
      cases m with
      | zero => exact ⟨fileText (w :: ws) (row :: rows), by simp [fileText]⟩
      | succ m =>
        obtain ⟨rest, h⟩ := ih rows m
        refine ⟨rest, ?_⟩
        rw [fileText_cons, List.take_succ_cons, List.take_succ_cons, fileText_cons, h]
        simp

/-- **C51 (words lost without notice).** Whatever was trained: for every `m` below the number of words there is an amount of free disk
space, smaller than the file, with which `Save` returns nil, and loading the file that is left returns nil, too - with only the first `m`
words. No error is reported anywhere. -/
theorem C51_refuted_words_lost (other : Word → Option F64) (direct : Bool) (calls : List (List Word)) (dic : Dictionary)
    (hd : addCalls calls = .ok dic) (hw : ∀ w ∈ calls.flatten, w ≠ [] ∧ ∀ c ∈ w, isSpace c = false)
    (mat : Matrix F64) (c : Nat) (hc : 1 ≤ c) (hm : mat.Shaped calls.flatten.dedup.length c) (text : List Char)
    (ht : saveText dic mat false 0 = .ok text)
    (hl : ∀ lines, RawLines text lines → ∀ l ∈ lines, utf8Len l < 65536) (m : Nat) (hmn : m < calls.flatten.dedup.length) :
    ∃ cap < (utf8 text).length, ∃ left b embs, save (disk cap) direct dic mat false 0 [] = .ok (utf8 left, b) ∧
      load other ⟨left, false⟩ = .ok embs ∧ embs.map (·.word) = (firstOcc calls.flatten).take m := by
  obtain ⟨d, hd', hr⟩ := addCalls_rep calls
  rw [hd] at hd'; obtain rfl := Res.ok.inj hd'
  have hlen2 : calls.flatten.dedup.length = (firstOcc calls.flatten).length := by
    rw [← hr.len_eq]; exact hr.maxid
  rw [hlen2] at hm hmn
  have ht0 := ht
  rw [saveText_eq hr hm false 0 (by simp)] at ht
  obtain rfl := Res.ok.inj ht
  set ws := firstOcc calls.flatten with hws
  set rows := rowsOf mat ws.length with hrows
  have hw' : ∀ w ∈ ws, w ≠ [] ∧ ∀ c ∈ w, isSpace c = false := fun w h => hw w ((mem_firstOcc _ _).1 h)
  have hrow : ∀ row ∈ rows, row.length = c := by
    intro row h
    simp only [hrows, rowsOf, List.mem_map, List.mem_range] at h
    obtain ⟨i, hi, rfl⟩ := h
    exact hm.length_rowOf hi
  have hl' := hl _ (rawLines_fileText ws rows hw')
  have hlen : ∀ p ∈ List.zip ws rows, utf8Len (lineText p.1 p.2) < maxTok := by
    intro p hp
    apply hl'
    rw [← List.map_uncurry_zip_eq_zipWith]
    exact List.mem_map.2 ⟨p, hp, rfl⟩
  have hwl : ws.length = rows.length := by simp [hrows, rowsOf]
  obtain ⟨rest, hrest⟩ := fileText_take ws rows m
  have hne : rest ≠ [] := by
    intro h0
    rw [h0, List.append_nil] at hrest
    have h1 := rawLines_fileText ws rows hw'
    rw [hrest] at h1
    have h2 := rawLines_fileText (ws.take m) (rows.take m) (fun w h => hw' w (List.mem_of_mem_take h))
    have := congrArg List.length (rawLines_unique h1 h2)
    simp at this
    omega
  have hutf : utf8 (fileText ws rows) = utf8 (fileText (ws.take m) (rows.take m)) ++ utf8 rest := by
    rw [hrest]; unfold utf8; rw [List.flatMap_append]
  have hpos : 0 < (utf8 rest).length := by
    rcases rest with _ | ⟨a, rest⟩
    · exact absurd rfl hne
    · unfold utf8
      rw [List.flatMap_cons, List.length_append]
      have : 0 < (String.utf8EncodeChar a).length := by
        rw [String.length_utf8EncodeChar]; exact Char.utf8Size_pos a
      omega
  obtain ⟨b, hb⟩ := C51_refuted_full_disk (utf8 (fileText (ws.take m) (rows.take m))).length direct dic mat false 0 _ ht0
  rw [hutf, List.take_left'  rfl] at hb
  have hload := load_fileText other (ws.take m) (rows.take m) (fun w h => hw' w (List.mem_of_mem_take h))
    (fun row h he => by have := hrow row (List.mem_of_mem_take h); rw [he] at this; simp at this; omega)
    (fun p hp => hlen p (by unfold List.zip at hp ⊢; rw [← List.take_zipWith] at hp; exact List.mem_of_mem_take hp))
  refine ⟨_, ?_, _, b, _, hb, hload, ?_⟩
  · rw [hutf, List.length_append]; omega
  · rw [List.map_zipWith]
    simp only [embOf]
    exact List.ext_getElem (by simp [hwl]) (by intro i h1 h2; simp)

/-- `C51_refuted_words_lost`: of the two words of `slText` the first is left. -/
example := C51_refuted_words_lost (fun _ => none) false slCalls slDic sl_dic sl_words slMat 2 (by decide) sl_shaped slText sl_text
  (by intro lines h l hl; rw [rawLines_unique h sl_lines] at hl; revert l; decide) 1 (by decide)

end Wego.Props
