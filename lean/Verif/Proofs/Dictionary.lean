import Verif.Model.Dictionary
import Verif.Proofs.FirstOcc
import Mathlib.Data.List.Induction
import Mathlib.Algebra.BigOperators.Group.List.Basic

namespace Wego
open Spec

/-- `d` is the dictionary of the word sequence `ws`. -/
structure Dictionary.Rep (d : Dictionary) (ws : List Word) : Prop where
  id2word : d.id2word = firstOcc ws
  cfs : d.cfs = (firstOcc ws).map (fun w => ws.count w)
  maxid : d.maxid = (firstOcc ws).length
  get : ∀ w, d.word2id.get? w = if w ∈ ws then some ((firstOcc ws).idxOf w) else none

namespace Dictionary

theorem rep_new : Rep new [] := by
  constructor <;> simp [new, firstOcc]

theorem add1_rep {d : Dictionary} {ws : List Word} (h : Rep d ws) (w : Word) :
    ∃ d', d.add1 w = .ok d' ∧ Rep d' (ws ++ [w]) := by
  by_cases hw : w ∈ ws
  · have hlt : (firstOcc ws).idxOf w < d.cfs.length := by
      rw [h.cfs, List.length_map]
      exact List.idxOf_lt_length_iff.2 (by simpa using hw)
    refine ⟨_, by simp [add1, h.get w, hw, idx_of_lt _ _ hlt, setIdx_of_lt _ _ _ hlt]; rfl, ?_⟩
    constructor
    · simp [firstOcc_concat, hw, h.id2word]
    · simp only [firstOcc_concat, hw, if_true]
      apply List.ext_getElem
      · simp [h.cfs]
      · intro i h1 h2
        simp only [List.getElem_set, List.getElem_map, List.count_append]
        split
        · next hi =>
          subst hi
          simp [h.cfs]
        · next hi =>
          simp only [h.cfs, List.getElem_map]
          have hi2 : i < (firstOcc ws).length := by simpa using h2
          have : w ≠ (firstOcc ws)[i] := by
            intro he
            apply hi
            have := List.Nodup.idxOf_getElem (nodup_firstOcc ws) i hi2
            rw [← he] at this
            exact this
          rw [List.count_eq_zero (l := [w]) |>.2 (by simpa using this.symm)]
          rfl
    · simp [firstOcc_concat, hw, h.maxid]
    · intro w'
      simp only [h.get w', firstOcc_concat, hw, if_true, List.mem_append, List.mem_singleton]
      by_cases e : w' = w
      · subst e; simp [hw]
      · simp [e]
  · refine ⟨_, by simp [add1, h.get w, hw]; rfl, ?_⟩
    constructor
    · simp [firstOcc_concat, hw, h.id2word]
    · simp only [firstOcc_concat, hw, if_false, h.cfs, List.map_append, List.map_cons, List.map_nil]
      congr 1
      · apply List.map_congr_left
        intro a ha
        have : a ≠ w := by rintro rfl; exact hw (by simpa using ha)
        simp [List.count_append, List.count_eq_zero.2, this.symm]
      · simp [List.count_append, List.count_eq_zero.2 hw]
    · simp [firstOcc_concat, hw, h.maxid]
    · intro w'
      simp only [GoMap.get?_set, h.get w', firstOcc_concat, hw, if_false, List.mem_append, List.mem_singleton]
      by_cases e : w = w'
      · subst e
        simp [List.idxOf_append_of_notMem, hw, h.maxid]
      · simp only [e, if_false]
        by_cases hm : w' ∈ ws
        · simp [hm, List.idxOf_append_of_mem]
        · simp [hm, Ne.symm e]

theorem add_rep {d : Dictionary} {ws : List Word} (h : Rep d ws) (us : List Word) :
    ∃ d', d.add us = .ok d' ∧ Rep d' (ws ++ us) := by
  induction us generalizing d ws with
  | nil => exact ⟨d, rfl, by simpa using h⟩
  | cons u us ih =>
    obtain ⟨d1, h1, r1⟩ := add1_rep h u
    obtain ⟨d2, h2, r2⟩ := ih r1
    refine ⟨d2, ?_, by simpa using r2⟩
    simp only [add, forEach_cons, h1, Res.ok_bind]
    exact h2

theorem Rep.id?_eq {d : Dictionary} {ws : List Word} (h : Rep d ws) (w : Word) :
    d.id? w = if w ∈ ws then some (distinctBefore ws w) else none := by
  rw [id?, h.get]
  split
  · next hw => rw [idxOf_firstOcc _ _ hw]
  · rfl

theorem Rep.len_eq {d : Dictionary} {ws : List Word} (h : Rep d ws) : d.len = ws.dedup.length := by
  rw [len, h.maxid, length_firstOcc]

theorem Rep.idFreq_nat {d : Dictionary} {ws : List Word} (h : Rep d ws) (i : Nat) :
    d.idFreq i = .ok (match (firstOcc ws)[i]? with | some w => ws.count w | none => 0) := by
  unfold idFreq
  simp only [h.maxid]
  by_cases hi : i < (firstOcc ws).length
  · have h1 : ¬ ((i : Int) ≥ ((firstOcc ws).length : Int)) := by omega
    have h2 : ¬ ((i : Int) < 0) := by omega
    simp only [h1, h2, if_false, Int.toNat_natCast]
    rw [idx_of_lt _ _ (by simp [h.cfs]; exact hi)]
    simp [h.cfs, hi]
  · have h1 : ((i : Int) ≥ ((firstOcc ws).length : Int)) := by omega
    simp [h1, List.getElem?_eq_none (Nat.le_of_not_lt hi)]

theorem Rep.idFreq_id {d : Dictionary} {ws : List Word} (h : Rep d ws) (w : Word) (hw : w ∈ ws) :
    d.idFreq ((firstOcc ws).idxOf w : Nat) = .ok (ws.count w) := by
  rw [h.idFreq_nat]
  have : (firstOcc ws).idxOf w < (firstOcc ws).length := List.idxOf_lt_length_iff.2 (by simpa using hw)
  simp [this]

theorem Rep.idOrZero_eq {d : Dictionary} {ws : List Word} (h : Rep d ws) (w : Word) :
    d.idOrZero w = if w ∈ ws then (firstOcc ws).idxOf w else 0 := by
  unfold idOrZero id?
  rw [h.get]; split <;> rfl

theorem sum_count_firstOcc (ws : List Word) : ((firstOcc ws).map (fun w => ws.count w)).sum = ws.length := by
  induction ws using List.reverseRecOn with
  | nil => simp [firstOcc]
  | append_singleton ws w ih =>
    rw [firstOcc_concat]
    by_cases hw : w ∈ ws
    · simp only [hw, if_true]
      have hm : w ∈ firstOcc ws := by simpa using hw
      obtain ⟨s, t, hst⟩ := List.append_of_mem hm
      have hnd := nodup_firstOcc ws
      rw [hst] at hnd ih ⊢
      have hs : w ∉ s := by
        intro h; exact (List.nodup_append.1 hnd).2.2 w h w (by simp) rfl
      have ht : w ∉ t := by
        have := (List.nodup_append.1 hnd).2.1
        exact (List.nodup_cons.1 this).1
      have e1 : s.map (fun x => (ws ++ [w]).count x) = s.map (fun x => ws.count x) := by
        apply List.map_congr_left; intro x hx
        have : x ≠ w := by rintro rfl; exact hs hx
        simp [List.count_append, this.symm]
      have e2 : t.map (fun x => (ws ++ [w]).count x) = t.map (fun x => ws.count x) := by
        apply List.map_congr_left; intro x hx
        have : x ≠ w := by rintro rfl; exact ht hx
        simp [List.count_append, this.symm]
      have e3 : (ws ++ [w]).count w = ws.count w + 1 := by simp [List.count_append]
      simp only [List.map_append, List.map_cons, e1, e2, e3, List.sum_append, List.sum_cons,
        List.length_append, List.length_singleton] at ih ⊢
      omega
    · simp only [hw, if_false, List.map_append, List.sum_append, List.length_append]
      have e1 : (firstOcc ws).map (fun x => (ws ++ [w]).count x) = (firstOcc ws).map (fun x => ws.count x) := by
        apply List.map_congr_left; intro x hx
        have : x ≠ w := by rintro rfl; exact hw (by simpa using hx)
        simp [List.count_append, this.symm]
      rw [e1, ih]
      simp [List.count_append, List.count_eq_zero.2 hw]

end Dictionary
end Wego
