import Verif.Spec.Words
import Mathlib.Data.List.Basic

namespace Wego.Spec
variable {α : Type} [DecidableEq α]

@[simp] theorem mem_firstOcc (l : List α) (a : α) : a ∈ firstOcc l ↔ a ∈ l := by
  induction l with
  | nil => simp [firstOcc]
  | cons b l ih =>
    simp only [firstOcc, List.mem_cons, List.mem_filter, ih]
    by_cases h : a = b <;> simp [h]

theorem nodup_firstOcc (l : List α) : (firstOcc l).Nodup := by
  induction l with
  | nil => simp [firstOcc]
  | cons b l ih =>
    simp only [firstOcc, List.nodup_cons]
    exact ⟨by simp, ih.filter _⟩

theorem firstOcc_of_nodup {l : List α} (h : l.Nodup) : firstOcc l = l := by
  induction l with
  | nil => rfl
  | cons a l ih =>
    rw [List.nodup_cons] at h
    rw [firstOcc, ih h.2, List.filter_eq_self.2]
    intro b hb
    simp only [ne_eq, decide_eq_true_eq]
    rintro rfl; exact h.1 hb

theorem firstOcc_append (l₁ l₂ : List α) :
    firstOcc (l₁ ++ l₂) = firstOcc l₁ ++ (firstOcc l₂).filter (fun b => b ∉ l₁) := by
  induction l₁ with
  | nil => simp [firstOcc]
  | cons a l ih =>
    simp only [List.cons_append, firstOcc, ih, List.filter_append, List.filter_filter, List.cons_append]
    congr 2
    apply List.filter_congr
    intro x _
    simp [not_or]

theorem firstOcc_concat (l : List α) (a : α) :
    firstOcc (l ++ [a]) = if a ∈ l then firstOcc l else firstOcc l ++ [a] := by
  rw [firstOcc_append]
  by_cases h : a ∈ l <;> simp [firstOcc, h]

theorem length_firstOcc (l : List α) : (firstOcc l).length = l.dedup.length := by
  apply List.Perm.length_eq
  rw [List.perm_ext_iff_of_nodup (nodup_firstOcc l) (List.nodup_dedup l)]
  intro a; simp

theorem exists_first_split (l : List α) (a : α) (h : a ∈ l) : ∃ s t, l = s ++ a :: t ∧ a ∉ s := by
  induction l with
  | nil => simp at h
  | cons b l ih =>
    by_cases hb : a = b
    · exact ⟨[], l, by simp [hb], by simp⟩
    · have h' : a ∈ l := by simpa [hb] using h
      obtain ⟨s, t, rfl, hs⟩ := ih h'
      exact ⟨b :: s, t, by simp, by simp [hb, hs]⟩

/-- position of the first occurrence among the distinct words -/
theorem idxOf_firstOcc [BEq α] [LawfulBEq α] (l : List α) (a : α) (h : a ∈ l) :
    (firstOcc l).idxOf a = distinctBefore l a := by
  obtain ⟨s, t, rfl, hs⟩ := exists_first_split l a h
  have h1 : distinctBefore (s ++ a :: t) a = s.dedup.length := by
    unfold distinctBefore
    rw [List.takeWhile_append_of_pos]
    · simp
    · intro x hx
      simp only [decide_eq_true_eq]
      rintro rfl; exact hs hx
  rw [h1, firstOcc_append, List.idxOf_append_of_notMem (by simpa using hs), ← length_firstOcc]
  simp [firstOcc, hs]

end Wego.Spec
