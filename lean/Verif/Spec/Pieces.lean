import Mathlib.Data.List.Basic

/-! # How a training sequence is cut into the documents of the workers -/

namespace Wego.Spec

/-- `docs` is `seq` cut into consecutive pieces: in memory into one piece per goroutine, of sizes that differ by at most one; file-backed into batches of `batch`
elements and a shorter last one. -/
def Pieces {α : Type} (inMemory : Bool) (goroutines batch : Int) (seq : List α) (docs : List (List α)) : Prop :=
  docs.flatten = seq ∧
  (inMemory = true → (docs.length : Int) = goroutines ∧ ∀ d ∈ docs, d.length = seq.length / docs.length ∨ d.length = seq.length / docs.length + 1) ∧
  (inMemory = false → ∃ full last, docs = full ++ [last] ∧ (∀ d ∈ full, (d.length : Int) = batch) ∧ (last.length : Int) < batch)

/-- one goroutine, in memory: one piece -/
theorem Pieces.one {α : Type} {batch : Int} {seq : List α} {docs : List (List α)} (h : Pieces true 1 batch seq docs) : docs = [seq] := by
  obtain ⟨h1, h2, _⟩ := h
  obtain ⟨h2, _⟩ := h2 rfl
  obtain ⟨d, rfl⟩ := List.length_eq_one_iff.1 (by omega : docs.length = 1)
  simpa using h1

/-- a batch that is not filled: one piece -/
theorem Pieces.batch {α : Type} {g batch : Int} {seq : List α} {docs : List (List α)} (h : Pieces false g batch seq docs) (hb : (seq.length : Int) < batch) : docs = [seq] := by
  obtain ⟨h1, _, h3⟩ := h
  obtain ⟨full, last, rfl, h4, h5⟩ := h3 rfl
  cases full with
  | nil => simpa using h1
  | cons a l =>
    have ha := h4 a (by simp)
    have := congrArg List.length h1
    simp only [List.cons_append, List.flatten_cons, List.length_append] at this
    omega

/-- batches of one element, or more goroutines than elements: no piece has two elements -/
theorem Pieces.small {α : Type} {im : Bool} {g batch : Int} {seq : List α} {docs : List (List α)} (h : Pieces im g batch seq docs)
    (hs : if im then (seq.length : Int) < g else batch = 1) : ∀ d ∈ docs, d.length ≤ 1 := by
  obtain ⟨h1, h2, h3⟩ := h
  cases im with
  | true =>
    obtain ⟨h4, h5⟩ := h2 rfl
    intro d hd
    have : seq.length / docs.length = 0 := Nat.div_eq_of_lt (by simp only [if_true] at hs; omega)
    rcases h5 d hd with h | h <;> omega
  | false =>
    obtain ⟨full, last, rfl, h4, h5⟩ := h3 rfl
    simp only [Bool.false_eq_true, if_false] at hs
    intro d hd
    rcases List.mem_append.1 hd with h | h
    · have := h4 d h; omega
    · rw [List.mem_singleton.1 h]; omega

example : Pieces true 2 7 [1, 2, 3, 4, 5] [[1, 2], [3, 4, 5]] := by refine ⟨rfl, fun _ => ⟨rfl, by decide⟩, by simp⟩
example : Pieces false 2 2 [1, 2, 3, 4, 5] [[1, 2], [3, 4], [5]] := ⟨rfl, by simp, fun _ => ⟨[[1, 2], [3, 4]], [5], rfl, by decide, by decide⟩⟩

end Wego.Spec
