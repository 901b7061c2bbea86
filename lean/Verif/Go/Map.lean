/-!
# Go maps

A Go `map[K]V` is modelled as an association list with at most one entry per key
(`GoMap.set` keeps this, see `GoMap.WF`).  Iteration order of `range` is unspecified in Go:
functions that range over a map take the enumeration as an argument and theorems quantify over
every permutation of the entries.
-/

namespace Wego

abbrev GoMap (K V : Type) := List (K × V)

namespace GoMap
variable {K V : Type} [DecidableEq K]

/-- `make(map[K]V)` -/
def empty : GoMap K V := []

/-- `v, ok := m[k]` -/
def get? (m : GoMap K V) (k : K) : Option V :=
  match m with
  | [] => none
  | (k', v) :: m => if k' = k then some v else get? m k

/-- `m[k] = v` -/
def set (m : GoMap K V) (k : K) (v : V) : GoMap K V :=
  match m with
  | [] => [(k, v)]
  | (k', v') :: m => if k' = k then (k', v) :: m else (k', v') :: set m k v

/-- at most one entry per key -/
def WF (m : GoMap K V) : Prop := (m.map Prod.fst).Nodup

@[simp] theorem get?_empty (k : K) : get? (empty : GoMap K V) k = none := rfl
@[simp] theorem get?_nil (k : K) : get? ([] : GoMap K V) k = none := rfl

theorem get?_set (m : GoMap K V) (k k' : K) (v : V) :
    get? (set m k v) k' = if k = k' then some v else get? m k' := by
  induction m with
  | nil => simp [set, get?]
  | cons p m ih =>
    obtain ⟨a, b⟩ := p
    simp only [set]
    split
    · next h => subst h; by_cases h2 : a = k' <;> simp [get?, h2]
    · next h =>
      simp only [get?]
      rw [ih]
      by_cases h2 : a = k'
      · subst h2; simp [Ne.symm h]
      · simp [h2]

@[simp] theorem get?_set_self (m : GoMap K V) (k : K) (v : V) : get? (set m k v) k = some v := by
  simp [get?_set]

omit [DecidableEq K] in
theorem wf_empty : WF (empty : GoMap K V) := by simp [WF, empty]

theorem mem_keys_set (m : GoMap K V) (k k' : K) (v : V) :
    k' ∈ (set m k v).map Prod.fst ↔ k' = k ∨ k' ∈ m.map Prod.fst := by
  induction m with
  | nil => simp [set]
  | cons p m ih =>
    obtain ⟨a, b⟩ := p
    simp only [set]
    split
    · next h => subst h; simp
    · next h =>
      simp only [List.map_cons, List.mem_cons, ih]
      constructor
      · rintro (h | h | h) <;> simp [h]
      · rintro (h | h | h) <;> simp [h]

theorem wf_set (m : GoMap K V) (k : K) (v : V) (h : WF m) : WF (set m k v) := by
  induction m with
  | nil => simp [set, WF]
  | cons p m ih =>
    obtain ⟨a, b⟩ := p
    simp only [WF, List.map_cons, List.nodup_cons] at h
    simp only [set]
    split
    · next h2 => simpa [WF] using h
    · next h2 =>
      simp only [WF, List.map_cons, List.nodup_cons]
      refine ⟨?_, ih h.2⟩
      rw [mem_keys_set]
      rintro (h3 | h3)
      · exact h2 h3
      · exact h.1 h3

theorem get?_eq_some_of_mem (m : GoMap K V) (h : WF m) {k : K} {v : V} (hm : (k, v) ∈ m) :
    get? m k = some v := by
  induction m with
  | nil => simp at hm
  | cons p m ih =>
    obtain ⟨a, b⟩ := p
    simp only [WF, List.map_cons, List.nodup_cons] at h
    simp only [List.mem_cons, Prod.mk.injEq] at hm
    simp only [get?]
    rcases hm with ⟨rfl, rfl⟩ | hm
    · simp
    · have : a ≠ k := by
        rintro rfl
        exact h.1 (List.mem_map.2 ⟨_, hm, rfl⟩)
      simp [this, ih h.2 hm]

theorem mem_of_get?_eq_some (m : GoMap K V) {k : K} {v : V} (hm : get? m k = some v) :
    (k, v) ∈ m := by
  induction m with
  | nil => simp at hm
  | cons p m ih =>
    obtain ⟨a, b⟩ := p
    simp only [get?] at hm
    split at hm
    · next h => simp at hm; subst h; subst hm; simp
    · simp [ih hm]

theorem mem_iff_get? (m : GoMap K V) (h : WF m) (k : K) (v : V) :
    (k, v) ∈ m ↔ get? m k = some v :=
  ⟨get?_eq_some_of_mem m h, mem_of_get?_eq_some m⟩

theorem get?_eq_none_iff (m : GoMap K V) (k : K) : get? m k = none ↔ k ∉ m.map Prod.fst := by
  induction m with
  | nil => simp
  | cons p m ih =>
    obtain ⟨a, b⟩ := p
    simp only [get?]
    by_cases h : a = k
    · simp [h]
    · simp [h, Ne.symm h, ih]

end GoMap
end Wego
