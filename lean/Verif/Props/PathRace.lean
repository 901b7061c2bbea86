import Verif.Model.PathRace
import Mathlib.Data.List.Basic

/-! # C22: concurrent `GetPath` -/

namespace Wego.Props
open Wego

/-- **C22 is false.** For every node below a root and every requested depth, two concurrent first calls
have a schedule in which one of them returns the empty path. -/
theorem C22_false_empty_path (up : List Nat) (depth : Nat) :
    ∃ sched, (pathRun up (pathStart none [depth, depth]) sched).callers[1]? = some (.done [], depth) :=
  ⟨[0, 0, 1, 1], by simp [pathRun, pathStart, pathStep, pathStep1]⟩

/-- **C22 is false, permanently.** There is a schedule of two callers after which the cache of the word
holds every node of the path twice, so that every later call returns a wrong path. -/
theorem C22_false_corrupted_cache :
    ∃ sched, let s := pathRun [0, 2] (pathStart none [40, 40]) sched
      s.callers.all (fun c => c.1 matches .done _) = true ∧ s.cache = some [0, 0, 2, 2] ∧
      ∀ depth, (pathRun [0, 2] { s with callers := [(.test, depth)] } [0, 0]).callers[0]? =
        some (.done ([0, 0, 2, 2].take depth), depth) :=
  ⟨[0,1, 0,1, 0,0, 1,1, 0,0, 1,1, 0,1, 0,1, 0,1], by decide +kernel, by decide +kernel, by
    intro depth
    have : pathRun [0, 2] (pathStart none [40, 40]) [0,1, 0,1, 0,0, 1,1, 0,0, 1,1, 0,1, 0,1, 0,1] =
      { cache := some [0,0,2,2], callers := [(.done [0,0,2,2], 40), (.done [0,0,2,2], 40)] } := by decide +kernel
    rw [this]
    simp [pathRun, pathStep, pathStep1]⟩

/-- **C22, the part that holds.** Once the word's cache holds its path (one call has returned before the
others start), every caller, under every schedule and for every number of callers and depths, returns
the right prefix, and the cache stays right. -/
theorem C22_warm_cache_partial (up path : List Nat) (depths : List Nat) (sched : List Nat) :
    let s := pathRun up (pathStart (some path) depths) sched
    s.cache = some path ∧ s.callers.length = depths.length ∧
    ∀ (t : Nat) (r : List Nat) (depth : Nat), s.callers[t]? = some (.done r, depth) → depths[t]? = some depth ∧ r = path.take depth := by
  suffices H : ∀ (s : PathState),
      (s.cache = some path ∧ s.callers.length = depths.length ∧
        ∀ (t : Nat) (pc : PathPc) (depth : Nat), s.callers[t]? = some (pc, depth) → depths[t]? = some depth ∧
          (pc = .test ∨ pc = .ret ∨ pc = .done (path.take depth))) →
      ((pathRun up s sched).cache = some path ∧ (pathRun up s sched).callers.length = depths.length ∧
        ∀ (t : Nat) (pc : PathPc) (depth : Nat), (pathRun up s sched).callers[t]? = some (pc, depth) → depths[t]? = some depth ∧
          (pc = .test ∨ pc = .ret ∨ pc = .done (path.take depth))) by
    obtain ⟨h1, h2, h3⟩ := H (pathStart (some path) depths) (by
      refine ⟨rfl, by simp [pathStart], ?_⟩
      intro t pc depth h
      simp only [pathStart, List.getElem?_map, Option.map_eq_some_iff, Prod.mk.injEq] at h
      obtain ⟨a, ha, rfl, rfl⟩ := h
      exact ⟨ha, Or.inl rfl⟩)
    refine ⟨h1, h2, ?_⟩
    intro t r depth h
    obtain ⟨h4, h5⟩ := h3 t _ depth h
    refine ⟨h4, ?_⟩
    rcases h5 with h5 | h5 | h5 <;> simp at h5
    exact h5
  induction sched with
  | nil => intro s h; exact h
  | cons t sched ih =>
    intro s ⟨h1, h2, h3⟩
    simp only [pathRun, List.foldl_cons]
    apply ih
    unfold pathStep
    cases hc : s.callers[t]? with
    | none => exact ⟨h1, h2, h3⟩
    | some x =>
      obtain ⟨pc, depth⟩ := x
      obtain ⟨h4, h5⟩ := h3 t pc depth hc
      have hpc : (pathStep1 up s.cache depth pc).1 = some path ∧
          ((pathStep1 up s.cache depth pc).2 = .test ∨ (pathStep1 up s.cache depth pc).2 = .ret ∨
            (pathStep1 up s.cache depth pc).2 = .done (path.take depth)) := by
        rcases h5 with rfl | rfl | rfl <;> simp [pathStep1, h1]
      refine ⟨hpc.1, by simp [h2], ?_⟩
      intro t' pc' depth' h
      simp only [List.getElem?_set] at h
      split at h
      · next e =>
        subst e
        split at h
        · simp only [Option.some.injEq, Prod.mk.injEq] at h
          obtain ⟨rfl, rfl⟩ := h
          exact ⟨h4, hpc.2⟩
        · simp at h
      · exact h3 t' pc' depth' h

/-- `C22_warm_cache_partial`: three callers on a word with the path `[4, 3, 1]`, interleaved. -/
example : (pathRun [1, 3, 4] (pathStart (some [4, 3, 1]) [40, 2, 0]) [0, 1, 2, 1, 0, 2]).callers.map Prod.fst =
    [.done [4, 3, 1], .done [4, 3], .done []] := by decide

/-- A single caller (no concurrency) fills the cache with the reversed chain and returns its prefix. -/
theorem C22_alone_partial (up : List Nat) (depth : Nat) :
    ∃ n, pathRun up (pathStart none [depth]) (List.replicate n 0) =
      { cache := some up.reverse, callers := [(.done (up.reverse.take depth), depth)] } := by
  have load : ∀ (k j : Nat), j + k = up.length →
      ∃ n, pathRun up { cache := some (up.take j), callers := [(.load j, depth)] } (List.replicate n 0) =
        { cache := some up, callers := [(.load up.length, depth)] } := by
    intro k
    induction k with
    | zero => intro j hj; exact ⟨0, by simp [pathRun, show j = up.length by omega]⟩
    | succ k ih =>
      intro j hj
      obtain ⟨n, hn⟩ := ih (j + 1) (by omega)
      refine ⟨n + 2, ?_⟩
      rw [← hn, show n + 2 = (n + 1) + 1 from rfl, List.replicate_succ, List.replicate_succ]
      have hlt : j < up.length := by omega
      have hg : up[j]? = some up[j] := List.getElem?_eq_getElem hlt
      have ht : up.take (j + 1) = up.take j ++ [up[j]] := by rw [List.take_add_one, hg]; rfl
      rw [ht]
      simp only [pathRun, List.foldl_cons, pathStep, pathStep1, List.getElem?_cons_zero, hg,
        List.set_cons_zero, Option.getD_some, List.getD_eq_getElem?_getD]
  obtain ⟨n, hn⟩ := load up.length 0 (by omega)
  refine ⟨2 + n + 3, ?_⟩
  rw [List.replicate_add, List.replicate_add]
  unfold pathRun at hn ⊢
  rw [List.foldl_append, List.foldl_append]
  have h2 : (List.replicate 2 0).foldl (pathStep up) (pathStart none [depth]) =
      { cache := some (up.take 0), callers := [(.load 0, depth)] } := by
    simp [List.replicate, pathStart, pathStep, pathStep1]
  rw [h2, hn]
  simp [List.replicate, pathStep, pathStep1]

/-- `C22_alone_partial`: a chain of three nodes. -/
example := C22_alone_partial [1, 3, 4] 2

end Wego.Props
