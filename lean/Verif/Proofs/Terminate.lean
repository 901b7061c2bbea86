import Verif.Proofs.Prog
import Mathlib.Order.WellFounded

/-! # Every schedule of training goroutines ends -/

namespace Wego
open Prog
variable {F : Type}

/-- a goroutine's next states -/
inductive Prog.Sub {F α : Type} : Prog F α → Prog F α → Prop
  | load (l : Loc) (k : F → Prog F α) (v : F) : Sub (k v) (.load l k)
  | store (l : Loc) (v : F) (k : Prog F α) : Sub k (.store l v k)
  | getNext (k : UInt64 → Prog F α) (v : UInt64) : Sub (k v) (.getNext k)
  | setNext (v : UInt64) (k : Prog F α) : Sub k (.setNext v k)
  | rand (k : F → Prog F α) (v : F) : Sub (k v) (.rand k)
  | path (id : Nat) (k : List Nat → Prog F α) (p : List Nat) : Sub (k p) (.path id k)

theorem Prog.acc_sub {α : Type} (x : Prog F α) : Acc Prog.Sub x := by
  induction x with
  | ret a => exact ⟨_, fun y h => by cases h⟩
  | panic p => exact ⟨_, fun y h => by cases h⟩
  | load l k ih => exact ⟨_, fun y h => by cases h; exact ih _⟩
  | store l v k ih => exact ⟨_, fun y h => by cases h; exact ih⟩
  | getNext k ih => exact ⟨_, fun y h => by cases h; exact ih _⟩
  | setNext v k ih => exact ⟨_, fun y h => by cases h; exact ih⟩
  | rand k ih => exact ⟨_, fun y h => by cases h; exact ih _⟩
  | path id k ih => exact ⟨_, fun y h => by cases h; exact ih _⟩

/-- one goroutine of the pool moves -/
inductive PoolSub : List (Prog F Unit) → List (Prog F Unit) → Prop
  | mk (l r : List (Prog F Unit)) (x y : Prog F Unit) (h : Prog.Sub y x) : PoolSub (l ++ y :: r) (l ++ x :: r)

theorem acc_pool (ts : List (Prog F Unit)) : Acc PoolSub ts := by
  induction ts with
  | nil => exact ⟨_, fun y h => by
      generalize e : ([] : List (Prog F Unit)) = z at h
      cases h; simp at e⟩
  | cons t ts ih =>
    have ht := t.acc_sub
    induction ht generalizing ts with
    | intro t _ iht =>
      induction ih with
      | intro ts hts ihts =>
        refine ⟨_, fun y h => ?_⟩
        generalize e : t :: ts = z at h
        cases h with
        | mk l r x y h =>
          cases l with
          | nil =>
            simp only [List.nil_append, List.cons.injEq] at e
            obtain ⟨rfl, rfl⟩ := e
            exact iht y h _ ⟨_, hts⟩
          | cons a l =>
            simp only [List.cons_append, List.cons.injEq] at e
            obtain ⟨rfl, rfl⟩ := e
            exact ihts _ (PoolSub.mk l r x y h)

theorem Sys.step_pool {env : MemEnv F} {s t : Sys F} (h : Sys.Step env s t) : PoolSub t.threads s.threads := by
  cases h with
  | load m l r x k v h => exact .mk l r _ _ (.load x k v)
  | store m l r x v k => exact .mk l r _ _ (.store x v k)
  | getNext m l r k v h => exact .mk l r _ _ (.getNext k v)
  | setNext m l r v k => exact .mk l r _ _ (.setNext v k)
  | rand m l r k v h => exact .mk l r _ _ (.rand k v)
  | path m l r id k p h => exact .mk l r _ _ (.path id k p)

/-- there is no infinite schedule -/
theorem Sys.no_infinite {env : MemEnv F} (f : Nat → Sys F) : ¬ ∀ n, Sys.Step env (f n) (f (n + 1)) := by
  intro h
  have key : ∀ ts : List (Prog F Unit), ∀ n, (f n).threads = ts → False := by
    intro ts
    induction acc_pool ts with
    | intro ts _ ih =>
      rintro n rfl
      exact ih _ (Sys.step_pool (h n)) (n + 1) rfl
  exact key _ 0 rfl

/-- every load has a possible result -/
structure MemEnv.Total (env : MemEnv F) : Prop where
  cell : ∀ m l, ∃ v, env.cell m l v
  next : ∀ m, ∃ v, env.next m v
  rand : ∃ v, env.rand v
  path : ∀ id, ∃ p, env.path id p

/-- a system that cannot move has finished or panicked -/
theorem Sys.progress {env : MemEnv F} (he : env.Total) (s : Sys F) (h : ∀ t, ¬ Sys.Step env s t) : s.Done ∨ s.Crashed := by
  by_cases hc : s.Crashed
  · exact Or.inr hc
  · left
    intro t ht
    obtain ⟨l, r, e⟩ := List.append_of_mem ht
    obtain ⟨m, ts⟩ := s
    simp only at e
    subst e
    cases t with
    | ret a => rfl
    | panic p => exact absurd ⟨p, ht⟩ hc
    | load x k => obtain ⟨v, hv⟩ := he.cell m x; exact absurd (.load m l r x k v hv) (h _)
    | store x v k => exact absurd (.store m l r x v k) (h _)
    | getNext k => obtain ⟨v, hv⟩ := he.next m; exact absurd (.getNext m l r k v hv) (h _)
    | setNext v k => exact absurd (.setNext m l r v k) (h _)
    | rand k => obtain ⟨v, hv⟩ := he.rand; exact absurd (.rand m l r k v hv) (h _)
    | path id k => obtain ⟨v, hv⟩ := he.path id; exact absurd (.path m l r id k v hv) (h _)

end Wego
