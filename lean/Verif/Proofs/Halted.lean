import Verif.Proofs.Pipeline
import Verif.Proofs.PoolSeq

/-! # Goroutines that do nothing, or panic at once -/

namespace Wego
variable {F : Type}

/-- the goroutine makes no load or store: it has returned or panicked -/
def Prog.Halted (x : Prog F Unit) : Prop := x = .ret () ∨ ∃ p, x = .panic p

theorem Sys.halted_step {env : MemEnv F} {s t : Sys F} (h : ∀ x ∈ s.threads, x.Halted) : ¬ Sys.Step env s t := by
  intro hs
  cases hs with
  | load m l r x k v h' => rcases h (.load x k) (by simp) with e | ⟨p, e⟩ <;> cases e
  | store m l r x v k => rcases h (.store x v k) (by simp) with e | ⟨p, e⟩ <;> cases e
  | getNext m l r k v h' => rcases h (.getNext k) (by simp) with e | ⟨p, e⟩ <;> cases e
  | setNext m l r v k => rcases h (.setNext v k) (by simp) with e | ⟨p, e⟩ <;> cases e
  | rand m l r k v h' => rcases h (.rand k) (by simp) with e | ⟨p, e⟩ <;> cases e
  | path m l r id k p h' => rcases h (.path id k) (by simp) with e | ⟨p, e⟩ <;> cases e

/-- The memory does not change, and a panicked worker stays. -/
theorem Pool.halted_reach {env : MemEnv F} {g : Nat} {s t : Pool F} (h : ∀ x ∈ s.obs ++ s.wait ++ s.run, x.Halted) (hr : Pool.Reach env g s t) :
    t.mem = s.mem ∧ t.obs = s.obs ∧ (∀ x ∈ t.obs ++ t.wait ++ t.run, x ∈ s.obs ++ s.wait ++ s.run) ∧
      ∀ p, Prog.panic p ∈ s.wait ++ s.run → Prog.panic p ∈ t.wait ++ t.run := by
  induction hr with
  | refl => exact ⟨rfl, rfl, fun _ h => h, fun _ h => h⟩
  | step a b _ hs ih =>
    obtain ⟨h1, h0, h2, h3⟩ := ih
    cases hs with
    | acquire m obs l r run x hx =>
      refine ⟨h1, h0, fun y hy => h2 y ?_, fun p hp => ?_⟩
      · simp only [List.mem_append, List.mem_cons] at hy ⊢; tauto
      · have := h3 p hp
        simp only [List.mem_append, List.mem_cons] at this ⊢; tauto
    | work m m' obs wait run run' hx =>
      exact absurd hx (Sys.halted_step (fun x hx => h x (h2 x (by
        have hx : x ∈ run := hx
        simp [hx]))))
    | observe m m' obs obs' wait run hx =>
      exact absurd hx (Sys.halted_step (fun x hx => h x (h2 x (by
        have hx : x ∈ obs := hx
        simp [hx]))))
    | release m obs wait l r =>
      refine ⟨h1, h0, fun y hy => h2 y ?_, fun p hp => ?_⟩
      · simp only [List.mem_append, List.mem_cons] at hy ⊢; tauto
      · have := h3 p hp
        simp only [List.mem_append, List.mem_cons, reduceCtorEq, false_or] at this ⊢; exact this

/-- workers that return at once: they can all be started and finished -/
theorem Pool.idle_reach {env : MemEnv F} {g : Nat} (hg : 1 ≤ g) (m : Mem F) (obs ws : List (Prog F Unit)) (h : ∀ x ∈ ws, x = .ret ()) :
    Pool.Reach env g ⟨m, obs, ws, []⟩ ⟨m, obs, [], []⟩ := by
  induction ws with
  | nil => exact .refl
  | cons x ws ih =>
    obtain rfl := h x (by simp)
    exact Pool.Reach.trans (.one (.acquire m obs [] ws [] _ (by simp; omega)))
      (Pool.Reach.trans (.one (.release m obs ws [] [])) (ih (fun x hx => h x (by simp [hx]))))

/-- iterations in which nobody does anything leave the memory as it was -/
theorem Pool.idle_iters {env : MemEnv F} {g : Nat} (hg : 1 ≤ g) (m m' : Mem F) (obs : List (Prog F Unit)) (rounds : List (Prog F Unit × List (Prog F Unit)))
    (ho : ∀ x ∈ obs, x = .ret ()) (hr : ∀ q ∈ rounds, q.1 = .ret () ∧ ∀ x ∈ q.2, x = .ret ()) : Pool.Iters env g m obs rounds m' ↔ m' = m := by
  induction rounds generalizing m obs with
  | nil =>
    constructor
    · intro h; cases h; rfl
    · rintro rfl; exact .nil _ _
  | cons q rest ih =>
    obtain ⟨ob, ws⟩ := q
    obtain ⟨hob, hws⟩ := hr (ob, ws) (by simp)
    dsimp only at hob hws
    subst hob
    have hh : ∀ x ∈ (Prog.ret () :: obs) ++ ws ++ [], Prog.Halted (F := F) x := by
      intro x hx
      simp only [List.mem_append, List.mem_cons, List.not_mem_nil, or_false] at hx
      rcases hx with (rfl | hx) | hx
      · exact .inl rfl
      · exact .inl (ho x hx)
      · exact .inl (hws x hx)
    constructor
    · intro h
      cases h with
      | cons _ m1 _ _ obs1 _ _ _ h1 h2 =>
        obtain ⟨e1, e2, _⟩ := Pool.halted_reach (s := ⟨m, .ret () :: obs, ws, []⟩) hh h1
        dsimp only at e1 e2
        subst e1 e2
        exact (ih _ _ (by
          intro x hx
          rcases List.mem_cons.1 hx with rfl | hx
          · rfl
          · exact ho x hx) (fun q hq => hr q (by simp [hq]))).1 h2
    · rintro rfl
      refine .cons _ _ _ _ _ _ _ _ (Pool.idle_reach hg _ _ _ hws) ((ih _ _ ?_ (fun q hq => hr q (by simp [hq]))).2 rfl)
      intro x hx
      rcases List.mem_cons.1 hx with rfl | hx
      · rfl
      · exact ho x hx

/-- nobody panics in them -/
theorem Pool.idle_no_panic {env : MemEnv F} {g : Nat} {x : Panic} (m : Mem F) (rounds : List (Prog F Unit × List (Prog F Unit)))
    (hr : ∀ q ∈ rounds, q.1 = .ret () ∧ ∀ x ∈ q.2, x = .ret ()) : ¬ Pool.ItersPanic env g x m [] rounds :=
  Pool.no_panic (W := fun _ => True) (by simp) (fun q hq => ⟨by rw [(hr q hq).1]; trivial, fun t ht => by rw [(hr q hq).2 t ht]; trivial⟩)

/-- If in the first iteration every worker returns or panics at once and one of them panics, the iterations do not end, and there is a panic. -/
theorem Pool.dead_iters {env : MemEnv F} {g : Nat} (hg : 1 ≤ g) {x : Panic} (m : Mem F) (ob : Prog F Unit) (ws : List (Prog F Unit))
    (rest : List (Prog F Unit × List (Prog F Unit))) (hob : ob = .ret ()) (hws : ∀ t ∈ ws, t = .ret () ∨ t = .panic x) (hx : .panic x ∈ ws) :
    (∀ m', ¬ Pool.Iters env g m [] ((ob, ws) :: rest) m') ∧ ∀ y, Pool.ItersPanic env g y m [] ((ob, ws) :: rest) ↔ y = x := by
  subst hob
  have hh : ∀ t ∈ [Prog.ret ()] ++ ws ++ [], Prog.Halted (F := F) t := by
    intro t ht
    simp only [List.mem_append, List.mem_cons, List.not_mem_nil, or_false] at ht
    rcases ht with rfl | ht
    · exact .inl rfl
    · rcases hws t ht with e | e
      · exact .inl e
      · exact .inr ⟨_, e⟩
  have hstuck : ∀ m' obs', ¬ Pool.Reach env g ⟨m, [.ret ()], ws, []⟩ ⟨m', obs', [], []⟩ := by
    intro m' obs' h
    have := (Pool.halted_reach (s := ⟨m, [.ret ()], ws, []⟩) hh h).2.2.2 x (by simpa using hx)
    simp at this
  constructor
  · intro m' h
    cases h with
    | cons _ m1 _ _ obs1 _ _ _ h1 h2 => exact hstuck _ _ h1
  · intro y
    constructor
    · intro h
      cases h with
      | here _ _ _ _ _ s h1 hs =>
        have := (Pool.halted_reach (s := ⟨m, [.ret ()], ws, []⟩) hh h1).2.2.1 (.panic y) (by
          unfold Pool.Panicked at hs
          simp only [List.mem_append] at hs ⊢
          tauto)
        simp only [List.append_nil, List.mem_append, List.mem_singleton, reduceCtorEq, false_or] at this
        rcases hws _ this with e | e
        · cases e
        · cases e; rfl
      | later _ m1 _ obs1 _ _ _ h1 h2 => exact absurd h1 (hstuck _ _)
    · rintro rfl
      obtain ⟨l, r, rfl⟩ := List.append_of_mem hx
      refine .here _ _ _ _ _ ⟨m, [.ret ()], l ++ r, [.panic y]⟩ (.one (.acquire m _ l r [] _ (by simp; omega))) ?_
      unfold Pool.Panicked
      simp

end Wego
