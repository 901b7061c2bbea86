import Verif.Model.TrainProg

/-! # Reasoning about goroutine programs

`Ok env W np Q x`: whatever the loads of `x` return (as far as `env` allows), `x` stores only to locations in `W`, panics only with
panics `p` that `np p` allows, and returns only results satisfying `Q`. -/

namespace Wego
open Prog
variable {F α β σ : Type}

/-- see above -/
def Prog.Ok (env : MemEnv F) (W : Loc → Prop) (np : Panic → Prop) (Q : α → Prop) : Prog F α → Prop
  | .ret a => Q a
  | .panic p => np p
  | .load l k => ∀ m v, env.cell m l v → (k v).Ok env W np Q
  | .store l _ k => W l ∧ k.Ok env W np Q
  | .getNext k => ∀ m v, env.next m v → (k v).Ok env W np Q
  | .setNext _ k => k.Ok env W np Q
  | .rand k => ∀ v, env.rand v → (k v).Ok env W np Q
  | .path id k => ∀ p, env.path id p → (k p).Ok env W np Q

namespace Prog
variable {env : MemEnv F} {W : Loc → Prop} {np : Panic → Prop}

theorem bind_eq (x : Prog F α) (f : α → Prog F β) : (x >>= f) = x.bind f := rfl

theorem Ok.bind {Q : α → Prop} {R : β → Prop} {x : Prog F α} {f : α → Prog F β} (hx : x.Ok env W np Q)
    (hf : ∀ a, Q a → (f a).Ok env W np R) : (x >>= f).Ok env W np R := by
  rw [bind_eq]
  induction x with
  | ret a => exact hf a hx
  | panic p => exact hx
  | load l k ih => exact fun m v h => ih v (hx m v h)
  | store l v k ih => exact ⟨hx.1, ih hx.2⟩
  | getNext k ih => exact fun m v h => ih v (hx m v h)
  | setNext v k ih => exact ih hx
  | rand k ih => exact fun v h => ih v (hx v h)
  | path id k ih => exact fun v h => ih v (hx v h)

theorem Ok.mono {Q R : α → Prop} {W' : Loc → Prop} {x : Prog F α} (hx : x.Ok env W np Q) (hW : ∀ l, W l → W' l) (hQ : ∀ a, Q a → R a) :
    x.Ok env W' np R := by
  induction x with
  | ret a => exact hQ a hx
  | panic p => exact hx
  | load l k ih => exact fun m v h => ih v (hx m v h)
  | store l v k ih => exact ⟨hW l hx.1, ih hx.2⟩
  | getNext k ih => exact fun m v h => ih v (hx m v h)
  | setNext v k ih => exact ih hx
  | rand k ih => exact fun v h => ih v (hx v h)
  | path id k ih => exact fun v h => ih v (hx v h)

theorem Ok.ret {Q : α → Prop} {a : α} (h : Q a) : (Prog.ret a : Prog F α).Ok env W np Q := h

theorem Ok.ofRes {Q : α → Prop} {x : Res α} (h : (∃ a, x = .ok a ∧ Q a) ∨ ((∀ p, np p) ∧ ∀ a, x = .ok a → Q a) ∨
    ((∀ p, x = .panic p → np p) ∧ (∀ e, x ≠ .err e) ∧ ∀ a, x = .ok a → Q a)) :
    (ofRes x : Prog F α).Ok env W np Q := by
  rcases h with ⟨a, rfl, h⟩ | ⟨h, h'⟩ | ⟨h, h1, h'⟩
  · exact h
  · cases x with
    | ok a => exact h' a rfl
    | err e => exact h _
    | panic p => exact h _
  · cases x with
    | ok a => exact h' a rfl
    | err e => exact absurd rfl (h1 e)
    | panic p => exact h p rfl

theorem Ok.forFromP (I : Nat → σ → Prop) {lo n : Nat} {s : σ} {f : Nat → σ → Prog F σ} (h0 : I lo s)
    (hf : ∀ i s, lo ≤ i → i < lo + n → I i s → (f i s).Ok env W np (I (i + 1))) :
    (forFromP lo n s f).Ok env W np (I (lo + n)) := by
  induction n generalizing lo s with
  | zero => exact h0
  | succ n ih =>
    refine Ok.bind (hf lo s (le_refl _) (by omega) h0) (fun s' hs' => ?_)
    have := ih (lo := lo + 1) hs' (fun i s a b => hf i s (by omega) (by omega))
    rw [show lo + 1 + n = lo + (n + 1) by omega] at this
    exact this

theorem Ok.forP (I : Nat → σ → Prop) {n : Nat} {s : σ} {f : Nat → σ → Prog F σ} (h0 : I 0 s)
    (hf : ∀ i s, i < n → I i s → (f i s).Ok env W np (I (i + 1))) :
    (forP n s f).Ok env W np (I n) := by
  have := Ok.forFromP I (lo := 0) (n := n) h0 (fun i s _ h => hf i s (by omega))
  rwa [Nat.zero_add] at this

theorem Ok.ld {Q : F → Prop} {l : Loc} (h : ∀ v, Q v) : (ld l).Ok env W np Q := fun _ v _ => h v

theorem Ok.st {Q : Unit → Prop} {l : Loc} {v : F} (hl : W l) (h : Q ()) : (st l v).Ok env W np Q := ⟨hl, h⟩

end Prog

/-! ## The interleavings -/

namespace Sys
variable {env : MemEnv F} {W : Loc → Prop} {np : Panic → Prop}

/-- If every goroutine is `Ok`, in every reachable state every goroutine is `Ok` and the locations outside `W` are unchanged. -/
theorem reach_ok {s₀ s : Sys F} (h0 : ∀ t ∈ s₀.threads, t.Ok env W np (fun _ => True)) (h : Reach env s₀ s) :
    (∀ t ∈ s.threads, t.Ok env W np (fun _ => True)) ∧ ∀ l, ¬ W l → s.mem.cell l = s₀.mem.cell l := by
  induction h with
  | refl => exact ⟨h0, fun _ _ => rfl⟩
  | step s t _ hs ih =>
    obtain ⟨ih1, ih2⟩ := ih
    have rep : ∀ {l r : List (Prog F Unit)} {x y : Prog F Unit}, (∀ t ∈ l ++ x :: r, t.Ok env W np (fun _ => True)) →
        (x.Ok env W np (fun _ => True) → y.Ok env W np (fun _ => True)) → ∀ t ∈ l ++ y :: r, t.Ok env W np (fun _ => True) := by
      intro l r x y h1 h2 t ht
      simp only [List.mem_append, List.mem_cons] at ht h1
      rcases ht with ht | rfl | ht
      · exact h1 t (Or.inl ht)
      · exact h2 (h1 x (Or.inr (Or.inl rfl)))
      · exact h1 t (Or.inr (Or.inr ht))
    cases hs with
    | load m l r x k v h => exact ⟨rep ih1 (fun hx => hx m v h), ih2⟩
    | store m l r x v k =>
      refine ⟨rep ih1 (fun hx => hx.2), fun l' hl' => ?_⟩
      have hx : W x := (ih1 (.store x v k) (by simp)).1
      have hne : l' ≠ x := by rintro rfl; exact hl' hx
      simp only [Mem.set, if_neg hne]
      exact ih2 l' hl'
    | getNext m l r k v h => exact ⟨rep ih1 (fun hx => hx m v h), ih2⟩
    | setNext m l r v k => exact ⟨rep ih1 (fun hx => hx), ih2⟩
    | rand m l r k v h => exact ⟨rep ih1 (fun hx => hx v h), ih2⟩
    | path m l r id k p h => exact ⟨rep ih1 (fun hx => hx p h), ih2⟩

/-- Every reachable panic is one of those allowed. -/
theorem reach_panics {s₀ s : Sys F} (h0 : ∀ t ∈ s₀.threads, t.Ok env W np (fun _ => True)) (h : Reach env s₀ s) {p : Panic}
    (hp : .panic p ∈ s.threads) : np p :=
  (reach_ok h0 h).1 _ hp

/-- No panic is reachable. -/
theorem reach_no_crash {s₀ s : Sys F} (h0 : ∀ t ∈ s₀.threads, t.Ok env W (fun _ => False) (fun _ => True)) (h : Reach env s₀ s) : ¬ s.Crashed := by
  rintro ⟨p, hp⟩
  exact (reach_ok h0 h).1 _ hp

end Sys
end Wego
