import Verif.Proofs.RefineSys

/-! # With a semaphore of size one the workers run one after the other -/

namespace Wego
open Prog
variable {F : Type}

/-- the programs one after the other, alone -/
def seqRun (path : Nat → List Nat) : List (Prog F Unit) → Mem F → Ora F → Res (Mem F × Ora F)
  | [], m, o => .ok (m, o)
  | x :: xs, m, o => x.run path m o >>= fun r => seqRun path xs r.2.1 r.2.2

variable {path : Nat → List Nat} {rand P : F → Prop}

theorem seqRun_append (xs ys : List (Prog F Unit)) (m : Mem F) (o : Ora F) :
    seqRun path (xs ++ ys) m o = (seqRun path xs m o >>= fun r => seqRun path ys r.1 r.2) := by
  induction xs generalizing m o with
  | nil => rfl
  | cons x xs ih =>
    simp only [List.cons_append, seqRun]
    cases x.run path m o with
    | ok r => exact ih _ _
    | err e => rfl
    | panic p => rfl

/-- observers keep being observers -/
theorem obs_step {m m' : Mem F} {obs obs' : List (Prog F Unit)} (h : Sys.Step (MemEnv.sc rand (fun id p => p = path id)) ⟨m, obs⟩ ⟨m', obs'⟩)
    (ho : ∀ t ∈ obs, t.LrOnly P) (hm : P (m.cell .lr)) : (∀ t ∈ obs', t.LrOnly P) ∧ P (m'.cell .lr) ∧ m.EqLr m' := by
  obtain ⟨l, r, x, y, h1, h2, h3⟩ := Sys.step_split h
  dsimp only at h1 h2 h3
  subst h1 h2
  obtain ⟨k1, k2, k3⟩ := Sys.lrOnly_step h3 (ho x (by simp)) hm
  refine ⟨?_, k2, k3⟩
  intro t ht
  simp only [List.mem_append, List.mem_cons] at ht ho
  rcases ht with ht | rfl | ht
  · exact ho t (Or.inl ht)
  · exact k1
  · exact ho t (Or.inr (Or.inr ht))

/-- what the workers have done so far -/
def SeqInv (path : Nat → List Nat) (rand P : F → Prop) (m0 : Mem F) (ws : List (Prog F Unit)) (s : Pool F) : Prop :=
  (∀ t ∈ s.obs, t.LrOnly P) ∧ P (s.mem.cell .lr) ∧
  ((s.run = [] ∧ ∃ done, (done ++ s.wait).Perm ws ∧ ∃ m1, m1.EqLr s.mem ∧
      ∀ o : Ora F, o.In rand P → ∃ o0, o0.In rand P ∧ seqRun path done m0 o0 = .ok (m1, o)) ∨
   (∃ x', s.run = [x'] ∧ x'.NoLr ∧ ∃ done x, (done ++ x :: s.wait).Perm ws ∧ ∃ m1, m1.EqLr s.mem ∧
      ∀ o : Ora F, o.In rand P → ∃ o0, o0.In rand P ∧ seqRun path (done ++ [x]) m0 o0 = (x'.run path m1 o >>= fun r => .ok r.2)))

theorem seqInv_step {m0 : Mem F} {ws : List (Prog F Unit)} (hws : ∀ t ∈ ws, t.NoLr) {s t : Pool F}
    (h : SeqInv path rand P m0 ws s) (hs : Pool.Step (MemEnv.sc rand (fun id p => p = path id)) 1 s t) : SeqInv path rand P m0 ws t := by
  obtain ⟨ho, hm, h⟩ := h
  cases hs with
  | acquire m obs l r run x hlt =>
    refine ⟨ho, hm, ?_⟩
    rcases h with ⟨hr, done, hp, m1, he, hd⟩ | ⟨x', hr, _⟩
    · dsimp only at hr hp he
      subst hr
      have hx : x ∈ ws := hp.subset (by simp)
      refine Or.inr ⟨x, rfl, hws x hx, done, x, ?_, m1, he, fun o ho => ?_⟩
      · refine List.Perm.trans ?_ hp
        exact List.Perm.append_left done (List.perm_middle.symm)
      · obtain ⟨o0, i0, e⟩ : ∃ o0 : Ora F, o0.In rand P ∧ seqRun path done m0 o0 = .ok (m1, o) := hd o ho
        refine ⟨o0, i0, ?_⟩
        rw [seqRun_append, e, Res.ok_bind]
        simp only [seqRun]
    · dsimp only at hr
      subst hr
      simp at hlt
  | work m m' obs wait run run' hst =>
    obtain ⟨l, r, x, y, h1, h2, h3⟩ := Sys.step_split hst
    dsimp only at h1 h2 h3
    rcases h with ⟨hr, _⟩ | ⟨x', hr, hn, done, x0, hp, m1, he, hd⟩
    · dsimp only at hr
      subst hr; simp at h1
    · dsimp only at hr hp he hm
      subst hr
      have hl : l = [] ∧ x = x' ∧ r = [] := by
        cases l with
        | nil => simp at h1; exact ⟨rfl, h1.1.symm, h1.2⟩
        | cons a l => simp at h1
      obtain ⟨rfl, rfl, rfl⟩ := hl
      obtain ⟨k1, k2, m2, k3, k4⟩ := Sys.worker_step (P := P) h3 hn hm he
      refine ⟨ho, k2, Or.inr ⟨y, by simpa using h2, k1, done, x0, hp, m2, k3, fun o hio => ?_⟩⟩
      obtain ⟨o1, i1, e1⟩ := k4 o hio
      obtain ⟨o0, i0, e0⟩ := hd o1 i1
      exact ⟨o0, i0, by rw [e0, e1]⟩
  | observe m m' obs obs' wait run hst =>
    obtain ⟨k1, k2, k3⟩ := obs_step hst ho hm
    refine ⟨k1, k2, ?_⟩
    dsimp only at h ⊢
    have tr : ∀ m1 : Mem F, m1.EqLr m → m1.EqLr m' := fun m1 e => ⟨fun l hl => (e.1 l hl).trans (k3.1 l hl), e.2.trans k3.2⟩
    rcases h with ⟨hr, done, hp, m1, he, hd⟩ | ⟨x', hr, hn, done, x, hp, m1, he, hd⟩
    · exact Or.inl ⟨hr, done, hp, m1, tr m1 he, hd⟩
    · exact Or.inr ⟨x', hr, hn, done, x, hp, m1, tr m1 he, hd⟩
  | release m obs wait l r =>
    refine ⟨ho, hm, ?_⟩
    dsimp only at h ⊢
    rcases h with ⟨hr, _⟩ | ⟨x', hr, hn, done, x, hp, m1, he, hd⟩
    · simp at hr
    · have hl : l = [] ∧ x' = .ret () ∧ r = [] := by
        cases l with
        | nil => simp at hr; exact ⟨rfl, hr.1.symm, hr.2⟩
        | cons a l => simp at hr
      obtain ⟨rfl, rfl, rfl⟩ := hl
      refine Or.inl ⟨rfl, done ++ [x], by simpa using hp, m1, he, fun o hio => ?_⟩
      obtain ⟨o0, i0, e0⟩ := hd o hio
      exact ⟨o0, i0, by rw [e0]; rfl⟩

theorem seqInv_reach {m0 : Mem F} {ws : List (Prog F Unit)} (hws : ∀ t ∈ ws, t.NoLr) {s t : Pool F}
    (h : SeqInv path rand P m0 ws s) (hs : Pool.Reach (MemEnv.sc rand (fun id p => p = path id)) 1 s t) : SeqInv path rand P m0 ws t := by
  induction hs with
  | refl => exact h
  | step a b _ hs ih => exact seqInv_step hws ih hs

/-- All iterations: the workers of each iteration one after the other in some order. -/
theorem iters_seq {m m' m0 : Mem F} {obs : List (Prog F Unit)} {rounds : List (Prog F Unit × List (Prog F Unit))}
    (h : Pool.Iters (MemEnv.sc rand (fun id p => p = path id)) 1 m obs rounds m') (h0 : m0.EqLr m)
    (ho : ∀ t ∈ obs, t.LrOnly P) (hr : ∀ r ∈ rounds, r.1.LrOnly P ∧ ∀ t ∈ r.2, t.NoLr) (hm : P (m.cell .lr)) :
    ∃ orders : List (List (Prog F Unit)), List.Forall₂ (fun a b => a.Perm b.2) orders rounds ∧ ∃ m1, m1.EqLr m' ∧
      ∀ o : Ora F, o.In rand P → ∃ o0, o0.In rand P ∧ seqRun path orders.flatten m0 o0 = .ok (m1, o) := by
  induction h generalizing m0 with
  | nil m obs => exact ⟨[], .nil, m0, h0, fun o ho => ⟨o, ho, rfl⟩⟩
  | cons m m' m'' obs obs' ob ws rest hre hit ih =>
    have inv := seqInv_reach (path := path) (rand := rand) (P := P) (m0 := m0) (ws := ws) (hr (ob, ws) (by simp)).2
      (s := ⟨m, ob :: obs, ws, []⟩) ⟨by
        intro t ht
        simp only [List.mem_cons] at ht
        rcases ht with rfl | ht
        · exact (hr (t, ws) (by simp)).1
        · exact ho t ht, hm, Or.inl ⟨rfl, [], by simp, m0, h0, fun o ho => ⟨o, ho, rfl⟩⟩⟩ hre
    obtain ⟨ho', hm', h⟩ := inv
    rcases h with ⟨_, done, hp, m1, he, hd⟩ | ⟨x', hx, _⟩
    · obtain ⟨orders, h1, m2, h2, h3⟩ := ih (m0 := m1) he ho' (fun r hr' => hr r (by simp [hr'])) hm'
      refine ⟨done :: orders, .cons (by simpa using hp) h1, m2, h2, fun o hio => ?_⟩
      obtain ⟨o1, i1, e1⟩ := h3 o hio
      obtain ⟨o0, i0, e0⟩ := hd o1 i1
      refine ⟨o0, i0, ?_⟩
      rw [List.flatten_cons, seqRun_append, e0, Res.ok_bind]
      exact e1
    · simp at hx

/-! ## Complete executions exist -/

theorem Pool.Reach.trans {env : MemEnv F} {g : Nat} {s t u : Pool F} (h : Pool.Reach env g s t) (hr : Pool.Reach env g t u) : Pool.Reach env g s u := by
  induction hr with
  | refl => exact h
  | step a b _ hs ih => exact .step a b ih hs

theorem Pool.Reach.one {env : MemEnv F} {g : Nat} {s t : Pool F} (h : Pool.Step env g s t) : Pool.Reach env g s t := .step s t .refl h

theorem Sys.Step.length {env : MemEnv F} {s t : Sys F} (h : Sys.Step env s t) : t.threads.length = s.threads.length := by
  obtain ⟨l, r, x, y, h1, h2, _⟩ := Sys.step_split h
  rw [h1, h2]; simp

theorem Sys.Reach.length {env : MemEnv F} {s t : Sys F} (h : Sys.Reach env s t) : t.threads.length = s.threads.length := by
  induction h with
  | refl => rfl
  | step a b _ hs ih => rw [Sys.Step.length hs, ih]

theorem Pool.of_sys {env : MemEnv F} {g : Nat} {s t : Sys F} (h : Sys.Reach env s t) (obs wait : List (Prog F Unit)) :
    Pool.Reach env g ⟨s.mem, obs, wait, s.threads⟩ ⟨t.mem, obs, wait, t.threads⟩ := by
  induction h with
  | refl => exact .refl
  | step a b _ hs ih => exact .step _ _ ih (.work _ _ _ _ _ _ hs)

theorem pool_exists {env : MemEnv F} (he : env.Total) {g : Nat} (hg : 1 ≤ g) (m : Mem F) (obs ws : List (Prog F Unit))
    (hok : ∀ t ∈ ws, t.Ok env (fun _ => True) (fun _ => False) (fun _ => True)) : ∃ m', Pool.Reach env g ⟨m, obs, ws, []⟩ ⟨m', obs, [], []⟩ := by
  induction ws generalizing m with
  | nil => exact ⟨m, .refl⟩
  | cons x ws ih =>
    obtain ⟨t, h1, h2⟩ := Sys.reaches_end he ⟨m, [x]⟩
    have h3 := h2.resolve_right (Sys.reach_no_crash (by simpa using hok x (by simp)) h1)
    have hl := h1.length
    obtain ⟨y, hy⟩ := List.length_eq_one_iff.1 (by simpa using hl)
    have : y = .ret () := h3 y (by rw [hy]; simp)
    subst this
    obtain ⟨m', h4⟩ := ih t.mem (fun t ht => hok t (by simp [ht]))
    refine ⟨m', Pool.Reach.trans (.one (.acquire m obs [] ws [] x (by simp; omega))) (Pool.Reach.trans (Pool.of_sys h1 obs ws) ?_)⟩
    rw [hy]
    exact Pool.Reach.trans (.one (.release _ _ _ [] [])) h4

theorem iters_exist {env : MemEnv F} (he : env.Total) {g : Nat} (hg : 1 ≤ g) (m : Mem F) (obs : List (Prog F Unit)) (rounds : List (Prog F Unit × List (Prog F Unit)))
    (hok : ∀ r ∈ rounds, ∀ t ∈ r.2, t.Ok env (fun _ => True) (fun _ => False) (fun _ => True)) : ∃ m', Pool.Iters env g m obs rounds m' := by
  induction rounds generalizing m obs with
  | nil => exact ⟨m, .nil m obs⟩
  | cons r rounds ih =>
    obtain ⟨ob, ws⟩ := r
    obtain ⟨m1, h1⟩ := pool_exists he hg m (ob :: obs) ws (hok (ob, ws) (by simp))
    obtain ⟨m2, h2⟩ := ih m1 (ob :: obs) (fun r hr => hok r (by simp [hr]))
    exact ⟨m2, .cons _ _ _ _ _ _ _ _ h1 h2⟩

/-! ## The observers -/

section
variable [GoFloat F]

/-- the learning rates that can occur: the initial one, the minimal one, and the scheduled ones for the words counted by an observer -/
def PossibleLr (cfg : LrCfg F) (n : Nat) (v : F) : Prop :=
  v = cfg.initlr ∨ v = cfg.minLR ∨ ∃ cnt : Nat, 1 ≤ cnt ∧ cnt ≤ n ∧ (cnt : Int).tmod cfg.updateLRBatch = 0 ∧
    v = cfg.initlr *. (GoFloat.ofRat 1 -. GoFloat.ofRat (cnt : ℚ) /. GoFloat.ofRat (cfg.len : ℚ))

omit [GoFloat F] in
theorem LrOnly.bind {α β : Type} {x : Prog F α} {f : α → Prog F β} (hx : x.LrOnly P) (hf : ∀ a, (f a).LrOnly P) : (x >>= f).LrOnly P := by
  rw [Prog.bind_eq]
  induction x with
  | ret a => exact hf a
  | panic p => trivial
  | load l k ih => exact fun v hv => ih v (hx v hv)
  | store l v k ih => exact ⟨hx.1, hx.2.1, ih hx.2.2⟩
  | getNext k ih => exact fun v => ih v (hx v)
  | setNext v k ih => exact hx.elim
  | rand k ih => exact fun v => ih v (hx v)
  | path id k ih => exact fun v => ih v (hx v)

theorem observerP_lrOnly (cfg : LrCfg F) (n : Nat) : (observerP cfg n).LrOnly (PossibleLr cfg n) := by
  unfold observerP forP
  have key : ∀ k lo, lo + k ≤ n → (forFromP lo k () (fun i _ =>
      ofRes (lrDue cfg (i + 1)) >>= fun due =>
      if due then ld .lr >>= fun lr => st .lr (newLr cfg (i + 1) lr) else .ret ())).LrOnly (PossibleLr cfg n) := by
    intro k
    induction k with
    | zero => intro lo _; trivial
    | succ k ih =>
      intro lo hlo
      refine LrOnly.bind ?_ fun _ => ih (lo + 1) (by omega)
      unfold lrDue
      split
      · trivial
      · show Prog.LrOnly _ (if _ then _ else _)
        split
        · rename_i hd
          intro v _
          refine ⟨rfl, ?_, trivial⟩
          unfold newLr
          split
          · exact Or.inr (Or.inl rfl)
          · exact Or.inr (Or.inr ⟨lo + 1, by omega, by omega, by simpa using hd, rfl⟩)
        · trivial
  exact key n 0 (by omega)

end
end Wego
