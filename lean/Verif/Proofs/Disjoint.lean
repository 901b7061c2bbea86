import Verif.Proofs.PoolSeq

/-! # Goroutines that share no variable

If the goroutines of an iteration load and store disjoint sets of variables, every schedule leaves what they leave when they run one after the other. -/

namespace Wego
open Prog Props
variable {F α β σ : Type}

/-- Loads and stores only variables in `R` (and neither the generator nor `currentlr`), never panics. -/
def Prog.Within (R : Loc → Prop) (Q : α → Prop) : Prog F α → Prop
  | .ret a => Q a
  | .panic _ => False
  | .load l k => R l ∧ l ≠ .lr ∧ ∀ v, (k v).Within R Q
  | .store l _ k => R l ∧ l ≠ .lr ∧ k.Within R Q
  | .getNext _ => False
  | .setNext _ _ => False
  | .rand _ => False
  | .path _ _ => False

namespace Prog
variable {R : Loc → Prop}

theorem Within.bind {Q : α → Prop} {Q' : β → Prop} {x : Prog F α} {f : α → Prog F β} (hx : x.Within R Q) (hf : ∀ a, Q a → (f a).Within R Q') : (x >>= f).Within R Q' := by
  rw [bind_eq]
  induction x with
  | ret a => exact hf a hx
  | panic p => exact hx.elim
  | load l k ih => exact ⟨hx.1, hx.2.1, fun v => ih v (hx.2.2 v)⟩
  | store l v k ih => exact ⟨hx.1, hx.2.1, ih hx.2.2⟩
  | getNext k ih => exact hx.elim
  | setNext v k ih => exact hx.elim
  | rand k ih => exact hx.elim
  | path id k ih => exact hx.elim

theorem Within.forFromP {lo n : Nat} {s : σ} {f : Nat → σ → Prog F σ} (hf : ∀ i s, lo ≤ i → i < lo + n → (f i s).Within R (fun _ => True)) :
    (forFromP lo n s f).Within R (fun _ => True) := by
  induction n generalizing lo s with
  | zero => trivial
  | succ n ih =>
    exact Within.bind (hf lo s (le_refl _) (by omega)) fun s' _ => ih (lo := lo + 1) fun i s a b => hf i s (by omega) (by omega)

theorem Within.forP {n : Nat} {s : σ} {f : Nat → σ → Prog F σ} (hf : ∀ i s, i < n → (f i s).Within R (fun _ => True)) :
    (forP n s f).Within R (fun _ => True) :=
  Within.forFromP fun i s _ h => hf i s (by omega)

end Prog

theorem Mem.set_comm {m : Mem F} {a b : Loc} {v w : F} (h : a ≠ b) : (m.set a v).set b w = (m.set b w).set a v := by
  unfold Mem.set
  congr 1
  funext l
  by_cases h1 : l = b <;> by_cases h2 : l = a <;> simp [h1, h2]
  · exact absurd (h2.symm.trans h1) h
  · intro e; exact absurd e.symm h
  · intro e; exact absurd e h

section
variable {path : Nat → List Nat} {R S : Loc → Prop}

/-- it ends, and a variable outside `R` is unchanged -/
theorem Within.run {x : Prog F α} {Q : α → Prop} (h : x.Within R Q) (m : Mem F) (o : Ora F) :
    ∃ a m', x.run path m o = .ok (a, m', o) ∧ Q a ∧ ∀ l, ¬ R l → m'.cell l = m.cell l := by
  induction x generalizing m with
  | ret a => exact ⟨a, m, rfl, h, fun _ _ => rfl⟩
  | panic p => exact h.elim
  | load l k ih =>
    obtain ⟨a, m', e, hq, hm⟩ := ih (m.cell l) (h.2.2 _) m
    exact ⟨a, m', by simp only [Prog.run, if_neg h.2.1]; exact e, hq, hm⟩
  | store l v k ih =>
    obtain ⟨a, m', e, hq, hm⟩ := ih h.2.2 (m.set l v)
    refine ⟨a, m', e, hq, fun l' hl' => ?_⟩
    rw [hm l' hl']
    have : l' ≠ l := by rintro rfl; exact hl' h.1
    simp [Mem.set, this]
  | getNext k ih => exact h.elim
  | setNext v k ih => exact h.elim
  | rand k ih => exact h.elim
  | path id k ih => exact h.elim

/-- a store to a variable outside `R` can be made before or after -/
theorem Within.run_set {x : Prog F α} {Q : α → Prop} (h : x.Within R Q) (m : Mem F) (o : Ora F) (l : Loc) (v : F) (hl : ¬ R l) :
    x.run path (m.set l v) o = (x.run path m o >>= fun r => .ok (r.1, r.2.1.set l v, r.2.2)) := by
  induction x generalizing m with
  | ret a => rfl
  | panic p => exact h.elim
  | load l' k ih =>
    have : l' ≠ l := by rintro rfl; exact hl h.1
    simp only [Prog.run, if_neg h.2.1]
    rw [show (m.set l v).cell l' = m.cell l' by simp [Mem.set, this]]
    exact ih _ (h.2.2 _) m
  | store l' w k ih =>
    have : l ≠ l' := by rintro rfl; exact hl h.1
    simp only [Prog.run]
    rw [Mem.set_comm this]
    exact ih h.2.2 _
  | getNext k ih => exact h.elim
  | setNext v k ih => exact h.elim
  | rand k ih => exact h.elim
  | path id k ih => exact h.elim

/-- the two goroutines share no variable -/
def Prog.Disj (x y : Prog F Unit) : Prop := ∃ R S : Loc → Prop, (∀ l, ¬ (R l ∧ S l)) ∧ x.Within R (fun _ => True) ∧ y.Within S (fun _ => True)

theorem Disj.symm {x y : Prog F Unit} (h : x.Disj y) : y.Disj x := by
  obtain ⟨R, S, h1, h2, h3⟩ := h
  exact ⟨S, R, fun l hl => h1 l ⟨hl.2, hl.1⟩, h3, h2⟩

/-- two goroutines without common variables can be run in either order -/
theorem run_swap {x y : Prog F Unit} (h : x.Disj y) (m : Mem F) (o : Ora F) :
    (x.run path m o >>= fun r => y.run path r.2.1 r.2.2) = (y.run path m o >>= fun r => x.run path r.2.1 r.2.2) := by
  obtain ⟨R, S, hd, hx, hy⟩ := h
  induction x generalizing m with
  | ret a =>
    obtain ⟨b, m', e, _, _⟩ := Within.run (path := path) hy m o
    cases a; cases b
    simp only [Prog.run, Res.ok_bind, e]
  | panic p => exact hx.elim
  | load l k ih =>
    have hl : ¬ S l := fun hs => hd l ⟨hx.1, hs⟩
    have := ih (m.cell l) m (hx.2.2 _)
    simp only [Prog.run, if_neg hx.2.1] at this ⊢
    rw [this]
    obtain ⟨b, m', e, _, hm⟩ := Within.run (path := path) hy m o
    rw [e, Res.ok_bind, Res.ok_bind, hm l hl]
  | store l v k ih =>
    have hl : ¬ S l := fun hs => hd l ⟨hx.1, hs⟩
    have := ih (m.set l v) hx.2.2
    simp only [Prog.run] at this ⊢
    rw [this, Within.run_set hy m o l v hl]
    obtain ⟨b, m', e, _, hm⟩ := Within.run (path := path) hy m o
    rw [e, Res.ok_bind, Res.ok_bind, Res.ok_bind]
  | getNext k ih => exact hx.elim
  | setNext v k ih => exact hx.elim
  | rand k ih => exact hx.elim
  | path id k ih => exact hx.elim

theorem seqRun_perm {xs ys : List (Prog F Unit)} (hp : xs.Perm ys) (h : xs.Pairwise Disj) (m : Mem F) (o : Ora F) :
    seqRun path xs m o = seqRun path ys m o := by
  induction hp generalizing m o with
  | nil => rfl
  | cons x _ ih =>
    simp only [seqRun]
    cases x.run path m o with
    | ok r => exact ih (List.Pairwise.of_cons h) _ _
    | err e => rfl
    | panic p => rfl
  | swap x y l =>
    have hxy : y.Disj x := (List.pairwise_cons.1 h).1 x (by simp)
    have := run_swap (path := path) hxy m o
    simp only [seqRun]
    have assoc : ∀ u w : Prog F Unit, (u.run path m o >>= fun r => w.run path r.2.1 r.2.2 >>= fun r' => seqRun path l r'.2.1 r'.2.2)
        = ((u.run path m o >>= fun r => w.run path r.2.1 r.2.2) >>= fun r' => seqRun path l r'.2.1 r'.2.2) := by
      intro u w
      cases u.run path m o <;> rfl
    rw [assoc, assoc, this]
  | trans h1 _ ih1 ih2 => rw [ih1 h, ih2 ((h1.pairwise_iff (fun h => Disj.symm h)).1 h)]

/-- the single steps keep a goroutine within its variables -/
theorem Within.step {env : MemEnv F} {x y : Prog F Unit} {m m' : Mem F} (hs : PStep env x m y m') (h : x.Within R (fun _ => True)) : y.Within R (fun _ => True) := by
  cases hs with
  | load m x k v hv => exact h.2.2 v
  | store m x v k => exact h.2.2
  | getNext m k v hv => exact h.elim
  | setNext m v k => exact h.elim
  | rand m k v hv => exact h.elim
  | path m id k p hv => exact h.elim

theorem Disj.step {env : MemEnv F} {x y z : Prog F Unit} {m m' : Mem F} (hs : PStep env x m y m') (h : x.Disj z) : y.Disj z := by
  obtain ⟨R, S, h1, h2, h3⟩ := h
  exact ⟨R, S, h1, Within.step hs h2, h3⟩

/-- the first goroutine may make its step now or when it runs -/
theorem run_step {rand : F → Prop} {x y : Prog F Unit} {m m' : Mem F} (hs : PStep (MemEnv.sc rand (fun id p => p = path id)) x m y m')
    (h : x.Within R (fun _ => True)) (o : Ora F) : x.run path m o = y.run path m' o := by
  cases hs with
  | load m x k v hv => cases hv; simp only [Prog.run, if_neg h.2.1]
  | store m x v k => rfl
  | getNext m k v hv => exact h.elim
  | setNext m v k => exact h.elim
  | rand m k v hv => exact h.elim
  | path m id k p hv => exact h.elim

/-- every goroutine is within some set of variables, and no two share one -/
structure AllDisj (xs : List (Prog F Unit)) : Prop where
  within : ∀ x ∈ xs, ∃ R : Loc → Prop, x.Within R (fun _ => True)
  disj : xs.Pairwise Disj

theorem AllDisj.perm {xs ys : List (Prog F Unit)} (h : AllDisj xs) (hp : xs.Perm ys) : AllDisj ys :=
  ⟨fun x hx => h.within x (hp.symm.subset hx), (hp.pairwise_iff (fun h => Disj.symm h)).1 h.disj⟩

theorem AllDisj.step {env : MemEnv F} {x y : Prog F Unit} {xs : List (Prog F Unit)} {m m' : Mem F} (hs : PStep env x m y m') (h : AllDisj (x :: xs)) : AllDisj (y :: xs) := by
  refine ⟨?_, ?_⟩
  · intro z hz
    rcases List.mem_cons.1 hz with rfl | hz
    · obtain ⟨R, hR⟩ := h.within x (by simp)
      exact ⟨R, Within.step hs hR⟩
    · exact h.within z (by simp [hz])
  · have := List.pairwise_cons.1 h.disj
    exact List.pairwise_cons.2 ⟨fun z hz => Disj.step hs (this.1 z hz), this.2⟩

/-- what is still to be done leads to `res` -/
def DisjInv (path : Nat → List Nat) (o : Ora F) (res : Res (Mem F × Ora F)) (s : Pool F) : Prop :=
  (∀ t ∈ s.obs, t = .ret ()) ∧ AllDisj (s.run ++ s.wait) ∧ seqRun path (s.run ++ s.wait) s.mem o = res

theorem disjInv_step {rand : F → Prop} {g : Nat} {o : Ora F} {res : Res (Mem F × Ora F)} {s t : Pool F} (h : DisjInv path o res s)
    (hs : Pool.Step (MemEnv.sc rand (fun id p => p = path id)) g s t) : DisjInv path o res t := by
  obtain ⟨ho, hd, hr⟩ := h
  cases hs with
  | acquire m obs l r run x hlt =>
    dsimp only at hd hr ⊢
    have hp : (run ++ (l ++ x :: r)).Perm ((x :: run) ++ (l ++ r)) := by
      rw [List.cons_append, ← List.append_assoc, ← List.append_assoc]
      exact List.perm_middle
    exact ⟨ho, hd.perm hp, by rw [← hr]; exact (seqRun_perm hp hd.disj _ _).symm⟩
  | work m m' obs wait run run' hst =>
    obtain ⟨l, r, x, y, h1, h2, h3⟩ := Sys.step_split hst
    dsimp only at h1 h2 h3 hd hr ⊢
    subst h1 h2
    have hp : ∀ z : Prog F Unit, ((l ++ z :: r) ++ wait).Perm (z :: (l ++ r ++ wait)) := by
      intro z
      exact (List.perm_middle.append_right wait)
    have hd' := hd.perm (hp x)
    have hd2 := AllDisj.step h3 hd'
    refine ⟨ho, hd2.perm (hp y).symm, ?_⟩
    dsimp only
    rw [← hr, seqRun_perm (hp x) hd.disj, ← seqRun_perm (hp y).symm hd2.disj]
    obtain ⟨R, hR⟩ := hd'.within x (by simp)
    simp only [seqRun, run_step h3 hR]
  | observe m m' obs obs' wait run hst =>
    obtain ⟨l, r, x, y, h1, h2, h3⟩ := Sys.step_split hst
    dsimp only at h1 ho h3
    have := ho x (by rw [h1]; simp)
    subst this
    cases h3
  | release m obs wait l r =>
    dsimp only at hd hr ⊢
    have hp : ((l ++ .ret () :: r) ++ wait).Perm (.ret () :: (l ++ r ++ wait)) := List.perm_middle.append_right wait
    have hd' := hd.perm hp
    refine ⟨ho, ⟨fun x hx => hd'.within x (List.mem_cons_of_mem _ hx), (List.pairwise_cons.1 hd'.disj).2⟩, ?_⟩
    dsimp only
    rw [← hr, seqRun_perm hp hd.disj]
    rfl

theorem disj_reach {rand : F → Prop} {g : Nat} {o : Ora F} {res : Res (Mem F × Ora F)} {s t : Pool F} (h : DisjInv path o res s)
    (hs : Pool.Reach (MemEnv.sc rand (fun id p => p = path id)) g s t) : DisjInv path o res t := by
  induction hs with
  | refl => exact h
  | step a b _ hs ih => exact disjInv_step ih hs

/-- **Goroutines without common variables.** All iterations, any number of goroutines at a time: the memory at the end is what the goroutines leave one after the other. -/
theorem iters_disj {rand : F → Prop} {g : Nat} {m m' : Mem F} {obs : List (Prog F Unit)} {rounds : List (Prog F Unit × List (Prog F Unit))}
    (h : Pool.Iters (MemEnv.sc rand (fun id p => p = path id)) g m obs rounds m') (ho : ∀ t ∈ obs, t = .ret ())
    (hr : ∀ r ∈ rounds, r.1 = .ret () ∧ AllDisj r.2) (o : Ora F) : seqRun path (rounds.map Prod.snd).flatten m o = .ok (m', o) := by
  induction h with
  | nil m obs => rfl
  | cons m m' m'' obs obs' ob ws rest hre hit ih =>
    obtain ⟨k1, k2⟩ := hr (ob, ws) (by simp)
    obtain ⟨ho', _, hres⟩ := disj_reach (path := path) (o := o) (res := seqRun path ws m o) (s := ⟨m, ob :: obs, ws, []⟩)
      ⟨by
        intro t ht
        simp only [List.mem_cons] at ht
        rcases ht with rfl | ht
        · exact k1
        · exact ho t ht, by simpa using k2, by simp⟩ hre
    simp only [List.append_nil, seqRun] at hres
    rw [List.map_cons, List.flatten_cons, seqRun_append, ← hres, Res.ok_bind]
    exact ih ho' fun r hr' => hr r (by simp [hr'])

end

/-! ## Goroutines that run at the same time share no variable -/

/-- `Pool.Reach`, with executions in which the goroutines that hold the semaphore at the same time never have a variable in common (in what they still have to do). -/
inductive Pool.ReachApart (env : MemEnv F) (g : Nat) (s₀ : Pool F) : Pool F → Prop
  | refl : ReachApart env g s₀ s₀
  | step (s t : Pool F) (h : ReachApart env g s₀ s) (hs : Pool.Step env g s t) (ha : t.run.Pairwise Prog.Disj) : ReachApart env g s₀ t

/-- `Pool.Iters` with such executions -/
inductive Pool.ItersApart (env : MemEnv F) (g : Nat) : Mem F → List (Prog F Unit) → List (Prog F Unit × List (Prog F Unit)) → Mem F → Prop
  | nil (m : Mem F) (obs : List (Prog F Unit)) : ItersApart env g m obs [] m
  | cons (m m' m'' : Mem F) (obs obs' : List (Prog F Unit)) (ob : Prog F Unit) (ws : List (Prog F Unit)) (rest : List (Prog F Unit × List (Prog F Unit)))
      (h : ReachApart env g ⟨m, ob :: obs, ws, []⟩ ⟨m', obs', [], []⟩) (hr : ItersApart env g m' obs' rest m'') : ItersApart env g m obs ((ob, ws) :: rest) m''

section apart
variable {path : Nat → List Nat}

/-- the goroutines started so far, in the order in which they were started, lead to what is left of those running -/
def ApartInv (path : Nat → List Nat) (m0 : Mem F) (ws : List (Prog F Unit)) (s : Pool F) : Prop :=
  (∀ t ∈ s.obs, t = .ret ()) ∧ (∀ x ∈ s.run ++ s.wait, ∃ R : Loc → Prop, x.Within R (fun _ => True)) ∧ s.run.Pairwise Disj ∧
    ∃ order, (order ++ s.wait).Perm ws ∧ ∀ o : Ora F, seqRun path order m0 o = seqRun path s.run s.mem o

theorem apartInv_step {rand : F → Prop} {g : Nat} {m0 : Mem F} {ws : List (Prog F Unit)} {s t : Pool F} (h : ApartInv path m0 ws s)
    (hs : Pool.Step (MemEnv.sc rand (fun id p => p = path id)) g s t) (ha : t.run.Pairwise Disj) : ApartInv path m0 ws t := by
  obtain ⟨ho, hw, hd, order, hp, hr⟩ := h
  cases hs with
  | acquire m obs l r run x hlt =>
    dsimp only at hw hd hp hr ha ⊢
    have hperm : (run ++ (l ++ x :: r)).Perm ((x :: run) ++ (l ++ r)) := by
      rw [List.cons_append, ← List.append_assoc, ← List.append_assoc]
      exact List.perm_middle
    refine ⟨ho, fun y hy => hw y (hperm.symm.subset hy), ha, order ++ [x], ?_, fun o => ?_⟩
    · refine List.Perm.trans ?_ hp
      rw [List.append_assoc]
      show (order ++ (x :: (l ++ r))).Perm (order ++ (l ++ x :: r))
      exact List.Perm.append_left order List.perm_middle.symm
    · dsimp only
      have h2 : (run ++ [x]).Perm (x :: run) := List.perm_append_comm
      rw [← seqRun_perm h2 ((h2.symm.pairwise_iff (fun h => Disj.symm h)).1 ha), seqRun_append, seqRun_append, hr]
  | work m m' obs wait run run' hst =>
    obtain ⟨l, r, x, y, h1, h2, h3⟩ := Sys.step_split hst
    dsimp only at h1 h2 h3 hw hd hp hr ha ⊢
    subst h1 h2
    have hp1 : ∀ z : Prog F Unit, (l ++ z :: r).Perm (z :: (l ++ r)) := fun z => List.perm_middle
    obtain ⟨R, hR⟩ := hw x (by simp)
    refine ⟨ho, fun z hz => ?_, ha, order, hp, fun o => ?_⟩
    · have hz' : z = y ∨ z ∈ l ∨ z ∈ r ∨ z ∈ wait := by
        simp only [List.mem_append, List.mem_cons] at hz
        tauto
      rcases hz' with rfl | hz'
      · exact ⟨R, Within.step h3 hR⟩
      · refine hw z ?_
        simp only [List.mem_append, List.mem_cons]
        tauto
    · dsimp only
      rw [hr, seqRun_perm (hp1 x) hd, seqRun_perm (hp1 y) ha]
      simp only [seqRun, run_step h3 hR]
  | observe m m' obs obs' wait run hst =>
    obtain ⟨l, r, x, y, h1, h2, h3⟩ := Sys.step_split hst
    dsimp only at h1 ho h3
    have := ho x (by rw [h1]; simp)
    subst this
    cases h3
  | release m obs wait l r =>
    dsimp only at hw hd hp hr ha ⊢
    refine ⟨ho, fun z hz => hw z ?_, ha, order, hp, fun o => ?_⟩
    · simp only [List.mem_append, List.mem_cons] at hz ⊢
      tauto
    · dsimp only
      rw [hr, seqRun_perm List.perm_middle hd]
      rfl

theorem apart_reach {rand : F → Prop} {g : Nat} {m0 : Mem F} {ws : List (Prog F Unit)} {s t : Pool F} (h : ApartInv path m0 ws s)
    (hs : Pool.ReachApart (MemEnv.sc rand (fun id p => p = path id)) g s t) : ApartInv path m0 ws t := by
  induction hs with
  | refl => exact h
  | step a b _ hs ha ih => exact apartInv_step ih hs ha

theorem iters_apart {rand : F → Prop} {g : Nat} {m m' : Mem F} {obs : List (Prog F Unit)} {rounds : List (Prog F Unit × List (Prog F Unit))}
    (h : Pool.ItersApart (MemEnv.sc rand (fun id p => p = path id)) g m obs rounds m') (ho : ∀ t ∈ obs, t = .ret ())
    (hr : ∀ r ∈ rounds, r.1 = .ret () ∧ ∀ x ∈ r.2, ∃ R : Loc → Prop, x.Within R (fun _ => True)) (o : Ora F) :
    ∃ orders : List (List (Prog F Unit)), List.Forall₂ (fun a b => a.Perm b.2) orders rounds ∧ seqRun path orders.flatten m o = .ok (m', o) := by
  induction h with
  | nil m obs => exact ⟨[], .nil, rfl⟩
  | cons m m' m'' obs obs' ob ws rest hre hit ih =>
    obtain ⟨k1, k2⟩ := hr (ob, ws) (by simp)
    obtain ⟨ho', _, _, order, hp, hres⟩ := apart_reach (path := path) (m0 := m) (ws := ws) (s := ⟨m, ob :: obs, ws, []⟩)
      ⟨by
        intro t ht
        simp only [List.mem_cons] at ht
        rcases ht with rfl | ht
        · exact k1
        · exact ho t ht, by simpa using k2, .nil, [], by simp, fun _ => rfl⟩ hre
    obtain ⟨orders, h1, h2⟩ := ih ho' fun r hr' => hr r (by simp [hr'])
    refine ⟨order :: orders, .cons (by simpa using hp) h1, ?_⟩
    rw [List.flatten_cons, seqRun_append, hres]
    exact h2

theorem Pool.ReachApart.reach {env : MemEnv F} {g : Nat} {s t : Pool F} (h : Pool.ReachApart env g s t) : Pool.Reach env g s t := by
  induction h with
  | refl => exact .refl
  | step a b _ hs _ ih => exact .step a b ih hs

theorem Pool.ReachApart.trans {env : MemEnv F} {g : Nat} {s t u : Pool F} (h : Pool.ReachApart env g s t) (hr : Pool.ReachApart env g t u) : Pool.ReachApart env g s u := by
  induction hr with
  | refl => exact h
  | step a b _ hs ha ih => exact .step a b ih hs ha

/-- a goroutine within its variables runs to its end beside others -/
theorem apart_head {rand : F → Prop} {path : Nat → List Nat → Prop} {g : Nat} (obs wait r : List (Prog F Unit)) (x : Prog F Unit) (m : Mem F) (h : AllDisj (x :: r)) :
    ∃ m', Pool.ReachApart (MemEnv.sc rand path) g ⟨m, obs, wait, x :: r⟩ ⟨m', obs, wait, .ret () :: r⟩ := by
  obtain ⟨R, hR⟩ := h.within x (by simp)
  induction x generalizing m with
  | ret a => exact ⟨m, .refl⟩
  | panic p => exact hR.elim
  | load l k ih =>
    have hs : PStep (MemEnv.sc rand path) (.load l k) m (k (m.cell l)) m := .load m l k _ rfl
    have h2 := h.step hs
    obtain ⟨m', h3⟩ := ih (m.cell l) m h2 (hR.2.2 _)
    exact ⟨m', Pool.ReachApart.trans (.step _ _ .refl (.work m m obs wait _ _ (.load m [] r l k _ rfl)) h2.disj) h3⟩
  | store l v k ih =>
    have hs : PStep (MemEnv.sc rand path) (.store l v k) m k (m.set l v) := .store m l v k
    have h2 := h.step hs
    obtain ⟨m', h3⟩ := ih (m.set l v) h2 hR.2.2
    exact ⟨m', Pool.ReachApart.trans (.step _ _ .refl (.work m _ obs wait _ _ (.store m [] r l v k)) h2.disj) h3⟩
  | getNext k ih => exact hR.elim
  | setNext v k ih => exact hR.elim
  | rand k ih => exact hR.elim
  | path id k ih => exact hR.elim

/-- the running goroutines can finish -/
theorem apart_finish {rand : F → Prop} {path : Nat → List Nat → Prop} {g : Nat} (obs wait r : List (Prog F Unit)) (m : Mem F) (h : AllDisj r) :
    ∃ m', Pool.ReachApart (MemEnv.sc rand path) g ⟨m, obs, wait, r⟩ ⟨m', obs, wait, []⟩ := by
  induction r generalizing m with
  | nil => exact ⟨m, .refl⟩
  | cons x r ih =>
    have hr : AllDisj r := ⟨fun y hy => h.within y (by simp [hy]), (List.pairwise_cons.1 h.disj).2⟩
    obtain ⟨m1, h1⟩ := apart_head (rand := rand) (path := path) (g := g) obs wait r x m h
    obtain ⟨m2, h2⟩ := ih m1 hr
    exact ⟨m2, Pool.ReachApart.trans h1 (Pool.ReachApart.trans (.step _ _ .refl (.release m1 obs wait [] r) hr.disj) h2)⟩

theorem Pool.ItersApart.iters {env : MemEnv F} {g : Nat} {m m' : Mem F} {obs : List (Prog F Unit)} {rounds : List (Prog F Unit × List (Prog F Unit))}
    (h : Pool.ItersApart env g m obs rounds m') : Pool.Iters env g m obs rounds m' := by
  induction h with
  | nil m obs => exact .nil m obs
  | cons m m' m'' obs obs' ob ws rest hre _ ih => exact .cons m m' m'' obs obs' ob ws rest hre.reach ih

/-- executions in which goroutines never have a variable in common exist: run them one after the other -/
theorem apart_exists {rand : F → Prop} {path : Nat → List Nat → Prop} {g : Nat} (hg : 1 ≤ g) (obs ws : List (Prog F Unit)) (m : Mem F)
    (hw : ∀ x ∈ ws, ∃ R : Loc → Prop, x.Within R (fun _ => True)) :
    ∃ m', Pool.ReachApart (MemEnv.sc rand path) g ⟨m, obs, ws, []⟩ ⟨m', obs, [], []⟩ := by
  induction ws generalizing m with
  | nil => exact ⟨m, .refl⟩
  | cons x ws ih =>
    have hx : AllDisj [x] := ⟨fun y hy => by rw [List.mem_singleton.1 hy]; exact hw x (by simp), List.pairwise_singleton _ _⟩
    obtain ⟨m1, h1⟩ := apart_finish (rand := rand) (path := path) (g := g) obs ws [x] m hx
    obtain ⟨m2, h2⟩ := ih m1 (fun y hy => hw y (by simp [hy]))
    exact ⟨m2, Pool.ReachApart.trans (.step _ _ .refl (.acquire m obs [] ws [] x (by simp only [List.length_nil]; omega)) hx.disj) (h1.trans h2)⟩

theorem itersApart_exists {rand : F → Prop} {path : Nat → List Nat → Prop} {g : Nat} (hg : 1 ≤ g) (rounds : List (Prog F Unit × List (Prog F Unit))) (obs : List (Prog F Unit))
    (m : Mem F) (hw : ∀ r ∈ rounds, ∀ x ∈ r.2, ∃ R : Loc → Prop, x.Within R (fun _ => True)) :
    ∃ m', Pool.ItersApart (MemEnv.sc rand path) g m obs rounds m' := by
  induction rounds generalizing m obs with
  | nil => exact ⟨m, .nil m obs⟩
  | cons r rounds ih =>
    obtain ⟨ob, ws⟩ := r
    obtain ⟨m1, h1⟩ := apart_exists (rand := rand) (path := path) hg (ob :: obs) ws m (hw (ob, ws) (by simp))
    obtain ⟨m2, h2⟩ := ih (ob :: obs) m1 (fun r hr => hw r (by simp [hr]))
    exact ⟨m2, .cons _ _ _ _ _ _ _ _ h1 h2⟩

end apart

/-! ## GloVe's goroutines -/

section glove
variable [GoFloat F] {R : Loc → Prop}

omit [GoFloat F] in
theorem Within.ld {l : Loc} (h : R l) (hl : l ≠ .lr) : (ld l : Prog F F).Within R (fun _ => True) := ⟨h, hl, fun _ => trivial⟩

omit [GoFloat F] in
theorem Within.updP {l : Loc} (h : R l) (hl : l ≠ .lr) (f : F → F) : (updP l f : Prog F Unit).Within R (fun _ => True) := ⟨h, hl, fun _ => ⟨h, hl, trivial⟩⟩

omit [GoFloat F] in
theorem Within.sliceP {rows col : Nat} {id : Int} (h : 0 ≤ id ∧ id < rows) : (sliceP rows col id : Prog F Nat).Within R (fun a => a = id.toNat) := by
  unfold Wego.sliceP
  obtain ⟨a, rfl⟩ := Int.eq_ofNat_of_zero_le h.1
  have ha : a < rows := by omega
  rw [if_pos]
  · rfl
  · constructor
    · positivity
    · have : (a + 1) * col ≤ rows * col := Nat.mul_le_mul_right _ ha
      push_cast
      have h2 : ((a : Int) + 1) * col ≤ rows * col := by exact_mod_cast this
      linarith

theorem gloveDiffP_within (dim a b : Nat) (f coef initlr : F) (ha : ∀ c, R (.param a c)) (hb : ∀ c, R (.param b c)) :
    (gloveDiffP dim a b f coef initlr).Within R (fun _ => True) := by
  unfold gloveDiffP
  refine Within.bind (Within.forP fun i s _ => ?_) fun d _ => ?_
  · exact Within.bind (Within.ld (ha i) (by simp)) fun x _ => Within.bind (Within.ld (hb i) (by simp)) fun y _ => trivial
  · exact Within.bind (Within.ld (ha _) (by simp)) fun x _ => Within.bind (Within.ld (hb _) (by simp)) fun y _ => trivial

theorem sgdP_within (initlr : F) {rows dim : Nat} {l1 l2 : Int} (h1 : 0 ≤ l1 ∧ l1 < rows) (h2 : 0 ≤ l2 ∧ l2 < rows) (f coef : F)
    (ha : ∀ c, R (.param l1.toNat c)) (hb : ∀ c, R (.param l2.toNat c)) : (sgdP initlr rows dim l1 l2 f coef).Within R (fun _ => True) := by
  unfold sgdP
  refine Within.bind (Within.sliceP h1) fun a ea => ?_
  refine Within.bind (Within.sliceP h2) fun b eb => ?_
  subst ea eb
  refine Within.bind (gloveDiffP_within _ _ _ _ _ _ ha hb) fun diff _ => ?_
  refine Within.bind (Within.forP fun i _ _ => ?_) fun _ _ => ?_
  · refine Within.bind (Within.ld (hb i) (by simp)) fun y _ => Within.bind (Within.ld (ha i) (by simp)) fun x _ => ?_
    exact Within.bind (Within.updP (ha i) (by simp) _) fun _ _ => Within.updP (hb i) (by simp) _
  · exact Within.bind (Within.updP (ha _) (by simp) _) fun _ _ => Within.updP (hb _) (by simp) _

theorem adaP_within (initlr : F) {rows dim : Nat} {l1 l2 : Int} (h1 : 0 ≤ l1 ∧ l1 < rows) (h2 : 0 ≤ l2 ∧ l2 < rows) (f coef : F)
    (ha : ∀ c, R (.param l1.toNat c)) (hb : ∀ c, R (.param l2.toNat c)) (ga : ∀ c, R (.gradsq l1.toNat c)) (gb : ∀ c, R (.gradsq l2.toNat c)) :
    (adaP initlr rows dim l1 l2 f coef).Within R (fun _ => True) := by
  unfold adaP
  refine Within.bind (Within.sliceP h1) fun a ea => ?_
  refine Within.bind (Within.sliceP h2) fun b eb => ?_
  subst ea eb
  refine Within.bind (gloveDiffP_within _ _ _ _ _ _ ha hb) fun diff _ => ?_
  refine Within.bind (Within.forP fun i _ _ => ?_) fun _ _ => ?_
  · refine Within.bind (Within.ld (hb i) (by simp)) fun y _ => Within.bind (Within.ld (ha i) (by simp)) fun x _ => ?_
    refine Within.bind (Within.updP (ga i) (by simp) _) fun _ _ => Within.bind (Within.updP (gb i) (by simp) _) fun _ _ => ?_
    refine Within.bind (Within.ld (ga i) (by simp)) fun y _ => Within.bind (Within.ld (gb i) (by simp)) fun x _ => ?_
    exact Within.bind (Within.updP (ha i) (by simp) _) fun _ _ => Within.updP (hb i) (by simp) _
  · refine Within.bind (Within.ld (ga _) (by simp)) fun y _ => Within.bind (Within.updP (ha _) (by simp) _) fun _ _ => ?_
    refine Within.bind (Within.ld (gb _) (by simp)) fun y _ => Within.bind (Within.updP (hb _) (by simp) _) fun _ _ => ?_
    exact Within.bind (Within.updP (ga _) (by simp) _) fun _ _ => Within.updP (gb _) (by simp) _

/-- the rows of the words of a slice: as target and as context -/
def SliceRows (len : Nat) (items : List (GItem F)) (l : Loc) : Prop :=
  ∃ it ∈ items, ∃ c, ∃ r, (l = .param r c ∨ l = .gradsq r c) ∧
    (r = it.l1.toNat ∨ r = (it.l1 + len).toNat ∨ r = it.l2.toNat ∨ r = (it.l2 + len).toNat)

theorem gloveWorkerP_within (M : GloveModel F) (o : GloveOptions F) (items : List (GItem F)) (hit : ∀ it ∈ items, ItemOK M.corpus.dic.len it) :
    (gloveWorkerP (M.step o) M.corpus.dic.len items).Within (SliceRows M.corpus.dic.len items) (fun _ => True) := by
  unfold gloveWorkerP
  refine Within.forP fun k _ hk => ?_
  rw [idx_of_lt _ _ hk]
  refine Within.bind (Q := fun a => a = items[k]) rfl fun it e => ?_
  subst e
  have hm : items[k] ∈ items := by simp
  obtain ⟨a, b, e1, e2, l1, l2⟩ := hit _ hm
  generalize items[k] = it at *
  have R1 : ∀ c r, (r = it.l1.toNat ∨ r = (it.l1 + M.corpus.dic.len).toNat ∨ r = it.l2.toNat ∨ r = (it.l2 + M.corpus.dic.len).toNat) →
      SliceRows M.corpus.dic.len items (.param r c) := fun c r h => ⟨it, hm, c, r, .inl rfl, h⟩
  have R2 : ∀ c r, (r = it.l1.toNat ∨ r = (it.l1 + M.corpus.dic.len).toNat ∨ r = it.l2.toNat ∨ r = (it.l2 + M.corpus.dic.len).toNat) →
      SliceRows M.corpus.dic.len items (.gradsq r c) := fun c r h => ⟨it, hm, c, r, .inr rfl, h⟩
  have b1 : 0 ≤ it.l1 ∧ it.l1 < (M.corpus.dic.len * 2 : Nat) := by omega
  have b2 : 0 ≤ it.l2 + M.corpus.dic.len ∧ it.l2 + M.corpus.dic.len < (M.corpus.dic.len * 2 : Nat) := by omega
  have b3 : 0 ≤ it.l1 + M.corpus.dic.len ∧ it.l1 + M.corpus.dic.len < (M.corpus.dic.len * 2 : Nat) := by omega
  have b4 : 0 ≤ it.l2 ∧ it.l2 < (M.corpus.dic.len * 2 : Nat) := by omega
  unfold GloveModel.step
  cases M.gradsq with
  | none =>
    exact Within.bind (sgdP_within _ b1 b2 _ _ (fun c => R1 c _ (by simp)) (fun c => R1 c _ (by simp))) fun _ _ =>
      sgdP_within _ b3 b4 _ _ (fun c => R1 c _ (by simp)) (fun c => R1 c _ (by simp))
  | some g =>
    exact Within.bind (adaP_within _ b1 b2 _ _ (fun c => R1 c _ (by simp)) (fun c => R1 c _ (by simp)) (fun c => R2 c _ (by simp)) (fun c => R2 c _ (by simp))) fun _ _ =>
      adaP_within _ b3 b4 _ _ (fun c => R1 c _ (by simp)) (fun c => R1 c _ (by simp)) (fun c => R2 c _ (by simp)) (fun c => R2 c _ (by simp))

/-- no word occurs in items of both slices -/
def NoSharedWord (xs ys : List (GItem F)) : Prop := ∀ x ∈ xs, ∀ y ∈ ys, x.l1 ≠ y.l1 ∧ x.l1 ≠ y.l2 ∧ x.l2 ≠ y.l1 ∧ x.l2 ≠ y.l2

theorem gloveWorkers_disj (M : GloveModel F) (o : GloveOptions F) (slices : List (List (GItem F))) (hit : ∀ s ∈ slices, ∀ it ∈ s, ItemOK M.corpus.dic.len it)
    (hd : slices.Pairwise NoSharedWord) : AllDisj (slices.map (gloveWorkerP (M.step o) M.corpus.dic.len)) := by
  constructor
  · intro x hx
    obtain ⟨s, hs, rfl⟩ := List.mem_map.1 hx
    exact ⟨_, gloveWorkerP_within M o s (hit s hs)⟩
  · rw [List.pairwise_map]
    refine (List.Pairwise.and_mem.1 hd).imp ?_
    rintro s t ⟨hs, ht, hst⟩
    refine ⟨_, _, ?_, gloveWorkerP_within M o s (hit s hs), gloveWorkerP_within M o t (hit t ht)⟩
    rintro l ⟨⟨x, hx, c, r, e, h⟩, y, hy, c', r', e', h'⟩
    obtain ⟨n1, n2, n3, n4⟩ := hst x hx y hy
    obtain ⟨x1, x2, p1, p2, p3, p4⟩ := hit s hs x hx
    obtain ⟨y1, y2, q1, q2, q3, q4⟩ := hit t ht y hy
    have hr : r = r' := by
      rcases e with rfl | rfl <;> rcases e' with e' | e' <;> simp at e' <;> exact e'.1
    subst hr
    omega

end glove
end Wego
