import Verif.Proofs.Refine
import Verif.Props.Glove
import Verif.Proofs.Terminate

/-! # One goroutine at a time: from schedules to `Prog.run`, and GloVe with one goroutine -/

namespace Wego
open Prog Matrix Props
variable {F : Type}

/-- one step of one goroutine: what it was and the memory before, what it is and the memory after -/
inductive PStep (env : MemEnv F) : Prog F Unit → Mem F → Prog F Unit → Mem F → Prop
  | load (m : Mem F) (x : Loc) (k : F → Prog F Unit) (v : F) (h : env.cell m x v) : PStep env (.load x k) m (k v) m
  | store (m : Mem F) (x : Loc) (v : F) (k : Prog F Unit) : PStep env (.store x v k) m k (m.set x v)
  | getNext (m : Mem F) (k : UInt64 → Prog F Unit) (v : UInt64) (h : env.next m v) : PStep env (.getNext k) m (k v) m
  | setNext (m : Mem F) (v : UInt64) (k : Prog F Unit) : PStep env (.setNext v k) m k { m with next := v }
  | rand (m : Mem F) (k : F → Prog F Unit) (v : F) (h : env.rand v) : PStep env (.rand k) m (k v) m
  | path (m : Mem F) (id : Nat) (k : List Nat → Prog F Unit) (p : List Nat) (h : env.path id p) : PStep env (.path id k) m (k p) m

/-- the memory is the same except perhaps for `currentlr` -/
def Mem.EqLr (m m' : Mem F) : Prop := (∀ l, l ≠ .lr → m.cell l = m'.cell l) ∧ m.next = m'.next

/-- An observer: stores only to `currentlr`, and only values in `P` if it loads only values in `P` from there. -/
def Prog.LrOnly {α : Type} (P : F → Prop) : Prog F α → Prop
  | .ret _ => True
  | .panic _ => True
  | .load l k => ∀ v, (l = .lr → P v) → (k v).LrOnly P
  | .store l v k => l = .lr ∧ P v ∧ k.LrOnly P
  | .getNext k => ∀ v, (k v).LrOnly P
  | .setNext _ _ => False
  | .rand k => ∀ v, (k v).LrOnly P
  | .path _ k => ∀ v, (k v).LrOnly P

/-- never stores to `currentlr` -/
def Prog.NoLr {α : Type} : Prog F α → Prop
  | .ret _ => True
  | .panic _ => True
  | .load _ k => ∀ v, (k v).NoLr
  | .store l _ k => l ≠ .lr ∧ k.NoLr
  | .getNext k => ∀ v, (k v).NoLr
  | .setNext _ k => k.NoLr
  | .rand k => ∀ v, (k v).NoLr
  | .path _ k => ∀ v, (k v).NoLr

/-- any load may return anything -/
def MemEnv.any : MemEnv F := ⟨fun _ _ _ => True, fun _ _ => True, fun _ => True, fun _ _ => True⟩

theorem Prog.NoLr_of_ok {α : Type} {x : Prog F α} {Q : α → Prop} {np : Panic → Prop} (m : Mem F) (h : x.Ok MemEnv.any (fun l => l ≠ .lr) np Q) : x.NoLr := by
  induction x with
  | ret a => trivial
  | panic p => trivial
  | load l k ih => exact fun v => ih v (h m v trivial)
  | store l v k ih => exact ⟨h.1, ih h.2⟩
  | getNext k ih => exact fun v => ih v (h m v trivial)
  | setNext v k ih => exact ih h
  | rand k ih => exact fun v => ih v (h v trivial)
  | path id k ih => exact fun v => ih v (h v trivial)

/-- the inputs are possible ones -/
def Ora.In (rand P : F → Prop) (o : Ora F) : Prop := (∀ n, rand (o.rand n)) ∧ ∀ n, P (o.lr n)

def Ora.consRand (o : Ora F) (v : F) : Ora F := { o with rand := fun n => match n with | 0 => v | n + 1 => o.rand n }
def Ora.consLr (o : Ora F) (v : F) : Ora F := { o with lr := fun n => match n with | 0 => v | n + 1 => o.lr n }

theorem Ora.In.consRand {rand P : F → Prop} {o : Ora F} (h : o.In rand P) {v : F} (hv : rand v) : (o.consRand v).In rand P :=
  ⟨fun n => by cases n with
    | zero => exact hv
    | succ n => exact h.1 n, h.2⟩

theorem Ora.In.consLr {rand P : F → Prop} {o : Ora F} (h : o.In rand P) {v : F} (hv : P v) : (o.consLr v).In rand P :=
  ⟨h.1, fun n => by cases n with
    | zero => exact hv
    | succ n => exact h.2 n⟩

theorem split_eq {α : Type} {l r l' r' : List α} {y x : α} (h : l ++ y :: r = l' ++ x :: r') :
    (l = l' ∧ y = x ∧ r = r') ∨ (∃ mid, l' = l ++ y :: mid ∧ r = mid ++ x :: r') ∨ (∃ mid, r' = mid ++ y :: r ∧ l = l' ++ x :: mid) := by
  induction l generalizing l' with
  | nil =>
    cases l' with
    | nil => simp at h; exact Or.inl ⟨rfl, h.1, h.2⟩
    | cons a l' =>
      simp at h
      obtain ⟨rfl, rfl⟩ := h
      exact Or.inr (Or.inl ⟨l', rfl, rfl⟩)
  | cons b l ih =>
    cases l' with
    | nil =>
      simp at h
      obtain ⟨rfl, rfl⟩ := h
      exact Or.inr (Or.inr ⟨l, rfl, rfl⟩)
    | cons a l' =>
      simp only [List.cons_append, List.cons.injEq] at h
      obtain ⟨rfl, h⟩ := h
      rcases ih h with ⟨rfl, h1, h2⟩ | ⟨mid, rfl, h2⟩ | ⟨mid, h1, rfl⟩
      · exact Or.inl ⟨rfl, h1, h2⟩
      · exact Or.inr (Or.inl ⟨mid, rfl, h2⟩)
      · exact Or.inr (Or.inr ⟨mid, h1, rfl⟩)

namespace Sys

theorem step_split {env : MemEnv F} {s t : Sys F} (h : Step env s t) :
    ∃ l r x y, s.threads = l ++ x :: r ∧ t.threads = l ++ y :: r ∧ PStep env x s.mem y t.mem := by
  cases h with
  | load m l r x k v h => exact ⟨l, r, _, _, rfl, rfl, .load m x k v h⟩
  | store m l r x v k => exact ⟨l, r, _, _, rfl, rfl, .store m x v k⟩
  | getNext m l r k v h => exact ⟨l, r, _, _, rfl, rfl, .getNext m k v h⟩
  | setNext m l r v k => exact ⟨l, r, _, _, rfl, rfl, .setNext m v k⟩
  | rand m l r k v h => exact ⟨l, r, _, _, rfl, rfl, .rand m k v h⟩
  | path m l r id k p h => exact ⟨l, r, _, _, rfl, rfl, .path m id k p h⟩

theorem lrOnly_step {rand P : F → Prop} {path : Nat → List Nat} {x y : Prog F Unit} {m m' : Mem F} (h : PStep (MemEnv.sc rand (fun id p => p = path id)) x m y m')
    (hx : x.LrOnly P) (hm : P (m.cell .lr)) : y.LrOnly P ∧ P (m'.cell .lr) ∧ m.EqLr m' := by
  cases h with
  | load m x k v h => cases h; exact ⟨hx _ (by rintro rfl; exact hm), hm, fun _ _ => rfl, rfl⟩
  | store m x v k =>
    obtain ⟨rfl, h2, h3⟩ := hx
    refine ⟨h3, ?_, fun l hl => ?_, rfl⟩
    · simp only [Mem.set, if_true]; exact h2
    · simp only [Mem.set, if_neg hl]
  | getNext m k v h => exact ⟨hx _, hm, fun _ _ => rfl, rfl⟩
  | setNext m v k => exact hx.elim
  | rand m k v h => exact ⟨hx _, hm, fun _ _ => rfl, rfl⟩
  | path m id k p h => exact ⟨hx _, hm, fun _ _ => rfl, rfl⟩

theorem worker_step {rand P : F → Prop} {path : Nat → List Nat} {x y : Prog F Unit} {m m' m1 : Mem F} (h : PStep (MemEnv.sc rand (fun id p => p = path id)) x m y m')
    (hx : x.NoLr) (hm : P (m.cell .lr)) (he : m1.EqLr m) :
    y.NoLr ∧ P (m'.cell .lr) ∧ ∃ m2, m2.EqLr m' ∧ ∀ o : Ora F, o.In rand P → ∃ o0, o0.In rand P ∧ x.run path m1 o0 = y.run path m2 o := by
  cases h with
  | load m x k v h =>
    cases h
    refine ⟨hx _, hm, m1, he, fun o ho => ?_⟩
    by_cases hl : x = .lr
    · subst hl
      exact ⟨o.consLr (m.cell .lr), ho.consLr hm, by simp only [Prog.run, if_true]; rfl⟩
    · exact ⟨o, ho, by simp only [Prog.run, if_neg hl, he.1 x hl]⟩
  | store m x v k =>
    obtain ⟨h1, h2⟩ := hx
    refine ⟨h2, ?_, m1.set x v, ⟨fun l hl => ?_, he.2⟩, fun o ho => ⟨o, ho, rfl⟩⟩
    · simp only [Mem.set, if_neg (Ne.symm h1)]; exact hm
    · simp only [Mem.set]; split
      · rfl
      · exact he.1 l hl
  | getNext m k v h => cases h; exact ⟨hx _, hm, m1, he, fun o ho => ⟨o, ho, by simp only [Prog.run, he.2]⟩⟩
  | setNext m v k => exact ⟨hx, hm, { m1 with next := v }, ⟨fun l hl => he.1 l hl, rfl⟩, fun o ho => ⟨o, ho, rfl⟩⟩
  | rand m k v h => exact ⟨hx _, hm, m1, he, fun o ho => ⟨o.consRand v, ho.consRand h, rfl⟩⟩
  | path m id k p h => cases h; exact ⟨hx _, hm, m1, he, fun o ho => ⟨o, ho, rfl⟩⟩

/-- One worker `x` among observers, under sequential consistency: what it has done is what `Prog.run` computes, for some random numbers and
some learning rates in `P`. -/
theorem reach_worker {rand P : F → Prop} {path : Nat → List Nat} {l r : List (Prog F Unit)} {x : Prog F Unit} {m m0 : Mem F} {s : Sys F}
    (h : Reach (MemEnv.sc rand (fun id p => p = path id)) ⟨m, l ++ x :: r⟩ s) (hl : ∀ t ∈ l ++ r, t.LrOnly P) (hx : x.NoLr) (hm : P (m.cell .lr))
    (h0 : m0.EqLr m) :
    ∃ l' x' r', s.threads = l' ++ x' :: r' ∧ l'.length = l.length ∧ r'.length = r.length ∧ (∀ t ∈ l' ++ r', t.LrOnly P) ∧ x'.NoLr ∧ P (s.mem.cell .lr) ∧
      ∃ m1, m1.EqLr s.mem ∧ ∀ o : Ora F, o.In rand P → ∃ o0, o0.In rand P ∧ x.run path m0 o0 = x'.run path m1 o := by
  induction h with
  | refl => exact ⟨l, x, r, rfl, rfl, rfl, hl, hx, hm, m0, h0, fun o ho => ⟨o, ho, rfl⟩⟩
  | step s t _ hs ih =>
    obtain ⟨l', x', r', e1, e2, e2', e3, e4, e5, m1, e6, e7⟩ := ih
    obtain ⟨l2, r2, y, z, g1, g2, g3⟩ := step_split hs
    rw [e1] at g1
    rcases split_eq g1.symm with ⟨rfl, rfl, rfl⟩ | ⟨mid, rfl, rfl⟩ | ⟨mid, rfl, rfl⟩
    · obtain ⟨k1, k2, m2, k3, k4⟩ := worker_step g3 e4 e5 e6
      refine ⟨l2, z, r2, g2, e2, e2', e3, k1, k2, m2, k3, fun o ho => ?_⟩
      obtain ⟨o1, ho1, h1⟩ := k4 o ho
      obtain ⟨o0, ho0, h0⟩ := e7 o1 ho1
      exact ⟨o0, ho0, h0.trans h1⟩
    · obtain ⟨k1, k2, k3⟩ := lrOnly_step g3 (e3 y (by simp)) e5
      refine ⟨l2 ++ z :: mid, x', r', by rw [g2]; simp, by rw [← e2]; simp, e2', ?_, e4, k2, m1, ⟨fun l hl => (e6.1 l hl).trans (k3.1 l hl), e6.2.trans k3.2⟩, e7⟩
      intro t ht
      simp only [List.append_assoc, List.cons_append, List.mem_append, List.mem_cons] at ht e3
      rcases ht with ht | rfl | ht
      · exact e3 t (Or.inl ht)
      · exact k1
      · exact e3 t (Or.inr (Or.inr ht))
    · obtain ⟨k1, k2, k3⟩ := lrOnly_step g3 (e3 y (by simp)) e5
      refine ⟨l', x', mid ++ z :: r2, by rw [g2]; simp, e2, by rw [← e2']; simp, ?_, e4, k2, m1, ⟨fun l hl => (e6.1 l hl).trans (k3.1 l hl), e6.2.trans k3.2⟩, e7⟩
      intro t ht
      simp only [List.mem_append, List.mem_cons] at ht e3
      rcases ht with ht | ht | rfl | ht
      · exact e3 t (Or.inl ht)
      · exact e3 t (Or.inr (Or.inl ht))
      · exact k1
      · exact e3 t (Or.inr (Or.inr (Or.inr ht)))

/-- prepend a step -/
theorem Reach.head {env : MemEnv F} {s t u : Sys F} (h : Step env s t) (hr : Reach env t u) : Reach env s u := by
  induction hr with
  | refl => exact .step s t .refl h
  | step a b _ hs ih => exact .step a b ih hs

/-- every system gets to an end in some schedule -/
theorem reaches_end {env : MemEnv F} (he : env.Total) (s : Sys F) : ∃ t, Reach env s t ∧ (t.Done ∨ t.Crashed) := by
  have key : ∀ ts : List (Prog F Unit), ∀ s : Sys F, s.threads = ts → ∃ t, Reach env s t ∧ (t.Done ∨ t.Crashed) := by
    intro ts
    induction acc_pool ts with
    | intro ts _ ih =>
      rintro s rfl
      by_cases hst : ∃ t, Step env s t
      · obtain ⟨t, ht⟩ := hst
        obtain ⟨u, h1, h2⟩ := ih _ (Sys.step_pool ht) t rfl
        exact ⟨u, Reach.head ht h1, h2⟩
      · push Not at hst
        exact ⟨s, .refl, Sys.progress he s hst⟩
  exact key _ s rfl

theorem Reach.trans {env : MemEnv F} {s t u : Sys F} (h : Reach env s t) (hr : Reach env t u) : Reach env s u := by
  induction hr with
  | refl => exact h
  | step a b _ hs ih => exact .step a b ih hs

/-- more goroutines beside, before and after -/
theorem Reach.frame {env : MemEnv F} {m : Mem F} {ts : List (Prog F Unit)} {s : Sys F} (h : Reach env ⟨m, ts⟩ s) (l r : List (Prog F Unit)) :
    Reach env ⟨m, l ++ ts ++ r⟩ ⟨s.mem, l ++ s.threads ++ r⟩ := by
  induction h with
  | refl => exact .refl
  | step a b _ hs ih =>
    refine .step _ _ ih ?_
    cases hs with
    | load m l' r' x k v h => simpa using Step.load m (l ++ l') (r' ++ r) x k v h
    | store m l' r' x v k => simpa using Step.store (env := env) m (l ++ l') (r' ++ r) x v k
    | getNext m l' r' k v h => simpa using Step.getNext m (l ++ l') (r' ++ r) k v h
    | setNext m l' r' v k => simpa using Step.setNext (env := env) m (l ++ l') (r' ++ r) v k
    | rand m l' r' k v h => simpa using Step.rand m (l ++ l') (r' ++ r) k v h
    | path m l' r' id k p h => simpa using Step.path m (l ++ l') (r' ++ r) id k p h

/-- Executions with a barrier between iterations are executions of all the goroutines together: what holds of every reachable
state of the pool holds at the end of the iterations. -/
theorem Rounds.reach {env : MemEnv F} {m m' : Mem F} {tss : List (List (Prog F Unit))} (h : Rounds env m tss m') (l : List (Prog F Unit)) :
    ∃ ts', Reach env ⟨m, l ++ tss.flatten⟩ ⟨m', ts'⟩ := by
  induction h generalizing l with
  | nil m => exact ⟨_, .refl⟩
  | cons m m' ts rest s h hd _ ih =>
    obtain ⟨ts', h'⟩ := ih (l ++ s.threads)
    refine ⟨ts', Reach.trans (t := ⟨s.mem, l ++ s.threads ++ rest.flatten⟩) ?_ h'⟩
    have := h.frame l rest.flatten
    rwa [List.append_assoc, ← List.flatten_cons] at this

end Sys

theorem MemEnv.sc_total {rand : F → Prop} (hv : ∃ v, rand v) (path : Nat → List Nat) : (MemEnv.sc rand (fun id p => p = path id)).Total :=
  ⟨fun m l => ⟨m.cell l, rfl⟩, fun m => ⟨m.next, rfl⟩, hv, fun id => ⟨path id, rfl⟩⟩

theorem MatAt.eqLr [GoFloat F] {loc : Nat → Nat → Loc} {m m' : Mem F} {M : Matrix F} {r c : Nat} (h : MatAt loc m M r c) (hl : ∀ i j, loc i j ≠ .lr)
    (he : m.EqLr m') : MatAt loc m' M r c := ⟨h.shaped, fun i hi j hj => by rw [← he.1 _ (hl i j)]; exact h.cell i hi j hj⟩

/-! ## GloVe -/

theorem forEach_eq_forFrom {α σ : Type} (l : List α) (s : σ) (f : α → σ → Res σ) (pre : List α) :
    forEach l s f = forFrom pre.length l.length s (fun k s => idx (pre ++ l) k >>= fun a => f a s) := by
  induction l generalizing s pre with
  | nil => rfl
  | cons a l ih =>
    rw [forEach_cons, List.length_cons, forFrom_succ, idx_of_lt _ _ (by simp), Res.ok_bind]
    have : (pre ++ a :: l)[pre.length] = a := by simp
    rw [this]
    congr 1
    funext s'
    have := ih s' (pre ++ [a])
    simpa using this

theorem forEach_eq_forN {α σ : Type} (l : List α) (s : σ) (f : α → σ → Res σ) :
    forEach l s f = forN l.length s (fun k s => idx l k >>= fun a => f a s) := forEach_eq_forFrom l s f []

section
variable [GoFloat F] {path : Nat → List Nat} {m : Mem F} {us : Ora F} {S : Type}

/-- a worker of GloVe, running alone, makes the two steps of every item in order -/
theorem gloveWorker_runs (Rel : Mem F → S → Prop) (stepP : Int → Int → F → F → Prog F Unit) (step : Int → Int → S → F → F → Res S) (len : Nat)
    (hstep : ∀ (a b : Nat) (m : Mem F) us s s' f coef, a < len * 2 → b < len * 2 → Rel m s → step a b s f coef = .ok s' →
      (stepP a b f coef).Runs path m us (fun _ m' us' => Rel m' s' ∧ us' = us))
    (items : List (GItem F)) (hit : ∀ it ∈ items, ItemOK len it) {s s' : S} (h : Rel m s)
    (hs : forEach items s (fun it s => gloveTurn step len it s) = .ok s') :
    (gloveWorkerP stepP len items).Runs path m us (fun _ m' us' => Rel m' s' ∧ us' = us) := by
  rw [forEach_eq_forN] at hs
  refine Runs.forP_sim (fun _ s (_ : Unit) m' us' => Rel m' s ∧ us' = us) hs ⟨h, rfl⟩ ?_
  rintro k s t m' us' s1 hk ⟨hr, rfl⟩ hs
  rw [idx_of_lt _ _ hk, Res.ok_bind] at hs
  obtain ⟨a, b, l1, l2, ha, hb⟩ := hit items[k] (by simp)
  refine Runs.ofRes_bind (idx_of_lt _ _ hk) ?_
  unfold gloveTurn at hs
  rw [Res.bind_eq_ok] at hs
  obtain ⟨s2, e1, e2⟩ := hs
  rw [l1, l2] at e1 e2 ⊢
  have e1' : step (a : Nat) ((b + len : Nat) : Int) s (items[k]).f (items[k]).coef = .ok s2 := by push_cast; exact e1
  have e2' : step ((a + len : Nat) : Int) (b : Nat) s2 (items[k]).f (items[k]).coef = .ok s1 := by push_cast; exact e2
  refine Runs.bind (Q := fun _ m' us'' => Rel m' s2 ∧ us'' = us') ?_ ?_
  · have := hstep a (b + len) m' us' s s2 _ _ (by omega) (by omega) hr e1'
    push_cast at this; exact this
  · rintro _ m2 us2 ⟨hr2, rfl⟩
    have := hstep (a + len) b m2 us2 s2 s1 _ _ (by omega) (by omega) hr2 e2'
    push_cast at this; exact this

omit [GoFloat F] in
/-- iterations of one worker each -/
theorem rounds_single {rand : F → Prop} (Rel : Mem F → S → Prop) (hrel : ∀ m m' s, m.EqLr m' → Rel m s → Rel m' s) (x : Prog F Unit) (f : S → Res S)
    (hx : ∀ m us s s', Rel m s → f s = .ok s' → x.Runs path m us (fun _ m' us' => Rel m' s' ∧ us' = us)) (hn : x.NoLr)
    (n : Nat) {m m' : Mem F} {s s' : S} (h : Rel m s) (hs : forN n s (fun _ s => f s) = .ok s')
    (hr : Sys.Rounds (MemEnv.sc rand (fun id p => p = path id)) m (List.replicate n [x]) m') (hv : ∃ v, rand v) : Rel m' s' := by
  obtain ⟨v, hv⟩ := hv
  unfold forN at hs
  generalize 0 = lo at hs
  induction n generalizing lo m s with
  | zero =>
    cases hs
    generalize e : List.replicate 0 [x] = z at hr
    cases hr with
    | nil => exact h
    | cons => simp at e
  | succ n ih =>
    rw [forFrom_succ, Res.bind_eq_ok] at hs
    obtain ⟨s1, e1, e2⟩ := hs
    generalize e : List.replicate (n + 1) [x] = z at hr
    cases hr with
    | nil => simp at e
    | cons m m' ts rest st hre hd hro =>
      rw [List.replicate_succ, List.cons.injEq] at e
      obtain ⟨rfl, rfl⟩ := e
      obtain ⟨l', x', r', h1, hl', hr', _, _, _, m1, h3, h4⟩ := Sys.reach_worker (P := fun _ => True) (l := []) (r := []) (m0 := m) hre (by simp) hn trivial ⟨fun _ _ => rfl, rfl⟩
      simp only [List.length_nil, List.length_eq_zero_iff] at hl' hr'
      subst hl' hr'
      have hx' : x' = .ret () := hd x' (by rw [h1]; simp)
      subst hx'
      obtain ⟨o0, _, h5⟩ := h4 ⟨fun _ => v, fun _ => v⟩ ⟨fun _ => hv, fun _ => trivial⟩
      obtain ⟨_, m2, us2, h6, h7, _⟩ := hx m o0 s s1 h e1
      rw [h6] at h5
      have : m2 = m1 := by
        have := Res.ok.inj h5
        simp only [Prod.mk.injEq] at this
        exact this.2.1
      subst this
      exact ih (hrel _ _ _ h3 h7) hro (lo + 1) e2

/-- complete executions exist if no schedule panics -/
theorem rounds_exist {env : MemEnv F} (he : env.Total) (m : Mem F) (tss : List (List (Prog F Unit)))
    (hok : ∀ ts ∈ tss, ∀ t ∈ ts, t.Ok env (fun _ => True) (fun _ => False) (fun _ => True)) : ∃ m', Sys.Rounds env m tss m' := by
  induction tss generalizing m with
  | nil => exact ⟨m, .nil m⟩
  | cons ts tss ih =>
    obtain ⟨t, h1, h2⟩ := Sys.reaches_end he ⟨m, ts⟩
    have h3 := h2.resolve_right (Sys.reach_no_crash (fun t ht => hok ts (by simp) t ht) h1)
    obtain ⟨m', h4⟩ := ih t.mem (fun ts h => hok ts (by simp [h]))
    exact ⟨m', .cons m m' ts tss t h1 h3 h4⟩

end
end Wego
