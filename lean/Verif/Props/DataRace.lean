import Verif.Spec.Race
import Verif.Props.ParallelRace
import Verif.Props.RateLag

/-! # C105: training has no data race

False of the code. The goroutines of an iteration are `Pool`s (`Verif/Model/Prog.lean`): observers, waiting workers and running workers (at most `Goroutines`). The sends on the channel `trained`, which the pools
leave out, only ever wait for the observer (C37), so no state in which two workers are about to access a variable is lost or added by that. Races with an observer are stated on the
model with that channel (`Verif/Model/RateLag.lean`). -/

namespace Wego
open Prog Spec Props
variable {F α β σ : Type}

/-- Whatever the loads return (for some random numbers and paths) it comes to a store of `v`. -/
def Prog.Hits (env : MemEnv F) (v : Var) : Prog F α → Prop
  | .ret _ => False
  | .panic _ => False
  | .load _ k => ∀ x, (k x).Hits env v
  | .store l _ k => Var.cell l = v ∨ k.Hits env v
  | .getNext k => ∀ x, (k x).Hits env v
  | .setNext _ k => Var.next = v ∨ k.Hits env v
  | .rand k => ∃ u, env.rand u ∧ (k u).Hits env v
  | .path id k => ∃ p, env.path id p ∧ (k p).Hits env v

namespace Prog
variable {env : MemEnv F} {v : Var}

theorem Hits.left {x : Prog F α} (h : x.Hits env v) (f : α → Prog F β) : (x >>= f).Hits env v := by
  rw [bind_eq]
  induction x with
  | ret a => exact h.elim
  | panic p => exact h.elim
  | load l k ih => exact fun x => ih x (h x)
  | store l w k ih => exact h.imp id ih
  | getNext k ih => exact fun x => ih x (h x)
  | setNext w k ih => exact h.imp id ih
  | rand k ih => obtain ⟨u, h1, h2⟩ := h; exact ⟨u, h1, ih u h2⟩
  | path i k ih => obtain ⟨u, h1, h2⟩ := h; exact ⟨u, h1, ih u h2⟩

theorem Hits.right {R : Loc → Prop} {Q : α → Prop} {x : Prog F α} {f : α → Prog F β} (hx : x.Within R Q) (hf : ∀ a, Q a → (f a).Hits env v) : (x >>= f).Hits env v := by
  rw [bind_eq]
  induction x with
  | ret a => exact hf a hx
  | panic p => exact hx.elim
  | load l k ih => exact fun x => ih x (hx.2.2 x)
  | store l w k ih => exact .inr (ih hx.2.2)
  | getNext k ih => exact hx.elim
  | setNext v k ih => exact hx.elim
  | rand k ih => exact hx.elim
  | path id k ih => exact hx.elim

theorem Hits.forFromP {R : Loc → Prop} {lo n i : Nat} {s : σ} {f : Nat → σ → Prog F σ} (hf : ∀ i s, lo ≤ i → i < lo + n → (f i s).Within R (fun _ => True)) (h1 : lo ≤ i) (h2 : i < lo + n)
    (hi : ∀ s, (f i s).Hits env v) : (forFromP lo n s f).Hits env v := by
  induction n generalizing lo s with
  | zero => omega
  | succ n ih =>
    rcases Nat.eq_or_lt_of_le h1 with rfl | h
    · exact Hits.left (hi s) _
    · exact Hits.right (hf lo s (le_refl _) (by omega)) fun s' _ => ih (lo := lo + 1) (fun i s a b => hf i s (by omega) (by omega)) (by omega) (by omega)

theorem Hits.updP (l : Loc) (f : F → F) : (updP l f : Prog F Unit).Hits env (.cell l) := fun _ => .inl rfl

end Prog

/-- a goroutine that comes to a store of `v` can be brought there, the others not moving -/
theorem Pool.hits_reach {env : MemEnv F} (he : env.Total) {v : Var} {x : Prog F Unit} (h : x.Hits env v) (g : Nat) (m : Mem F) (obs wait l r : List (Prog F Unit)) :
    ∃ m' x', Pool.Reach env g ⟨m, obs, wait, l ++ x :: r⟩ ⟨m', obs, wait, l ++ x' :: r⟩ ∧ access x' = some (v, true) := by
  induction x generalizing m with
  | ret a => exact h.elim
  | panic p => exact h.elim
  | load a k ih =>
    obtain ⟨w, hw⟩ := he.cell m a
    obtain ⟨m', x', hr, hx⟩ := ih w (h w) m
    exact ⟨m', x', Pool.Reach.trans (.one (.work _ _ _ _ _ _ (.load m l r a k w hw))) hr, hx⟩
  | store a w k ih =>
    rcases h with rfl | h
    · exact ⟨m, _, .refl, rfl⟩
    · obtain ⟨m', x', hr, hx⟩ := ih h (m.set a w)
      exact ⟨m', x', Pool.Reach.trans (.one (.work _ _ _ _ _ _ (.store m l r a w k))) hr, hx⟩
  | getNext k ih =>
    obtain ⟨w, hw⟩ := he.next m
    obtain ⟨m', x', hr, hx⟩ := ih w (h w) m
    exact ⟨m', x', Pool.Reach.trans (.one (.work _ _ _ _ _ _ (.getNext m l r k w hw))) hr, hx⟩
  | setNext w k ih =>
    rcases h with rfl | h
    · exact ⟨m, _, .refl, rfl⟩
    · obtain ⟨m', x', hr, hx⟩ := ih h { m with next := w }
      exact ⟨m', x', Pool.Reach.trans (.one (.work _ _ _ _ _ _ (.setNext m l r w k))) hr, hx⟩
  | rand k ih =>
    obtain ⟨u, hu, h⟩ := h
    obtain ⟨m', x', hr, hx⟩ := ih u h m
    exact ⟨m', x', Pool.Reach.trans (.one (.work _ _ _ _ _ _ (.rand m l r k u hu))) hr, hx⟩
  | path id k ih =>
    obtain ⟨u, hu, h⟩ := h
    obtain ⟨m', x', hr, hx⟩ := ih u h m
    exact ⟨m', x', Pool.Reach.trans (.one (.work _ _ _ _ _ _ (.path m l r id k u hu))) hr, hx⟩

/-- two workers that both come to a store of `v` race -/
theorem Pool.hits_race' {env : MemEnv F} (he : env.Total) {v : Var} {g : Nat} (hg : 2 ≤ g) (m : Mem F) (obs : List (Prog F Unit)) (ws : List (Prog F Unit)) (i j : Nat) (hij : i < j)
    (x y : Prog F Unit) (hx : ws[i]? = some x) (hy : ws[j]? = some y) (h1 : x.Hits env v) (h2 : y.Hits env v) :
    ∃ s m' x' y', Pool.Reach env g ⟨m, obs, ws, []⟩ s ∧ s = ⟨m', obs, s.wait, [x', y']⟩ ∧ access x' = some (v, true) ∧ access y' = some (v, true) := by
  obtain ⟨hj, rfl⟩ := List.getElem?_eq_some_iff.1 hy
  obtain ⟨hi, rfl⟩ := List.getElem?_eq_some_iff.1 hx
  have e1 : ws = ws.take j ++ ws[j] :: ws.drop (j + 1) := by simp
  have hi' : i < (ws.take j).length := by rw [List.length_take]; omega
  have e2 : ws.take j = (ws.take j).take i ++ (ws.take j)[i] :: (ws.take j).drop (i + 1) := by
    rw [List.getElem_cons_drop, List.take_append_drop]
  have e3 : (ws.take j)[i] = ws[i] := by simp
  rw [e3] at e2
  obtain ⟨m1, x', r1, a1⟩ := Pool.hits_reach he h1 g m obs ((ws.take j).take i ++ ((ws.take j).drop (i + 1) ++ ws.drop (j + 1))) [] [ws[j]]
  obtain ⟨m2, y', r2, a2⟩ := Pool.hits_reach he h2 g m1 obs ((ws.take j).take i ++ ((ws.take j).drop (i + 1) ++ ws.drop (j + 1))) [x'] []
  have q1 : Pool.Step env g ⟨m, obs, ws, []⟩ ⟨m, obs, ws.take j ++ ws.drop (j + 1), [ws[j]]⟩ := by
    have := Pool.Step.acquire (env := env) (g := g) m obs (ws.take j) (ws.drop (j + 1)) [] ws[j] (by simp; omega)
    rwa [← e1] at this
  have q2 : Pool.Step env g ⟨m, obs, ws.take j ++ ws.drop (j + 1), [ws[j]]⟩ ⟨m, obs, (ws.take j).take i ++ ((ws.take j).drop (i + 1) ++ ws.drop (j + 1)), [ws[i], ws[j]]⟩ := by
    have := Pool.Step.acquire (env := env) (g := g) m obs ((ws.take j).take i) ((ws.take j).drop (i + 1) ++ ws.drop (j + 1)) [ws[j]] ws[i] (by simp; omega)
    have e4 : (ws.take j).take i ++ ws[i] :: ((ws.take j).drop (i + 1) ++ ws.drop (j + 1)) = ws.take j ++ ws.drop (j + 1) := by
      conv_rhs => rw [e2]
      simp
    rwa [e4] at this
  exact ⟨_, _, _, _, Pool.Reach.trans (.one q1) (Pool.Reach.trans (.one q2) (Pool.Reach.trans r1 r2)), rfl, a1, a2⟩

theorem Pool.hits_race {env : MemEnv F} (he : env.Total) {v : Var} {g : Nat} (hg : 2 ≤ g) (m : Mem F) (obs : List (Prog F Unit)) (ws : List (Prog F Unit)) (i j : Nat) (hij : i < j)
    (x y : Prog F Unit) (hx : ws[i]? = some x) (hy : ws[j]? = some y) (h1 : x.Hits env v) (h2 : y.Hits env v) :
    ∃ s, Pool.Reach env g ⟨m, obs, ws, []⟩ s ∧ Race (s.obs ++ s.run) v := by
  obtain ⟨s, m', x', y', hr, e, a1, a2⟩ := Pool.hits_race' he hg m obs ws i j hij x y hx hy h1 h2
  exact ⟨s, hr, obs, [], [], x', y', true, true, by rw [e]; simp, a1, a2, .inl rfl⟩

/-! ## GloVe -/

section glove
variable [GoFloat F]

theorem sgdP_hits {env : MemEnv F} (initlr : F) {rows dim : Nat} {l1 l2 : Int} (h1 : 0 ≤ l1 ∧ l1 < rows) (h2 : 0 ≤ l2 ∧ l2 < rows) (f coef : F) :
    (sgdP initlr rows dim l1 l2 f coef).Hits env (.cell (.param l1.toNat dim)) ∧ (sgdP initlr rows dim l1 l2 f coef).Hits env (.cell (.param l2.toNat dim)) := by
  have main : ∀ v, (v = Var.cell (.param l1.toNat dim) ∨ v = Var.cell (.param l2.toNat dim)) → (sgdP initlr rows dim l1 l2 f coef).Hits env v := by
    intro v hv
    unfold sgdP
    refine Hits.right (Within.sliceP (R := fun _ => True) h1) fun a ea => ?_
    refine Hits.right (Within.sliceP (R := fun _ => True) h2) fun b eb => ?_
    subst ea eb
    refine Hits.right (gloveDiffP_within (R := fun _ => True) _ _ _ _ _ _ (fun _ => trivial) (fun _ => trivial)) fun diff _ => ?_
    refine Hits.right (R := fun _ => True) (Within.forP fun i _ _ => ?_) fun _ _ => ?_
    · refine Within.bind (Within.ld trivial (by simp)) fun y _ => Within.bind (Within.ld trivial (by simp)) fun x _ => ?_
      exact Within.bind (Within.updP trivial (by simp) _) fun _ _ => Within.updP trivial (by simp) _
    · rcases hv with rfl | rfl
      · exact Hits.left (Hits.updP _ _) _
      · exact Hits.right (Within.updP (R := fun _ => True) trivial (by simp) _) fun _ _ => Hits.updP _ _
  exact ⟨main _ (.inl rfl), main _ (.inr rfl)⟩

theorem adaP_hits {env : MemEnv F} (initlr : F) {rows dim : Nat} {l1 l2 : Int} (h1 : 0 ≤ l1 ∧ l1 < rows) (h2 : 0 ≤ l2 ∧ l2 < rows) (f coef : F) :
    (adaP initlr rows dim l1 l2 f coef).Hits env (.cell (.param l1.toNat dim)) ∧ (adaP initlr rows dim l1 l2 f coef).Hits env (.cell (.param l2.toNat dim)) := by
  have main : ∀ v, (v = Var.cell (.param l1.toNat dim) ∨ v = Var.cell (.param l2.toNat dim)) → (adaP initlr rows dim l1 l2 f coef).Hits env v := by
    intro v hv
    unfold adaP
    refine Hits.right (Within.sliceP (R := fun _ => True) h1) fun a ea => ?_
    refine Hits.right (Within.sliceP (R := fun _ => True) h2) fun b eb => ?_
    subst ea eb
    refine Hits.right (gloveDiffP_within (R := fun _ => True) _ _ _ _ _ _ (fun _ => trivial) (fun _ => trivial)) fun diff _ => ?_
    refine Hits.right (R := fun _ => True) (Within.forP fun i _ _ => ?_) fun _ _ => ?_
    · refine Within.bind (Within.ld trivial (by simp)) fun y _ => Within.bind (Within.ld trivial (by simp)) fun x _ => ?_
      refine Within.bind (Within.updP trivial (by simp) _) fun _ _ => Within.bind (Within.updP trivial (by simp) _) fun _ _ => ?_
      refine Within.bind (Within.ld trivial (by simp)) fun y _ => Within.bind (Within.ld trivial (by simp)) fun x _ => ?_
      exact Within.bind (Within.updP trivial (by simp) _) fun _ _ => Within.updP trivial (by simp) _
    · refine Hits.right (Within.ld (R := fun _ => True) trivial (by simp)) fun _ _ => ?_
      rcases hv with rfl | rfl
      · exact Hits.left (Hits.updP _ _) _
      · refine Hits.right (Within.updP (R := fun _ => True) trivial (by simp) _) fun _ _ => ?_
        refine Hits.right (Within.ld (R := fun _ => True) trivial (by simp)) fun _ _ => ?_
        exact Hits.left (Hits.updP _ _) _
  exact ⟨main _ (.inl rfl), main _ (.inr rfl)⟩

/-- a goroutine whose slice has an item with the word `w` comes to a store of the bias of `w` -/
theorem gloveWorkerP_hits {env : MemEnv F} (M : GloveModel F) (o : GloveOptions F) (items : List (GItem F)) (hit : ∀ it ∈ items, ItemOK M.corpus.dic.len it) (it : GItem F) (hi : it ∈ items)
    (w : Int) (hw : w = it.l1 ∨ w = it.l2) :
    (gloveWorkerP (M.step o) M.corpus.dic.len items).Hits env (.cell (.param w.toNat o.dim.toNat)) := by
  obtain ⟨k, hk, rfl⟩ := List.mem_iff_getElem.1 hi
  have body : ∀ k, k < items.length → ((ofRes (idx items k) >>= fun it => M.step o it.l1 (it.l2 + M.corpus.dic.len) it.f it.coef >>= fun _ =>
      M.step o (it.l1 + M.corpus.dic.len) it.l2 it.f it.coef) : Prog F Unit).Within (fun _ => True) (fun _ => True) := by
    intro k hk
    rw [idx_of_lt _ _ hk]
    refine Within.bind (Q := fun a => a = items[k]) rfl fun it e => ?_
    subst e
    obtain ⟨a, b, e1, e2, l1, l2⟩ := hit items[k] (by simp)
    have b1 : 0 ≤ items[k].l1 ∧ items[k].l1 < (M.corpus.dic.len * 2 : Nat) := by omega
    have b2 : 0 ≤ items[k].l2 + M.corpus.dic.len ∧ items[k].l2 + M.corpus.dic.len < (M.corpus.dic.len * 2 : Nat) := by omega
    have b3 : 0 ≤ items[k].l1 + M.corpus.dic.len ∧ items[k].l1 + M.corpus.dic.len < (M.corpus.dic.len * 2 : Nat) := by omega
    have b4 : 0 ≤ items[k].l2 ∧ items[k].l2 < (M.corpus.dic.len * 2 : Nat) := by omega
    unfold GloveModel.step
    cases M.gradsq with
    | none => exact Within.bind (sgdP_within _ b1 b2 _ _ (fun _ => trivial) (fun _ => trivial)) fun _ _ => sgdP_within _ b3 b4 _ _ (fun _ => trivial) (fun _ => trivial)
    | some g =>
      exact Within.bind (adaP_within _ b1 b2 _ _ (fun _ => trivial) (fun _ => trivial) (fun _ => trivial) (fun _ => trivial)) fun _ _ =>
        adaP_within _ b3 b4 _ _ (fun _ => trivial) (fun _ => trivial) (fun _ => trivial) (fun _ => trivial)
  unfold gloveWorkerP forP
  refine Hits.forFromP (i := k) (R := fun _ => True) (fun i _ _ h => body i (by omega)) (by omega) (by omega) fun _ => ?_
  rw [idx_of_lt _ _ hk]
  refine Hits.right (R := fun _ => True) (Q := fun a => a = items[k]) rfl fun it e => ?_
  subst e
  obtain ⟨a, b, e1, e2, l1, l2⟩ := hit items[k] (by simp)
  have b1 : 0 ≤ items[k].l1 ∧ items[k].l1 < (M.corpus.dic.len * 2 : Nat) := by omega
  have b2 : 0 ≤ items[k].l2 + M.corpus.dic.len ∧ items[k].l2 + M.corpus.dic.len < (M.corpus.dic.len * 2 : Nat) := by omega
  have b3 : 0 ≤ items[k].l1 + M.corpus.dic.len ∧ items[k].l1 + M.corpus.dic.len < (M.corpus.dic.len * 2 : Nat) := by omega
  have b4 : 0 ≤ items[k].l2 ∧ items[k].l2 < (M.corpus.dic.len * 2 : Nat) := by omega
  unfold GloveModel.step
  cases M.gradsq with
  | none =>
    rcases hw with rfl | rfl
    · exact Hits.left (sgdP_hits _ b1 b2 _ _).1 _
    · exact Hits.right (R := fun _ => True) (sgdP_within _ b1 b2 _ _ (fun _ => trivial) (fun _ => trivial)) fun _ _ => (sgdP_hits _ b3 b4 _ _).2
  | some g =>
    rcases hw with rfl | rfl
    · exact Hits.left (adaP_hits _ b1 b2 _ _).1 _
    · exact Hits.right (R := fun _ => True) (adaP_within _ b1 b2 _ _ (fun _ => trivial) (fun _ => trivial) (fun _ => trivial) (fun _ => trivial)) fun _ _ => (adaP_hits _ b3 b4 _ _).2

end glove

/-- goroutines without common variables do not race -/
theorem AllDisj.no_race {xs : List (Prog F Unit)} (h : AllDisj xs) (v : Var) : ¬ Race xs v := by
  rintro ⟨l, m, r, x, y, a, b, rfl, hx, hy, -⟩
  have := (List.pairwise_append.1 h.disj).2.1
  obtain ⟨R, S, hRS, wx, wy⟩ := (List.pairwise_cons.1 this).1 y (by simp)
  have acc : ∀ (T : Loc → Prop) (z : Prog F Unit) c, z.Within T (fun _ => True) → access z = some (v, c) → ∃ l, v = .cell l ∧ T l := by
    intro T z c hz hz'
    cases z with
    | load l k => cases hz'; exact ⟨l, rfl, hz.1⟩
    | store l w k => cases hz'; exact ⟨l, rfl, hz.1⟩
    | getNext k => exact hz.elim
    | setNext w k => exact hz.elim
    | ret a => cases hz'
    | panic p => cases hz'
    | rand k => cases hz'
    | path i k => cases hz'
  obtain ⟨l1, e1, t1⟩ := acc R x a wx hx
  obtain ⟨l2, e2, t2⟩ := acc S y b wy hy
  rw [e1] at e2
  cases e2
  exact hRS l1 ⟨t1, t2⟩

/-- the invariant: observers have returned, workers have no common variables -/
theorem Pool.allDisj_reach {env : MemEnv F} {g : Nat} {s t : Pool F} (ho : ∀ x ∈ s.obs, x = .ret ()) (h : AllDisj (s.run ++ s.wait)) (hr : Pool.Reach env g s t) :
    (∀ x ∈ t.obs, x = .ret ()) ∧ AllDisj (t.run ++ t.wait) := by
  induction hr with
  | refl => exact ⟨ho, h⟩
  | step a b _ hs ih =>
    obtain ⟨ho, hd⟩ := ih
    cases hs with
    | acquire m obs l r run x hlt =>
      dsimp only at hd ⊢
      have hp : (run ++ (l ++ x :: r)).Perm ((x :: run) ++ (l ++ r)) := by
        rw [List.cons_append, ← List.append_assoc, ← List.append_assoc]
        exact List.perm_middle
      exact ⟨ho, hd.perm hp⟩
    | work m m' obs wait run run' hst =>
      obtain ⟨l, r, x, y, h1, h2, h3⟩ := Sys.step_split hst
      dsimp only at h1 h2 h3 hd ⊢
      subst h1 h2
      have hp : ∀ z : Prog F Unit, ((l ++ z :: r) ++ wait).Perm (z :: (l ++ r ++ wait)) := fun z => List.perm_middle.append_right wait
      exact ⟨ho, (AllDisj.step h3 (hd.perm (hp x))).perm (hp y).symm⟩
    | observe m m' obs obs' wait run hst =>
      obtain ⟨l, r, x, y, h1, h2, h3⟩ := Sys.step_split hst
      dsimp only at h1 ho h3
      have := ho x (by rw [h1]; simp)
      subst this
      cases h3
    | release m obs wait l r =>
      dsimp only at hd ⊢
      have hp : ((l ++ .ret () :: r) ++ wait).Perm (.ret () :: (l ++ r ++ wait)) := List.perm_middle.append_right wait
      have hd' := hd.perm hp
      exact ⟨ho, ⟨fun x hx => hd'.within x (List.mem_cons_of_mem _ hx), (List.pairwise_cons.1 hd'.disj).2⟩⟩

/-- at most `g` workers run -/
theorem Pool.run_le {env : MemEnv F} {g : Nat} {s t : Pool F} (h : s.run.length ≤ g) (hr : Pool.Reach env g s t) : t.run.length ≤ g := by
  induction hr with
  | refl => exact h
  | step a b _ hs ih =>
    cases hs with
    | acquire m obs l r run x hlt => simpa using hlt
    | work m m' obs wait run run' hst =>
      obtain ⟨l, r, x, y, h1, h2, h3⟩ := Sys.step_split hst
      dsimp only at h1 h2 ih ⊢
      subst h1 h2
      simpa using ih
    | observe m m' obs obs' wait run hst => exact ih
    | release m obs wait l r => simp at ih ⊢; omega

theorem race_rets {obs run : List (Prog F Unit)} {v : Var} (ho : ∀ x ∈ obs, x = .ret ()) (h : Race (obs ++ run) v) : Race run v := by
  induction obs with
  | nil => exact h
  | cons x obs ih =>
    refine ih (fun y hy => ho y (by simp [hy])) ?_
    obtain ⟨l, m, r, y, z, a, b, e, hy, hz, hab⟩ := h
    have hx := ho x (by simp)
    subst hx
    cases l with
    | nil =>
      have := (List.cons.inj e).1
      subst this
      cases hy
    | cons c l => exact ⟨l, m, r, y, z, a, b, by simpa using (List.cons.inj e).2, hy, hz, hab⟩

namespace Props
open Wego

/-- the goroutines of one iteration -/
theorem glove_race_iff [GoFloat F] (env : MemEnv F) (he : env.Total) (M : GloveModel F) (o : GloveOptions F) (slices : List (List (GItem F)))
    (hit : ∀ s ∈ slices, ∀ it ∈ s, ItemOK M.corpus.dic.len it) (g : Nat) (m : Mem F) :
    (∃ s v, Pool.Reach env g ⟨m, [(gloveIter M o slices).1], (gloveIter M o slices).2, []⟩ s ∧ Race (s.obs ++ s.run) v) ↔
      2 ≤ g ∧ ∃ (i j : Nat) (a b : List (GItem F)) (x y : GItem F), i < j ∧ slices[i]? = some a ∧ slices[j]? = some b ∧ x ∈ a ∧ y ∈ b ∧
        (x.l1 = y.l1 ∨ x.l1 = y.l2 ∨ x.l2 = y.l1 ∨ x.l2 = y.l2) := by
  constructor
  · rintro ⟨s, v, hr, hrace⟩
    by_cases hd : slices.Pairwise NoSharedWord
    · have := Pool.allDisj_reach (s := ⟨m, [(gloveIter M o slices).1], (gloveIter M o slices).2, []⟩) (by simp [gloveIter])
        (by simpa [gloveIter] using gloveWorkers_disj M o slices hit hd) hr
      have hrun : AllDisj s.run := ⟨fun x hx => this.2.within x (by simp [hx]), (List.pairwise_append.1 this.2.disj).1⟩
      exact absurd (race_rets this.1 hrace) (hrun.no_race v)
    · refine ⟨?_, ?_⟩
      · have hle := Pool.run_le (g := g) (by simp) hr
        have hobs : ∀ x ∈ s.obs, x = .ret () := by
          clear hrace hd hle
          induction hr with
          | refl => simp [gloveIter]
          | step a b _ hs ih =>
            cases hs with
            | observe m m' obs obs' wait run hst =>
              obtain ⟨l, r, x, y, h1, h2, h3⟩ := Sys.step_split hst
              dsimp only at h1 ih h3
              have := ih x (by rw [h1]; simp)
              subst this
              cases h3
            | _ => exact ih
        obtain ⟨l, m, r, y, z, a, b, e, -⟩ := race_rets hobs hrace
        rw [e] at hle
        simp at hle
        omega
      · rw [List.pairwise_iff_getElem] at hd
        push Not at hd
        obtain ⟨i, j, hi, hj, hij, hn⟩ := hd
        unfold NoSharedWord at hn
        push Not at hn
        obtain ⟨x, hx, y, hy, hxy⟩ := hn
        refine ⟨i, j, _, _, x, y, hij, List.getElem?_eq_getElem hi, List.getElem?_eq_getElem hj, hx, hy, ?_⟩
        by_contra hc
        push Not at hc
        exact hc.2.2.2 (hxy hc.1 hc.2.1 hc.2.2.1)
  · rintro ⟨hg, i, j, a, b, x, y, hij, ha, hb, hx, hy, hxy⟩
    obtain ⟨w, hwx, hwy⟩ : ∃ w, (w = x.l1 ∨ w = x.l2) ∧ (w = y.l1 ∨ w = y.l2) := by
      rcases hxy with h | h | h | h
      · exact ⟨x.l1, .inl rfl, .inl h⟩
      · exact ⟨x.l1, .inl rfl, .inr h⟩
      · exact ⟨x.l2, .inr rfl, .inl h⟩
      · exact ⟨x.l2, .inr rfl, .inr h⟩
    obtain ⟨s, hr, hrace⟩ := Pool.hits_race he (v := .cell (.param w.toNat o.dim.toNat)) hg m [(gloveIter M o slices).1] (gloveIter M o slices).2 i j hij _ _
      (by simp [gloveIter, ha]) (by simp [gloveIter, hb])
      (gloveWorkerP_hits M o a (hit a (List.mem_of_getElem? ha)) x hx w hwx) (gloveWorkerP_hits M o b (hit b (List.mem_of_getElem? hb)) y hy w hwy)
    exact ⟨s, _, hr, hrace⟩

/-- **C105 (GloVe).** After the set-up of GloVe's `Train` on a readable document (with at least one word, or in memory), in every iteration - from any memory - a data race can be reached exactly when
`Goroutines` is at least 2 and the items of two goroutines have a word in common. Whatever racing loads return. -/
theorem C105_glove [GoMath F] (env : MemEnv F) (he : env.Total) (lower : Word → Word) (enum : GoMap (BitVec 64) F → List (BitVec 64 × F)) (henum : ∀ m, (enum m).Perm m) (r : σ → F × σ) (o : GloveOptions F)
    (hwin : o.docInMemory = true ∨ 1 ≤ o.window) (p : Pass) (ws : List Word) (h : Readable p ws) (hne : o.docInMemory = true ∨ ws ≠ []) (hdic : (ws.map (o.corpus lower).norm).dedup.length ≤ 2 ^ 32)
    (s s' : σ) (M : GloveModel F) (hM : gloveSetup lower r o p p s = .ok (M, s')) (slices : List (List (GItem F))) (hs : gloveSlices M o enum = .ok slices) (m : Mem F) :
    (∃ s v, Pool.Reach env o.goroutines.toNat ⟨m, [(gloveIter M o slices).1], (gloveIter M o slices).2, []⟩ s ∧ Race (s.obs ++ s.run) v) ↔
      2 ≤ o.goroutines ∧ ∃ (i j : Nat) (a b : List (GItem F)) (x y : GItem F), i < j ∧ slices[i]? = some a ∧ slices[j]? = some b ∧ x ∈ a ∧ y ∈ b ∧
        (x.l1 = y.l1 ∨ x.l1 = y.l2 ∨ x.l2 = y.l1 ∨ x.l2 = y.l2) := by
  have hit := gloveSlices_ok lower r o hwin p ws h hne hdic s s' M hM enum henum slices hs
  rw [glove_race_iff env he M o slices hit]
  have : 2 ≤ o.goroutines.toNat ↔ 2 ≤ o.goroutines := by omega
  rw [this]

/-! ## word2vec and LexVec -/

section
variable [GoFloat F] {env : MemEnv F}

theorem nextRandomP_hits (value : Int) : (nextRandomP value : Prog F Int).Hits env .next := fun _ => .inl rfl

/-- the subsampler accepts the word `id` for some number the random generator may return -/
def MayTrain (env : MemEnv F) (samples : List F) (id : Nat) : Prop := ∃ u, env.rand u ∧ trial samples id u = .ok true

theorem first_turn_hits (samples : List F) (doc : List Nat) (id : Nat) (hd : doc[0]? = some id) (hm : MayTrain env samples id) (f : Nat → Prog F Unit) (hf : (f 0).Hits env .next) :
    (forP doc.length () (fun pos _ => ofRes (idx doc pos) >>= fun id => trialP samples id >>= fun ok => if ok then f pos else .ret ())).Hits env .next := by
  obtain ⟨hlt, e⟩ := List.getElem?_eq_some_iff.1 hd
  obtain ⟨n, hn⟩ : ∃ n, doc.length = n + 1 := ⟨doc.length - 1, by omega⟩
  rw [hn]
  unfold forP forFromP
  refine Hits.left ?_ _
  rw [idx_of_lt _ _ hlt, e]
  obtain ⟨u, hu, ht⟩ := hm
  refine ⟨u, hu, ?_⟩
  show Prog.Hits env .next (Prog.bind (ofRes (trial samples (id : Int) u)) _)
  rw [ht]
  exact hf

/-- **C105 (the shared generator).** An iteration of word2vec (skip-gram or CBOW, either optimizer) with `Goroutines` at least 2: whenever two pieces of the document are not empty and their first words may
pass the subsampler, the goroutines race on the random generator's state. -/
theorem C105_word2vec_generator (he : env.Total) (M : W2VModel F) (o : W2VOptions F) (docs : List (List Nat)) (hg : 2 ≤ o.goroutines) (i j : Nat) (hij : i < j) (a b : List Nat) (x y : Nat)
    (ha : docs[i]? = some a) (hb : docs[j]? = some b) (hx : a[0]? = some x) (hy : b[0]? = some y) (tx : MayTrain env M.samples x) (ty : MayTrain env M.samples y)
    (m : Mem F) (obs : List (Prog F Unit)) :
    ∃ s, Pool.Reach env o.goroutines.toNat ⟨m, (w2vRound M o docs).1 :: obs, (w2vRound M o docs).2, []⟩ s ∧ Race s.run .next := by
  have hits : ∀ d w, d[0]? = some w → MayTrain env M.samples w →
      (w2vWorkerP (M.shared o M.table) M.skipGram (M.kind.prog (M.shared o M.table)) d).Hits env .next := by
    intro d w hw tw
    refine first_turn_hits _ d w hw tw _ ?_
    intro lr
    unfold w2vTrainOneP
    split
    · exact Hits.left (Hits.left (nextRandomP_hits _) _) _
    · exact Hits.left (Hits.left (Hits.left (nextRandomP_hits _) _) _) _
  obtain ⟨s, m', x', y', hr, e, a1, a2⟩ := Pool.hits_race' he (v := .next) (g := o.goroutines.toNat) (by omega) m ((w2vRound M o docs).1 :: obs) (w2vRound M o docs).2 i j hij _ _
    (by simp [w2vRound, ha]) (by simp [w2vRound, hb]) (hits a x hx tx) (hits b y hy ty)
  exact ⟨s, hr, [], [], [], x', y', true, true, by rw [e]; rfl, a1, a2, .inl rfl⟩

/-- **C105 (the shared generator, LexVec).** -/
theorem C105_lexvec_generator (he : env.Total) (M : LexModel F) (o : LexvecOptions F) (docs : List (List Nat)) (hg : 2 ≤ o.goroutines) (i j : Nat) (hij : i < j) (a b : List Nat) (x y : Nat)
    (ha : docs[i]? = some a) (hb : docs[j]? = some b) (hx : a[0]? = some x) (hy : b[0]? = some y) (tx : MayTrain env M.samples x) (ty : MayTrain env M.samples y)
    (m : Mem F) (obs : List (Prog F Unit)) :
    ∃ s, Pool.Reach env o.goroutines.toNat ⟨m, (lexRound M o docs).1 :: obs, (lexRound M o docs).2, []⟩ s ∧ Race s.run .next := by
  have hits : ∀ d w, d[0]? = some w → MayTrain env M.samples w → (lexWorkerP (M.shared o) d).Hits env .next := by
    intro d w hw tw
    exact first_turn_hits _ d w hw tw _ (Hits.left (nextRandomP_hits _) _)
  obtain ⟨s, m', x', y', hr, e, a1, a2⟩ := Pool.hits_race' he (v := .next) (g := o.goroutines.toNat) (by omega) m ((lexRound M o docs).1 :: obs) (lexRound M o docs).2 i j hij _ _
    (by simp [lexRound, ha]) (by simp [lexRound, hb]) (hits a x hx tx) (hits b y hy ty)
  exact ⟨s, hr, [], [], [], x', y', true, true, by rw [e]; rfl, a1, a2, .inl rfl⟩

theorem OnlyRate.bind {x : Prog F α} {f : α → Prog F β} (hx : OnlyRate x) (hf : ∀ a, OnlyRate (f a)) : OnlyRate (x >>= f) := by
  rw [bind_eq]
  induction x with
  | ret a => exact hf a
  | panic p => trivial
  | load l k ih => exact ⟨hx.1, fun v => ih v (hx.2 v)⟩
  | store l v k ih => exact ⟨hx.1, ih hx.2⟩
  | getNext k ih => exact hx.elim
  | setNext v k ih => exact hx.elim
  | rand k ih => exact hx.elim
  | path id k ih => exact hx.elim

theorem OnlyRate.forFromP {lo n : Nat} {s : σ} {f : Nat → σ → Prog F σ} (hf : ∀ i s, OnlyRate (f i s)) : OnlyRate (forFromP lo n s f) := by
  induction n generalizing lo s with
  | zero => trivial
  | succ n ih => exact OnlyRate.bind (hf lo s) fun s' => ih

theorem observerP_onlyRate (cfg : LrCfg F) (n : Nat) : OnlyRate (observerP cfg n) := by
  refine OnlyRate.forFromP fun i _ => ?_
  refine OnlyRate.bind ?_ fun due => ?_
  · cases lrDue cfg (i + 1) <;> trivial
  · cases due with
    | false => trivial
    | true => exact ⟨rfl, fun _ => ⟨rfl, trivial⟩⟩

theorem OnlyRate.step {x y : Prog F Unit} {m m' : Mem F} (hs : PStep env x m y m') (h : OnlyRate x) : OnlyRate y := by
  cases hs with
  | load m x k v hv => exact h.2 v
  | store m x v k => exact h.2
  | getNext m k v hv => exact h.elim
  | setNext m v k => exact h.elim
  | rand m k v hv => exact h.elim
  | path m id k p hv => exact h.elim

theorem OnlyRate.access {x : Prog F Unit} (h : OnlyRate x) {v : Var} {a : Bool} (ha : access x = some (v, a)) : v = .cell .lr := by
  cases x with
  | load l k => cases ha; rw [h.1]
  | store l w k => cases ha; rw [h.1]
  | getNext k => exact h.elim
  | setNext w k => exact h.elim
  | ret a => cases ha
  | panic p => cases ha
  | rand k => cases ha
  | path i k => cases ha

/-- observers stay observers -/
theorem Pool.onlyRate_reach {g : Nat} {s t : Pool F} (ho : ∀ x ∈ s.obs, OnlyRate x) (hr : Pool.Reach env g s t) : ∀ x ∈ t.obs, OnlyRate x := by
  induction hr with
  | refl => exact ho
  | step a b _ hs ih =>
    cases hs with
    | acquire m obs l r run x hlt => exact ih
    | work m m' obs wait run run' hst => exact ih
    | observe m m' obs obs' wait run hst =>
      obtain ⟨l, r, x, y, h1, h2, h3⟩ := Sys.step_split hst
      dsimp only at h1 h2 ih h3 ⊢
      subst h1 h2
      intro z hz
      simp only [List.mem_append, List.mem_cons] at hz
      rcases hz with hz | rfl | hz
      · exact ih z (by simp [hz])
      · exact OnlyRate.step h3 (ih x (by simp))
      · exact ih z (by simp [hz])
    | release m obs wait l r => exact ih

theorem one_worker_race {g : Nat} (hg : g ≤ 1) (m : Mem F) (obs ws : List (Prog F Unit)) (ho : ∀ x ∈ obs, OnlyRate x) (s : Pool F) (h : Pool.Reach env g ⟨m, obs, ws, []⟩ s) :
    (∀ x ∈ s.obs, OnlyRate x) ∧ ∀ v, Race (s.obs ++ s.run) v → v = .cell .lr := by
  have ho' := Pool.onlyRate_reach ho h
  refine ⟨ho', ?_⟩
  rintro v ⟨l, mid, r, x, y, a, b, e, hx, hy, -⟩
  have hle := Pool.run_le (g := g) (by simp) h
  have hmem : x ∈ s.obs := by
    by_contra hn
    have hlen := congrArg List.length e
    simp only [List.length_append, List.length_cons] at hlen
    have : l.length < s.obs.length := by omega
    have hget : (s.obs ++ s.run)[l.length]? = some x := by rw [e]; simp
    rw [List.getElem?_append_left this] at hget
    exact hn (List.mem_of_getElem? hget)
  exact OnlyRate.access (ho' x hmem) hx

/-- **C105 (one goroutine).** With `Goroutines` at most 1, word2vec: in every schedule of an iteration, whatever observers of earlier iterations still run, the only variable on which a data race can occur is the
learning rate; and observers never access anything else (so those still running when `Train` returns cannot race with `Save` or `WordVector`). -/
theorem C105_word2vec_one_goroutine (M : W2VModel F) (o : W2VOptions F) (docs : List (List Nat)) (hg : o.goroutines ≤ 1) (m : Mem F) (obs : List (Prog F Unit)) (ho : ∀ x ∈ obs, OnlyRate x) (s : Pool F)
    (h : Pool.Reach env o.goroutines.toNat ⟨m, (w2vRound M o docs).1 :: obs, (w2vRound M o docs).2, []⟩ s) :
    (∀ x ∈ s.obs, OnlyRate x) ∧ ∀ v, Race (s.obs ++ s.run) v → v = .cell .lr :=
  one_worker_race (by omega) m _ _ (by
    intro x hx
    rcases List.mem_cons.1 hx with rfl | hx
    · exact observerP_onlyRate _ _
    · exact ho x hx) s h

/-- **C105 (one goroutine, LexVec).** -/
theorem C105_lexvec_one_goroutine (M : LexModel F) (o : LexvecOptions F) (docs : List (List Nat)) (hg : o.goroutines ≤ 1) (m : Mem F) (obs : List (Prog F Unit)) (ho : ∀ x ∈ obs, OnlyRate x) (s : Pool F)
    (h : Pool.Reach env o.goroutines.toNat ⟨m, (lexRound M o docs).1 :: obs, (lexRound M o docs).2, []⟩ s) :
    (∀ x ∈ s.obs, OnlyRate x) ∧ ∀ v, Race (s.obs ++ s.run) v → v = .cell .lr :=
  one_worker_race (by omega) m _ _ (by
    intro x hx
    rcases List.mem_cons.1 hx with rfl | hx
    · exact observerP_onlyRate _ _
    · exact ho x hx) s h

/-- **C105 (the learning rate).** That race occurs: with any number `g` of goroutines (also one), whenever an update is due after `n` words there is a schedule in which the observer is about to store the new
rate while a worker may read the rate for the next word - both orders are possible next. -/
theorem C105_rate_race (cfg : LrCfg F) (g : Nat) (hg : 1 ≤ g) (r0 : F) (n : Nat) (hn : 1 ≤ n) (hd : lrDue cfg n = .ok true) :
    ∃ s v, LagRun cfg g r0 s ∧ s.sent = n ∧ s.started = n ∧ s.obs = .pend v ∧
      LagStep cfg g s { s with started := n + 1, used := s.used ++ [some s.lr] } ∧ LagStep cfg g s { s with lr := v, obs := .idle } := by
  have hb : cfg.updateLRBatch ≠ 0 := by
    intro hb
    simp [lrDue, hb] at hd
  have key : ∀ k, ∃ x u, LagRun cfg g r0 ⟨x, k, k, .idle, u⟩ := by
    intro k
    induction k with
    | zero => exact ⟨r0, [], .init⟩
    | succ k ih =>
      obtain ⟨x, u, h⟩ := ih
      have h1 := LagRun.step _ _ h (LagStep.read (cfg := cfg) (g := g) _ (by dsimp only; omega))
      have h2 := LagRun.step _ _ h1 (LagStep.send _ (by dsimp only; omega) rfl)
      cases hdue : (decide (cfg.updateLRBatch ∣ ((k + 1 : Nat) : Int))) with
      | false => exact ⟨_, _, LagRun.step _ _ h2 (LagStep.noUpdate _ rfl (by rw [lrDue_ok hb, hdue]))⟩
      | true =>
        have h3 := LagRun.step _ _ h2 (LagStep.compute _ rfl (by rw [lrDue_ok hb, hdue]))
        exact ⟨_, _, LagRun.step _ _ h3 (LagStep.store _ _ rfl)⟩
  obtain ⟨k, rfl⟩ : ∃ k, n = k + 1 := ⟨n - 1, by omega⟩
  obtain ⟨x, u, h⟩ := key k
  have h1 := LagRun.step _ _ h (LagStep.read (cfg := cfg) (g := g) _ (by dsimp only; omega))
  have h2 := LagRun.step _ _ h1 (LagStep.send _ (by dsimp only; omega) rfl)
  have h3 := LagRun.step _ _ h2 (LagStep.compute _ rfl hd)
  exact ⟨_, _, h3, rfl, rfl, rfl, LagStep.read _ (by dsimp only; omega), LagStep.store _ _ rfl⟩

/-! ## The hypotheses are met -/

/-- The corpus `a b c`, window 1, `Goroutines(2)` (the run of `C91_refuted`): the pairs `a b` and `b c` go to different goroutines, which race. With `Goroutines(1)` nothing races, on any corpus. -/
example (lib : LibM) (hlog : lib.log (GoFloat.ofRat 1) = fzero) : letI := lib.math
    ∃ (M : GloveModel F64) (s' : Nat) (slices : List (List (GItem F64))), gloveSetup id raceRand raceOptions racePass racePass 0 = .ok (M, s') ∧ gloveSlices M raceOptions id = .ok slices ∧
      ∃ s v, Pool.Reach (MemEnv.sc (fun _ => True) (fun _ q => q = [])) raceOptions.goroutines.toNat ⟨M.mem 0, [(gloveIter M raceOptions slices).1], (gloveIter M raceOptions slices).2, []⟩ s ∧
        Race (s.obs ++ s.run) v := by
  let _ := lib.math
  have h := raceChk_ok
  unfold raceChk at h
  split at h
  swap
  · cases h
  next M s' hM =>
  obtain ⟨h1, h2, h3, h4⟩ := of_decide_eq_true h
  obtain ⟨co, hco⟩ : ∃ co, M.corpus.cooc = some co := by
    cases hc : M.corpus.cooc with
    | none => rw [hc] at h4; cases h4
    | some co => exact ⟨co, rfl⟩
  rw [hco] at h4
  have h4 : co.encodedMatrix = [(encodeBigram 0 1, GoFloat.ofRat 1), (encodeBigram 1 2, GoFloat.ofRat 1)] := Option.some.inj h4
  have hitems : gloveItems raceOptions.xmax raceOptions.alpha co.encodedMatrix = [raceItem 0, raceItem 1] := by
    rw [h4]
    unfold gloveItems gloveItem
    have hl : GoFloat.lt (GoFloat.ofRat 1 : F64) (GoFloat.ofRat ((raceOptions.xmax : Int) : ℚ)) = false := by decide +kernel
    simp only [List.map_cons, List.map_nil, hl, Bool.false_eq_true, if_false]
    have d1 : (decodeBigram (encodeBigram 0 1)).1.toInt = 0 ∧ (decodeBigram (encodeBigram 0 1)).2.toInt = 1 := by decide
    have d2 : (decodeBigram (encodeBigram 1 2)).1.toInt = 1 ∧ (decodeBigram (encodeBigram 1 2)).2.toInt = 2 := by decide
    have hlog' : GoMath.log (GoFloat.ofRat 1 : F64) = fzero := hlog
    rw [d1.1, d1.2, d2.1, d2.2, hlog']
    rfl
  have hs : gloveSlices M raceOptions id = .ok [[raceItem 0], [raceItem 1]] := by
    unfold gloveSlices
    rw [hco]
    dsimp only [id]
    rw [hitems]
    have hi : indexPerThread raceOptions.goroutines [raceItem 0, raceItem 1].length = .ok [0, 1, 2] := by decide +kernel
    rw [hi, Res.ok_bind]
    rfl
  refine ⟨M, s', _, hM, hs, ?_⟩
  refine (C105_glove (F := F64) _ (MemEnv.sc_total ⟨fzero, trivial⟩ (fun _ => [])) id id (fun _ => List.Perm.refl _) raceRand raceOptions (.inl rfl) racePass [['a'], ['b'], ['c']]
    ⟨isWords_fields ['a', ' ', 'b', ' ', 'c'], rfl, by decide⟩ (.inl rfl) ?_ 0 s' M hM _ hs (M.mem 0)).2 ?_
  · rw [show ([['a'], ['b'], ['c']].map (raceOptions.corpus id).norm).dedup.length = 3 from (by decide : ([['a'], ['b'], ['c']].map id).dedup.length = 3)]; omega
  · exact ⟨by decide, 0, 1, [raceItem 0], [raceItem 1], raceItem 0, raceItem 1, by omega, rfl, rfl, by simp, by simp, .inr (.inr (.inl rfl))⟩

/-- Two goroutines, each with a piece of the document whose words may be trained. -/
example (M : W2VModel ℝ) (hs : M.samples = [1 / 2, 1 / 2]) (m : Mem ℝ) :=
  C105_word2vec_generator (env := MemEnv.sc (fun u => 0 ≤ u ∧ u < 1) (fun _ q => q = [])) (MemEnv.sc_total ⟨0, by norm_num⟩ (fun _ => [])) M { W2VOptions.default 2 with goroutines := 2 } [[0, 1], [1, 0]] (by decide)
    0 1 (by omega) [0, 1] [1, 0] 0 1 rfl rfl rfl rfl ⟨0, ⟨le_refl _, zero_lt_one⟩, by simp [hs, trial, idxI, idx]⟩ ⟨0, ⟨le_refl _, zero_lt_one⟩, by simp [hs, trial, idxI, idx]⟩ m []
example (M : LexModel ℝ) (hs : M.samples = [1 / 2, 1 / 2]) (m : Mem ℝ) :=
  C105_lexvec_generator (env := MemEnv.sc (fun u => 0 ≤ u ∧ u < 1) (fun _ q => q = [])) (MemEnv.sc_total ⟨0, by norm_num⟩ (fun _ => [])) M { LexvecOptions.default 2 with goroutines := 2 } [[0, 1], [1, 0]] (by decide)
    0 1 (by omega) [0, 1] [1, 0] 0 1 rfl rfl rfl rfl ⟨0, ⟨le_refl _, zero_lt_one⟩, by simp [hs, trial, idxI, idx]⟩ ⟨0, ⟨le_refl _, zero_lt_one⟩, by simp [hs, trial, idxI, idx]⟩ m []

/-- One goroutine; one observer of the iteration and one left over from an earlier iteration. -/
example (M : W2VModel ℝ) (m : Mem ℝ) (cfg : LrCfg ℝ) (env : MemEnv ℝ) (s : Pool ℝ) (h : Pool.Reach env 1 _ s) :=
  C105_word2vec_one_goroutine (env := env) M { W2VOptions.default 2 with goroutines := 1 } [[0, 1, 0]] (by decide) m [observerP cfg 5] (by simpa using observerP_onlyRate cfg 5) s h
example (M : LexModel ℝ) (m : Mem ℝ) (cfg : LrCfg ℝ) (env : MemEnv ℝ) (s : Pool ℝ) (h : Pool.Reach env 1 _ s) :=
  C105_lexvec_one_goroutine (env := env) M { LexvecOptions.default 2 with goroutines := 1 } [[0, 1, 0]] (by decide) m [observerP cfg 5] (by simpa using observerP_onlyRate cfg 5) s h

/-- An update is due after 20 words when `UpdateLRBatch` is 10. -/
example (r0 : ℝ) := C105_rate_race (⟨1/40, 1/100, 10, 100⟩ : LrCfg ℝ) 1 (by omega) r0 20 (by omega) (by decide)

end
end Props
end Wego
