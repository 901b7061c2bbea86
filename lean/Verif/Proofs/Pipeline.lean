import Verif.Model.TrainCmd
import Verif.Proofs.PoolSeq
import Verif.Proofs.Terminate
import Verif.Props.Interleave
import Verif.Props.Query
import Verif.Props.Cmd

/-! # Lemmas on whole runs -/

namespace Wego
open Props Spec
variable {F : Type}

/-- every goroutine of the pool is `Ok` -/
def Pool.AllOk (env : MemEnv F) (W : Loc → Prop) (np : Panic → Prop) (s : Pool F) : Prop :=
  ∀ t ∈ s.obs ++ s.wait ++ s.run, t.Ok env W np (fun _ => True)

theorem Pool.step_ok {env : MemEnv F} {g : Nat} {W : Loc → Prop} {np : Panic → Prop} {s t : Pool F} (h0 : s.AllOk env W np) (h : Pool.Step env g s t) : t.AllOk env W np := by
  unfold Pool.AllOk at *
  cases h with
  | acquire m obs l r run x h =>
    intro t ht
    apply h0 t
    simp only [List.mem_append, List.mem_cons] at ht ⊢
    tauto
  | work m m' obs wait run run' h =>
    have := (Sys.reach_ok (s₀ := ⟨m, run⟩) (fun t ht => h0 t (by simp; tauto)) (.step _ _ .refl h)).1
    intro t ht
    simp only [List.mem_append] at ht h0
    rcases ht with ht | ht
    · exact h0 t (.inl ht)
    · exact this t ht
  | observe m m' obs obs' wait run h =>
    have := (Sys.reach_ok (s₀ := ⟨m, obs⟩) (fun t ht => h0 t (by simp; tauto)) (.step _ _ .refl h)).1
    intro t ht
    simp only [List.mem_append] at ht h0
    rcases ht with (ht | ht) | ht
    · exact this t ht
    · exact h0 t (.inl (.inr ht))
    · exact h0 t (.inr ht)
  | release m obs wait l r =>
    intro t ht
    apply h0 t
    simp only [List.mem_append, List.mem_cons] at ht ⊢
    tauto

theorem Pool.reach_ok {env : MemEnv F} {g : Nat} {W : Loc → Prop} {np : Panic → Prop} {s t : Pool F} (h0 : s.AllOk env W np) (h : Pool.Reach env g s t) : t.AllOk env W np := by
  induction h with
  | refl => exact h0
  | step s t _ hs ih => exact Pool.step_ok ih hs

/-- Every panic that can end an iteration is one of those allowed. -/
theorem Pool.panics {env : MemEnv F} {g : Nat} {W : Loc → Prop} {np : Panic → Prop} {x : Panic} {m : Mem F} {obs : List (Prog F Unit)}
    {rounds : List (Prog F Unit × List (Prog F Unit))} (hobs : ∀ t ∈ obs, t.Ok env W np (fun _ => True))
    (hr : ∀ q ∈ rounds, q.1.Ok env W np (fun _ => True) ∧ ∀ t ∈ q.2, t.Ok env W np (fun _ => True)) :
    Pool.ItersPanic env g x m obs rounds → np x := by
  intro h
  have start : ∀ (m : Mem F) (obs : List (Prog F Unit)) (ob : Prog F Unit) (ws : List (Prog F Unit)) (rest : List (Prog F Unit × List (Prog F Unit))),
      (∀ t ∈ obs, t.Ok env W np (fun _ => True)) →
      (∀ q ∈ (ob, ws) :: rest, q.1.Ok env W np (fun _ => True) ∧ ∀ t ∈ q.2, t.Ok env W np (fun _ => True)) →
      (⟨m, ob :: obs, ws, []⟩ : Pool F).AllOk env W np := by
    intro m obs ob ws rest h1 h2 t ht
    have h3 := h2 _ List.mem_cons_self
    simp only [List.append_nil, List.mem_append, List.mem_cons] at ht
    rcases ht with (rfl | ht) | ht
    · exact h3.1
    · exact h1 t ht
    · exact h3.2 t ht
  induction h with
  | here m obs ob ws rest s h hs =>
    have := Pool.reach_ok (start m obs ob ws rest hobs hr) h (.panic x) (by
      unfold Pool.Panicked at hs
      simp only [List.mem_append] at hs ⊢
      tauto)
    exact this
  | later m m' obs obs' ob ws rest h _ ih =>
    refine ih ?_ (fun q hq => hr q (List.mem_cons_of_mem _ hq))
    intro t ht
    exact Pool.reach_ok (start m obs ob ws rest hobs hr) h t (by simpa using ht)

/-- If no panic is allowed, none happens. -/
theorem Pool.no_panic {env : MemEnv F} {g : Nat} {W : Loc → Prop} {x : Panic} {m : Mem F} {obs : List (Prog F Unit)}
    {rounds : List (Prog F Unit × List (Prog F Unit))} (hobs : ∀ t ∈ obs, t.Ok env W (fun _ => False) (fun _ => True))
    (hr : ∀ q ∈ rounds, q.1.Ok env W (fun _ => False) (fun _ => True) ∧ ∀ t ∈ q.2, t.Ok env W (fun _ => False) (fun _ => True)) :
    ¬ Pool.ItersPanic env g x m obs rounds := Pool.panics hobs hr

/-- a list without duplicates whose elements come from `l` is no longer than `l` -/
theorem length_le_of_nodup_sub {α : Type} {a l : List α} (h : a.Nodup) (hs : ∀ x ∈ a, x ∈ l) : a.length ≤ l.length :=
  (List.subperm_of_subset h hs).length_le

/-- the counter of `Add` calls on ids below `n` has at most `n*n` entries -/
theorem cooc_size [GoFloat F] (typ : String) (calls : List (Nat × Nat)) (n : Nat) (hc : ∀ q ∈ calls, q.1 < n ∧ q.2 < n) (co : Cooccurrence F)
    (h : cooCalls typ calls = .ok co) : co.encodedMatrix.length ≤ n * n := by
  unfold cooCalls at h
  rw [Res.bind_eq_ok] at h
  obtain ⟨c0, h0, h1⟩ := h
  have e0 : c0.ma = [] := by
    unfold Cooccurrence.new at h0
    split at h0
    · cases h0
    · cases h0; rfl
  obtain ⟨k1, k2⟩ := addPairs_keys calls c0 co h1 (by rw [e0]; exact GoMap.wf_empty)
  have : (co.ma.map Prod.fst).length ≤ (((List.range n).flatMap fun a => (List.range n).map fun b => (a, b)).map pairKey).length := by
    refine length_le_of_nodup_sub k1 fun k hk => ?_
    rcases (k2 k).1 hk with h | ⟨q, hq, rfl⟩
    · rw [e0] at h; simp at h
    · obtain ⟨a, b⟩ := hc q hq
      refine List.mem_map.2 ⟨q, ?_, rfl⟩
      simp only [List.mem_flatMap, List.mem_map, List.mem_range]
      exact ⟨q.1, a, q.2, b, rfl⟩
  simpa [Cooccurrence.encodedMatrix, List.length_flatMap] using this

/-- verbose logging does not change a text that `Save` writes -/
theorem saveText_verbose {dic : Dictionary} {ws : List Word} (hd : dic.Rep ws) {mat : Matrix F64} {c : Nat}
    (hm : mat.Shaped (firstOcc ws).length c) (v : Bool) (lb : Int) (text : List Char) (h : saveText dic mat v lb = .ok text) :
    saveText dic mat false 0 = .ok text := by
  by_cases hv : v = true ∧ lb = 0
  · obtain ⟨rfl, rfl⟩ := hv
    by_cases hne : dic.len = 0
    · unfold saveText at h ⊢
      split at h
      · cases h
      · next hrow =>
        rw [if_neg hrow]
        rw [hne] at h ⊢
        exact h
    · exfalso
      unfold saveText at h
      split at h
      · cases h
      · obtain ⟨n, hn⟩ := Nat.exists_eq_succ_of_ne_zero hne
        have hl : dic.len = (firstOcc ws).length := hd.maxid
        unfold forN at h
        rw [hn, forFrom_succ, Res.bind_eq_ok] at h
        obtain ⟨b, hb, _⟩ := h
        unfold saveWord at hb
        rw [Res.bind_eq_ok] at hb
        obtain ⟨w, _, hb⟩ := hb
        rw [Res.bind_eq_ok] at hb
        obtain ⟨b', _, hb⟩ := hb
        simp at hb
  · rw [saveText_eq hd hm v lb hv] at h
    rw [saveText_eq hd hm false 0 (by simp), h]

/-- words of a text are non-empty and without spaces, and so are their normalised forms -/
theorem norm_words {p : Pass} {ws : List Word} (h : Readable p ws) (cfg : CorpusCfg)
    (hlow : ∀ w : Word, w ≠ [] → (∀ c ∈ w, isSpace c = false) → cfg.lower w ≠ [] ∧ ∀ c ∈ cfg.lower w, isSpace c = false) :
    ∀ w ∈ ws.map cfg.norm, w ≠ [] ∧ ∀ c ∈ w, isSpace c = false := by
  intro w hw
  obtain ⟨u, hu, rfl⟩ := List.mem_map.1 hw
  have h1 : u ≠ [] := h.ne_nil u hu
  have h2 : ∀ c ∈ u, isSpace c = false := by
    have := h.words.eq_fields
    rw [this] at hu
    exact fields_nospace _ u hu
  unfold CorpusCfg.norm
  split
  · exact hlow u h1 h2
  · exact ⟨h1, h2⟩

/-! ## Every schedule of a pool ends -/

theorem PoolSub.length {s t : List (Prog F Unit)} (h : PoolSub t s) : t.length = s.length := by
  cases h with
  | mk l r x y _ => simp

/-- there is no infinite schedule of the goroutines of an iteration -/
theorem Pool.no_infinite {env : MemEnv F} {g : Nat} (f : Nat → Pool F) : ¬ ∀ n, Pool.Step env g (f n) (f (n + 1)) := by
  intro h
  have key : ∀ n, ∀ os : List (Prog F Unit), ∀ k, ∀ rs : List (Prog F Unit), ∀ i, (f i).wait.length = n → (f i).obs = os → (f i).run.length = k →
      (f i).run = rs → False := by
    intro n
    induction n using Nat.strong_induction_on with
    | _ n ihn =>
      intro os
      induction acc_pool os with
      | intro os _ iho =>
        intro k
        induction k using Nat.strong_induction_on with
        | _ k ihk =>
          intro rs
          induction acc_pool rs with
          | intro rs _ ihr =>
            intro i h1 h2 h3 h4
            have hs := h i
            generalize e1 : f i = s at hs h1 h2 h3 h4
            generalize e2 : f (i + 1) = t at hs
            cases hs with
            | acquire m obs l r run x hlt =>
              refine ihn (f (i + 1)).wait.length ?_ _ _ _ (i + 1) rfl rfl rfl rfl
              rw [e2, ← h1]; simp
            | work m m' obs wait run run' hw =>
              have := Sys.step_pool hw
              dsimp only at this h1 h2 h3 h4
              subst h4
              refine ihr run' this (i + 1) (by rw [e2]; exact h1) (by rw [e2]; exact h2) (by rw [e2]; exact this.length.trans h3) (by rw [e2])
            | observe m m' obs obs' wait run hw =>
              have := Sys.step_pool hw
              dsimp only at this h1 h2
              subst h2
              exact iho obs' this _ _ (i + 1) (by rw [e2]; exact h1) (by rw [e2]) rfl rfl
            | release m obs wait l r =>
              dsimp only at h1 h2 h3
              refine ihk (f (i + 1)).run.length ?_ _ (i + 1) (by rw [e2]; exact h1) (by rw [e2]; exact h2) rfl rfl
              rw [e2, ← h3]; simp
  exact key _ _ _ _ 0 rfl rfl rfl rfl

/-- an iteration that cannot move any more has finished (every worker has released the semaphore) or panicked -/
theorem Pool.progress {env : MemEnv F} (he : env.Total) {g : Nat} (hg : 1 ≤ g) (s : Pool F) (h : ∀ t, ¬ Pool.Step env g s t) :
    (s.wait = [] ∧ s.run = []) ∨ ∃ x, s.Panicked x := by
  obtain ⟨m, obs, wait, run⟩ := s
  by_cases hc : ∃ x, Prog.panic x ∈ run
  · obtain ⟨x, hx⟩ := hc
    exact .inr ⟨x, by simp [Pool.Panicked, hx]⟩
  · have hd : run = [] := by
      rcases Sys.progress he ⟨m, run⟩ (fun t hst => h _ (.work m t.mem obs wait run t.threads hst)) with h1 | h1
      · cases run with
        | nil => rfl
        | cons a run =>
          have := h1 a (by simp)
          subst this
          exact absurd (.release m obs wait [] run) (h _)
      · exact absurd h1 hc
    subst hd
    cases wait with
    | nil => exact .inl ⟨rfl, rfl⟩
    | cons x wait => exact absurd (.acquire m obs [] wait [] x (by simp; omega)) (h _)

end Wego
