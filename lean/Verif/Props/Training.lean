import Verif.Proofs.Concurrency
import Verif.Props.Corpus
import Verif.Props.IndexPerThread

/-! # C37, C38, C39: parallel training

`batches` is the list of slices handed to workers in one iteration; the iteration starts either as file-backed
(`initBatch`) or as in-memory training (`initMem`). -/

namespace Wego.Props
open Wego Wego.Spec Wego.Iter
variable {α : Type}

/-- `s₀` is the start of an iteration over `batches` with `g` goroutines. -/
def Starts (g : Nat) (batches : List (List α)) (s₀ : Iter α) : Prop :=
  s₀ = initBatch g batches ∨ s₀ = initMem g batches

theorem starts_inv {g : Nat} {fails : Bool} {bs : List (List α)} {s₀ : Iter α} (h : Starts g bs s₀) :
    Inv g fails bs s₀ := by
  rcases h with rfl | rfl
  · exact inv_initBatch g fails bs
  · exact inv_initMem g fails bs

theorem starts_bound {g : Nat} {bs : List (List α)} {s₀ : Iter α} (h : Starts g bs s₀) : Bound s₀ := by
  rcases h with rfl | rfl <;> simp [Bound, initBatch, initMem]

/-- **C37 (no panic).** No schedule sends on a closed channel, drives the wait group below zero or releases more
permits than held; for every goroutine count, and even when the producer fails. -/
theorem C37_no_panic (g : Nat) (fails : Bool) (batches : List (List α)) (s₀ s : Iter α) (h0 : Starts g batches s₀)
    (h : Reach g fails s₀ s) : s.crashed = false :=
  (inv_reach (starts_inv h0) h).ok

/-- **C37 (parallelism).** At any time at most `Goroutines` workers are between `Acquire` and `Release`. -/
theorem C37_at_most_goroutines (g : Nat) (fails : Bool) (batches : List (List α)) (s₀ s : Iter α)
    (h0 : Starts g batches s₀) (h : Reach g fails s₀ s) :
    (s.workers.filter (fun w => w.pc = .running ∨ w.pc = .training ∨ w.pc = .sending ∨ w.pc = .releasing)).length ≤ g := by
  have := (inv_reach (starts_inv h0) h).permits
  rw [← List.countP_eq_length_filter]
  have e : s.workers.countP (fun w => decide (w.pc = .running ∨ w.pc = .training ∨ w.pc = .sending ∨ w.pc = .releasing))
      = s.workers.countP holds := by
    apply List.countP_congr
    rintro ⟨b, p, pc⟩ _
    cases pc <;> simp [holds]
  omega

/-- **C37 (buffers).** A worker that is about to train a word always finds a free buffer, so it can enter `trainOne`
in every reachable state, without waiting for any other goroutine. -/
theorem C37_buffers_never_block (g : Nat) (fails : Bool) (batches : List (List α)) (s₀ s : Iter α)
    (h0 : Starts g batches s₀) (h : Reach g fails s₀ s) (l r : List (Worker α)) (b : List α) (p : Nat) (x : α)
    (hw : s.workers = l ++ ⟨b, p, .running⟩ :: r) (hx : b[p]? = some x) :
    0 < s.pool ∧ ∃ t, Step g fails s t ∧ t.workers = l ++ ⟨b, p, .training⟩ :: r ∧ t.log = s.log ++ [x] := by
  have i := inv_reach (starts_inv h0) h
  have hp := i.pool
  have hq := i.permits
  have hle : ∀ l : List (Worker α), l.countP inTrain ≤ l.countP holds := fun l =>
    List.countP_mono_left (by rintro ⟨b, p, pc⟩ _; cases pc <;> simp [inTrain, holds])
  have h1 := hle l
  have h2 := hle r
  rw [hw] at hp hq
  simp [List.countP_append, List.countP_cons, inTrain, holds] at hp hq
  have hpos : 0 < s.pool := by omega
  exact ⟨hpos, _, .train s l r b p x i.ok hw hx hpos, rfl, rfl⟩

/-- **C37 (buffers come back).** A worker that has trained a word can give its buffer back at once, and a worker that
has finished can release its permit at once: neither ever waits for another goroutine. -/
theorem C37_gives_back (g : Nat) (fails : Bool) (batches : List (List α)) (s₀ s : Iter α)
    (h0 : Starts g batches s₀) (h : Reach g fails s₀ s) (l r : List (Worker α)) (b : List α) (p : Nat) :
    (s.workers = l ++ ⟨b, p, .training⟩ :: r →
      ∃ t, Step g fails s t ∧ t.workers = l ++ ⟨b, p, .sending⟩ :: r ∧ t.pool = s.pool + 1 ∧ t.pool ≤ g) ∧
    (s.workers = l ++ ⟨b, p, .releasing⟩ :: r →
      ∃ t, Step g fails s t ∧ t.workers = l ++ ⟨b, p, .finished⟩ :: r ∧ t.permits = s.permits + 1 ∧ t.permits ≤ g) := by
  have i := inv_reach (starts_inv h0) h
  have hp := i.pool
  have hq := i.permits
  constructor <;> intro hw <;> rw [hw] at hp hq
  · simp [List.countP_append, List.countP_cons, inTrain] at hp
    exact ⟨_, .trained s l r b p i.ok hw (by omega), rfl, rfl, by simp; omega⟩
  · simp [List.countP_append, List.countP_cons, holds] at hq
    exact ⟨_, .release s l r b p i.ok hw (by omega), rfl, rfl, by simp; omega⟩

/-- **C37 (no deadlock).** With at least one goroutine, whatever the interleaving so far, some goroutine can take a
step until the iteration has ended and all its goroutines are gone. -/
theorem C37_no_deadlock (g : Nat) (hg : 1 ≤ g) (batches : List (List α)) (s₀ s : Iter α) (h0 : Starts g batches s₀)
    (h : Reach g false s₀ s)
    (hs : s.main ≠ .done ∨ s.observing = true ∨ ∃ w ∈ s.workers, w.pc ≠ .finished) :
    ∃ t, Step g false s t :=
  progress (inv_reach (starts_inv h0) h) hg hs

/-- What `Run g fails n s t` means, without the definition: `n + 1` states from `s` to `t`, each a step after the one
before. -/
theorem run_iff_steps {g : Nat} {fails : Bool} {n : Nat} {s t : Iter α} :
    Run g fails n s t ↔ ∃ f : Nat → Iter α, f 0 = s ∧ f n = t ∧ ∀ i < n, Step g fails (f i) (f (i + 1)) := by
  constructor
  · intro h
    induction h with
    | nil s => exact ⟨fun _ => s, rfl, rfl, by omega⟩
    | cons n s t u hs h ih =>
      obtain ⟨f, f0, fn, hf⟩ := ih
      refine ⟨fun i => match i with | 0 => s | i + 1 => f i, rfl, fn, ?_⟩
      intro i hi
      cases i with
      | zero => dsimp only; rw [f0]; exact hs
      | succ i => exact hf i (by omega)
  · rintro ⟨f, rfl, rfl, hf⟩
    induction n generalizing f with
    | zero => exact .nil _
    | succ n ih => exact .cons n _ _ _ (hf 0 (by omega)) (ih (fun i => f (i + 1)) (fun i hi => hf (i + 1) (by omega)))

/-- **C37 (termination).** Every run of an iteration has at most `3*words + 5*batches + 6` steps, so there is no
infinite run, whatever the scheduler does. -/
theorem C37_terminates (g : Nat) (fails : Bool) (batches : List (List α)) (s₀ t : Iter α) (h0 : Starts g batches s₀)
    (n : Nat) (h : Run g fails n s₀ t) : n ≤ 3 * batches.flatten.length + 5 * batches.length + 6 := by
  have := run_weight (starts_bound h0) h
  have hs : ∀ k, ∀ l : List (List α), (l.map (fun b => 3 * b.length + k)).sum = 3 * l.flatten.length + k * l.length := by
    intro k l
    induction l with
    | nil => rfl
    | cons b l ih => simp only [List.map_cons, List.sum_cons, ih, List.flatten_cons, List.length_append, List.length_cons]; ring
  have hw : weight s₀ ≤ 3 * batches.flatten.length + 5 * batches.length + 6 := by
    rcases h0 with rfl | rfl
    · simp [weight, initBatch, mWeight, hs]
    · simp only [weight, initMem, mWeight, hs]; simp; omega
  omega

/-- **C37 (no infinite run).** No scheduler can keep an iteration going for ever. -/
theorem C37_no_infinite_run (g : Nat) (fails : Bool) (batches : List (List α)) (f : Nat → Iter α)
    (h0 : Starts g batches (f 0)) : ¬ ∀ n, Step g fails (f n) (f (n + 1)) := by
  intro h
  have hr : ∀ n, Reach g fails (f 0) (f n) := by
    intro n
    induction n with
    | zero => exact .refl
    | succ n ih => exact .step _ _ ih (h n)
  have hd : ∀ n, weight (f n) + n ≤ weight (f 0) := by
    intro n
    induction n with
    | zero => simp
    | succ n ih => have := weight_step (bound_reach (starts_bound h0) (hr n)) (h n); omega
  have := hd (weight (f 0) + 1)
  omega

/-- **C37 (every maximal run completes).** A run that cannot be continued has finished the iteration: the main
goroutine is past `close(trained)`, all workers and the observer have returned. -/
theorem C37_maximal_run_completes (g : Nat) (hg : 1 ≤ g) (batches : List (List α)) (s₀ t : Iter α)
    (h0 : Starts g batches s₀) (h : Reach g false s₀ t) (hmax : ∀ u, ¬ Step g false t u) :
    t.main = .done ∧ t.observing = false ∧ ∀ w ∈ t.workers, w.pc = .finished := by
  have hn : ¬ (t.main ≠ .done ∨ t.observing = true ∨ ∃ w ∈ t.workers, w.pc ≠ .finished) := by
    intro hs
    obtain ⟨u, hu⟩ := C37_no_deadlock g hg batches s₀ t h0 h hs
    exact hmax u hu
  push Not at hn
  refine ⟨hn.1, ?_, hn.2.2⟩
  simpa using hn.2.1

/-- every state reachable can be continued to a complete one; so the hypotheses of the theorems below are met -/
theorem C37_can_complete (g : Nat) (hg : 1 ≤ g) (batches : List (List α)) (s₀ s : Iter α) (h0 : Starts g batches s₀)
    (h : Reach g false s₀ s) : ∃ t, Reach g false s₀ t ∧ t.main = .done := by
  have key : ∀ n (s : Iter α), weight s ≤ n → Reach g false s₀ s → ∃ t, Reach g false s₀ t ∧ t.main = .done := by
    intro n
    induction n with
    | zero =>
      intro s hw hr
      by_cases hm : s.main = .done
      · exact ⟨s, hr, hm⟩
      · obtain ⟨t, ht⟩ := C37_no_deadlock g hg batches s₀ s h0 hr (.inl hm)
        have := weight_step (bound_reach (starts_bound h0) hr) ht
        omega
    | succ n ih =>
      intro s hw hr
      by_cases hm : s.main = .done
      · exact ⟨s, hr, hm⟩
      · obtain ⟨t, ht⟩ := C37_no_deadlock g hg batches s₀ s h0 hr (.inl hm)
        have := weight_step (bound_reach (starts_bound h0) hr) ht
        exact ih t (by omega) (.step _ _ hr ht)
  exact key _ s (le_refl _) h

/-- **C37 (every word once).** When the iteration is over, the turns made are exactly the words of all batches, each
as often as it occurs; within a batch they were made in order; and the observer has counted each of them. -/
theorem C37_every_word_once (g : Nat) (fails : Bool) (batches : List (List α)) (s₀ s : Iter α) (h0 : Starts g batches s₀)
    (h : Reach g fails s₀ s) (hd : s.main = .done) :
    s.log.Perm batches.flatten ∧ (∀ b ∈ batches, b.Sublist s.log) ∧ s.cnt = batches.flatten.length := by
  obtain ⟨h1, h2, h3, _⟩ := final (inv_reach (starts_inv h0) h) hd
  exact ⟨h1, h2, h3⟩

/-- at any time, no more words are counted than there are -/
theorem C37_count_bound (g : Nat) (fails : Bool) (batches : List (List α)) (s₀ s : Iter α) (h0 : Starts g batches s₀)
    (h : Reach g fails s₀ s) : s.cnt ≤ batches.flatten.length := by
  have i := inv_reach (starts_inv h0) h
  have h1 := i.cnt
  have h2 := i.perm.length_eq
  have h3 : (s.workers.map doneOf).flatten.length ≤ ((s.workers.map (·.batch)).flatten).length := by
    induction s.workers with
    | nil => simp
    | cons w l ih =>
      simp only [List.map_cons, List.flatten_cons, List.length_append]
      have : (doneOf w).length ≤ w.batch.length := by simp [doneOf]
      omega
  have h4 : (s.workers.map (·.batch)).flatten.length ≤ batches.flatten.length := by
    rw [← i.parts]
    simp only [List.flatten_append, List.length_append]
    omega
  omega

/-- The words processed by `n` consecutive complete iterations (`for i := 1; i <= Iter; i++`). Each iteration has its
own channels, semaphore and wait group; the buffers of `mod.ch` are all back (`final`). -/
inductive Passes (g : Nat) (batches : List (List α)) : Nat → List α → Prop
  | zero : Passes g batches 0 []
  | succ (n : Nat) (log : List α) (s₀ s : Iter α) (h : Passes g batches n log) (h0 : Starts g batches s₀)
      (hr : Reach g false s₀ s) (hd : s.main = .done) : Passes g batches (n + 1) (log ++ s.log)

/-- **C37 (all iterations).** After `Iter` iterations every word has been processed exactly `Iter` times per
occurrence. -/
theorem C37_all_iterations [DecidableEq α] (g : Nat) (batches : List (List α)) (n : Nat) (log : List α)
    (h : Passes g batches n log) (x : α) : log.count x = n * batches.flatten.count x := by
  induction h with
  | zero => simp
  | succ n log s₀ s h h0 hr hd ih =>
    have := (C37_every_word_once g false batches s₀ s h0 hr hd).1.count_eq x
    rw [List.count_append, ih, this]; ring

/-- **C37 (file-backed corpus).** For every readable document and batch size `>= 1`: the producer's batches
concatenate to the training sequence, so a complete iteration processes exactly the words of that sequence. -/
theorem C37_file_backed (cfg : CorpusCfg) (p : Pass) (ws : List Word) (hw : Readable p ws) (d : Dictionary)
    (hd : addCalls [ws.map cfg.norm] = .ok d) (batchSize : Nat) (hb : 1 ≤ batchSize) (g : Nat) :
    ∃ batches : List (List Nat),
      fsBatchWords cfg d p batchSize = (⟨batches.map .send ++ [.close], []⟩, .next) ∧ batches ≠ [] ∧
      ∀ s, Reach g false (initBatch g batches) s → s.main = .done →
        s.log.Perm (trainSeq cfg.maxCount cfg.minCount (ws.map cfg.norm)) ∧
        s.cnt = (trainSeq cfg.maxCount cfg.minCount (ws.map cfg.norm)).length := by
  obtain ⟨full, last, b1, b2, b3, b4⟩ := C12_batches cfg p ws hw d hd batchSize hb
  refine ⟨full ++ [last], by simpa using b1, by simp, ?_⟩
  intro s hs hm
  obtain ⟨h1, _, h3⟩ := C37_every_word_once g false (full ++ [last]) _ s (.inl rfl) hs hm
  have e : (full ++ [last]).flatten = trainSeq cfg.maxCount cfg.minCount (ws.map cfg.norm) := by simpa using b4
  rw [e] at h1 h3
  exact ⟨h1, h3⟩

/-- **C37 (in memory).** For every sequence (document ids or GloVe items) and goroutine count `>= 1` the slices are
cut without panic and a complete iteration processes exactly the sequence. -/
theorem C37_in_memory (l : List α) (g : Nat) (hg : 1 ≤ g) (hb : l.length + g ≤ 2 ^ 53) :
    ∃ v slices, indexPerThread (g : Int) l.length = .ok v ∧ parts l v g = .ok slices ∧
      ∀ s, Reach g false (initMem g slices) s → s.main = .done → s.log.Perm l ∧ s.cnt = l.length := by
  obtain ⟨v, ps, h1, h2, _, h4⟩ := C25_slices_partition l g hg hb
  refine ⟨v, ps, h1, h2, ?_⟩
  intro s hs hm
  obtain ⟨e1, _, e3⟩ := C37_every_word_once g false ps _ s (.inr rfl) hs hm
  rw [h4] at e1 e3
  exact ⟨e1, e3⟩

/-- a concrete interleaving: two workers, each in the middle of its batch at the same time, the second ahead -/
example : ∃ s : Iter Nat, Reach 2 false (initBatch 2 [[10, 11], [20]]) s ∧ s.log = [20, 10] ∧
    s.workers = [⟨[10, 11], 0, .training⟩, ⟨[20], 1, .running⟩] := by
  refine ⟨_, .step _ _ (.step _ _ (.step _ _ (.step _ _ (.step _ _ (.step _ _ (.step _ _ (.step _ _ (.step _ _ .refl
    (.produce _ [10, 11] [[20]] rfl rfl (by decide))) (.take _ [10, 11] [] rfl rfl rfl))
    (.produce _ [20] [] rfl rfl (by decide))) (.take _ [20] [] rfl rfl rfl))
    (.acquire _ [⟨[10, 11], 0, .waiting⟩] [] [20] 0 rfl rfl (by decide)))
    (.acquire _ [] [⟨[20], 0, .running⟩] [10, 11] 0 rfl rfl (by decide)))
    (.skip _ [⟨[10, 11], 0, .running⟩] [] [20] 0 20 rfl rfl rfl))
    (.send _ [⟨[10, 11], 0, .running⟩] [] [20] 0 rfl rfl rfl rfl))
    (.train _ [] [⟨[20], 1, .running⟩] [10, 11] 0 10 rfl rfl rfl (by decide)), rfl, rfl⟩

/-! ### C38 -/

/-- With no goroutines the workers never get a permit. -/
theorem zero_waiting (batches : List (List α)) (fails : Bool) (s₀ s : Iter α) (h0 : Starts 0 batches s₀)
    (h : Reach 0 fails s₀ s) : ∀ w ∈ s.workers, w.pc = .waiting := by
  induction h with
  | refl => rcases h0 with rfl | rfl <;> simp [initBatch, initMem]
  | step s t h hs ih =>
    have hp := (inv_reach (starts_inv (fails := fails) h0) h).permits
    have new : ∀ b : List α, ∀ w ∈ s.workers ++ [⟨b, 0, .waiting⟩], w.pc = .waiting := by
      intro b w hw
      simp only [List.mem_append, List.mem_singleton] at hw
      rcases hw with hw | rfl
      · exact ih w hw
      · rfl
    cases hs with
    | handoff b => exact new b
    | take b => exact new b
    | acquire l r b p hc hw hpos => omega
    | skip l r b p x hc hw => have := ih ⟨b, p, .running⟩ (by rw [hw]; simp); simp at this
    | train l r b p x hc hw => have := ih ⟨b, p, .running⟩ (by rw [hw]; simp); simp at this
    | trained l r b p hc hw => have := ih ⟨b, p, .training⟩ (by rw [hw]; simp); simp at this
    | send l r b p hc hw => have := ih ⟨b, p, .sending⟩ (by rw [hw]; simp); simp at this
    | sendClosed l r b p hc hw => have := ih ⟨b, p, .sending⟩ (by rw [hw]; simp); simp at this
    | done l r b p hc hw => have := ih ⟨b, p, .running⟩ (by rw [hw]; simp); simp at this
    | doneNegative l r b p hc hw => have := ih ⟨b, p, .running⟩ (by rw [hw]; simp); simp at this
    | release l r b p hc hw => have := ih ⟨b, p, .releasing⟩ (by rw [hw]; simp); simp at this
    | releaseTooMuch l r b p hc hw => have := ih ⟨b, p, .releasing⟩ (by rw [hw]; simp); simp at this
    | _ => exact ih

/-- **C38 (file-backed).** With `Goroutines(0)`, on every readable document (even the empty one, for which one empty
batch is sent) and every batch size, no schedule ever completes an iteration, and every schedule stops moving: `Train`
does not return. -/
theorem C38_file_backed_never_returns (cfg : CorpusCfg) (p : Pass) (ws : List Word) (hw : Readable p ws) (d : Dictionary)
    (hd : addCalls [ws.map cfg.norm] = .ok d) (batchSize : Nat) (hb : 1 ≤ batchSize) :
    ∃ batches : List (List Nat),
      fsBatchWords cfg d p batchSize = (⟨batches.map .send ++ [.close], []⟩, .next) ∧
      (∀ s, Reach 0 false (initBatch 0 batches) s → s.main ≠ .done ∧ s.log = []) ∧
      (∀ n t, Run 0 false n (initBatch 0 batches) t → n ≤ 3 * batches.flatten.length + 5 * batches.length + 6) := by
  obtain ⟨batches, h1, h2, _⟩ := C37_file_backed cfg p ws hw d hd batchSize hb 0
  refine ⟨batches, h1, ?_, fun n t h => C37_terminates 0 false batches _ t (.inl rfl) n h⟩
  intro s hs
  have i := inv_reach (starts_inv (fails := false) (.inl rfl)) hs
  have hwait := zero_waiting batches false _ s (.inl rfl) hs
  constructor
  · intro hm
    obtain ⟨_, _, _, _, h5⟩ := final i hm
    have hz : s.wg = 0 := i.waited (.inr hm)
    rw [i.wg, List.countP_eq_zero] at hz
    have hne : s.workers ≠ [] := by rintro he; rw [he] at h5; exact h2 h5.symm
    obtain ⟨w, hmem⟩ := List.exists_mem_of_ne_nil _ hne
    have := hz w hmem
    have hp := hwait w hmem
    obtain ⟨b, q, pc⟩ := w
    simp only at hp; subst hp
    simp [active] at this
  · have hlen := i.cnt
    have hu : s.workers.countP uncounted = 0 := by
      rw [List.countP_eq_zero]
      intro w hmem
      have hp := hwait w hmem
      obtain ⟨b, q, pc⟩ := w
      simp only at hp; subst hp
      simp [uncounted]
    have hper := i.perm
    have hpos : ∀ w ∈ s.workers, w.pos = 0 := by
      clear hlen hu hper i
      induction hs with
      | refl => simp [initBatch]
      | step s t h hst ih =>
        have hwait' := zero_waiting batches false _ s (.inl rfl) h
        have ih := ih hwait'
        have new : ∀ b : List Nat, ∀ w ∈ s.workers ++ [⟨b, 0, .waiting⟩], w.pos = 0 := by
          intro b w hw
          simp only [List.mem_append, List.mem_singleton] at hw
          rcases hw with hw | rfl
          · exact ih w hw
          · rfl
        cases hst with
        | handoff b => exact new b
        | take b => exact new b
        | acquire l r b p hc hw => have := hwait ⟨b, p, .running⟩ (by simp); simp at this
        | skip l r b p x hc hw => have := hwait ⟨b, p, .sending⟩ (by simp); simp at this
        | train l r b p x hc hw => have := hwait ⟨b, p, .training⟩ (by simp); simp at this
        | trained l r b p hc hw => have := hwait ⟨b, p, .sending⟩ (by simp); simp at this
        | send l r b p hc hw => have := hwait ⟨b, p + 1, .running⟩ (by simp); simp at this
        | done l r b p hc hw => have := hwait ⟨b, p, .releasing⟩ (by simp); simp at this
        | release l r b p hc hw => have := hwait ⟨b, p, .finished⟩ (by simp); simp at this
        | _ => exact ih
    have hnil : (s.workers.map doneOf).flatten = [] := by
      rw [List.flatten_eq_nil_iff]
      intro l hl
      obtain ⟨w, hmem, rfl⟩ := List.mem_map.1 hl
      have hp := hwait w hmem
      have h0 := hpos w hmem
      obtain ⟨b, q, pc⟩ := w
      simp only at hp h0; subst hp; subst h0
      simp [doneOf, started, uncounted]
    rw [hnil] at hper
    exact hper.eq_nil

/-- **C38 (the standstill).** Where the scheduler cannot go on, every batch has been handed to a worker that waits for
a permit for ever, the main goroutine waits for all of them in `wg.Wait()` and the observer waits for words. -/
theorem C38_standstill (batches : List (List α)) (s : Iter α) (hne : batches ≠ [])
    (hs : Reach 0 false (initBatch 0 batches) s) (hmax : ∀ u, ¬ Step 0 false s u) :
    s.workers.map (·.batch) = batches ∧ (∀ w ∈ s.workers, w.pc = .waiting) ∧ s.main = .waiting ∧
      s.wg = batches.length ∧ s.observing = true ∧ s.log = [] := by
  have i := inv_reach (starts_inv (fails := false) (.inl rfl)) hs
  have hwait := zero_waiting batches false _ s (.inl rfl) hs
  have hbuf : s.buf = [] := by
    clear hmax i hwait
    induction hs with
    | refl => rfl
    | step s t h hst ih => cases hst <;> simp_all
  have hact : s.wg = s.workers.length := by
    rw [i.wg, List.countP_eq_length]
    intro w hw
    have := hwait w hw
    obtain ⟨b, q, pc⟩ := w
    simp only at this; subst this; rfl
  have hp := i.parts
  rw [hbuf, List.append_nil] at hp
  have hlog : s.log = [] := by
    clear hmax hp hact hbuf i hne
    induction hs with
    | refl => rfl
    | step s t h hst ih =>
      have ih := ih (zero_waiting batches false _ s (.inl rfl) h)
      have hw' := zero_waiting batches false _ s (.inl rfl) h
      cases hst with
      | skip l r b p x hc hw => have := hw' ⟨b, p, .running⟩ (by rw [hw]; simp); simp at this
      | train l r b p x hc hw => have := hw' ⟨b, p, .running⟩ (by rw [hw]; simp); simp at this
      | _ => exact ih
  have hmain : s.main = .waiting := by
    cases hm : s.main with
    | waiting => rfl
    | loop =>
      cases hsrc : s.src with
      | cons b bs => exact absurd (.handoff s b bs i.ok hsrc hbuf rfl hm) (hmax _)
      | nil =>
        cases hi : s.inClosed with
        | true => exact absurd (.endLoop s i.ok hbuf hi hm) (hmax _)
        | false => exact absurd (.closeIn s i.ok hsrc rfl hi) (hmax _)
    | closing => exact absurd (.closeTrained s i.ok hm) (hmax _)
    | done =>
      exfalso
      have hz := i.waited (.inr hm)
      rw [hact, List.length_eq_zero_iff] at hz
      have he := (i.ended (by rw [hm]; simp)).1
      rw [hz, he] at hp
      exact hne hp.symm
  have hsrc := (i.ended (by rw [hmain]; simp)).1
  rw [hsrc, List.append_nil] at hp
  refine ⟨hp, hwait, hmain, by rw [hact, ← hp, List.length_map], ?_, hlog⟩
  by_contra ho
  rw [Bool.not_eq_true] at ho
  have := i.closed.1 (i.obs ho)
  rw [hmain] at this; simp at this

/-- a batch that cannot be trained -/
example : ∃ s : Iter Nat, Reach 0 false (initBatch 0 [[1, 2]]) s ∧ s.main = .waiting ∧ s.wg = 1 :=
  ⟨_, .step _ _ (.step _ _ (.step _ _ .refl (.handoff _ [1, 2] [] rfl rfl rfl rfl rfl)) (.closeIn _ rfl rfl rfl rfl))
    (.endLoop _ rfl rfl rfl rfl), rfl, rfl⟩

/-- **C38 (in memory).** With `Goroutines(0)` nothing is cut, every schedule completes the iteration and no word is
processed. -/
theorem C38_in_memory_trains_nothing (l : List α) :
    ∃ v, indexPerThread 0 l.length = .ok v ∧ parts l v 0 = .ok ([] : List (List α)) ∧
      (∀ n t, Run 0 false n (initMem 0 ([] : List (List α))) t → n ≤ 6) ∧
      ∀ s : Iter α, Reach 0 false (initMem 0 []) s → s.log = [] ∧ ((∀ u, ¬ Step 0 false s u) → s.main = .done) := by
  refine ⟨_, indexPerThread_zero l.length, by simp [parts, forN, forFrom], ?_, ?_⟩
  · intro n t h
    simpa using C37_terminates 0 false [] _ t (.inr rfl) n h
  intro s hs
  have i := inv_reach (starts_inv (fails := false) (.inr rfl)) hs
  have hp := i.parts
  simp only [List.append_eq_nil_iff, List.map_eq_nil_iff] at hp
  obtain ⟨⟨hw, hb⟩, hsrc⟩ := hp
  have hper := i.perm
  rw [hw] at hper
  refine ⟨hper.eq_nil, ?_⟩
  intro hmax
  by_contra hm
  have hwg := i.wg
  rw [hw] at hwg
  cases hmm : s.main with
  | loop =>
    cases hi : s.inClosed with
    | true => exact hmax _ (.endLoop s i.ok hb hi hmm)
    | false => exact hmax _ (.closeIn s i.ok hsrc rfl hi)
  | waiting => exact hmax _ (.waited s i.ok hmm hwg)
  | closing => exact hmax _ (.closeTrained s i.ok hmm)
  | done => exact hm hmm

/-! ### C39 -/

/-- **C39 is false of the code.** If the reader fails during a training pass (after any number of words), `BatchWords`
returns an error that nobody looks at and the channel stays open: no schedule completes the iteration, every schedule
comes to a standstill, and there the main goroutine is still receiving. `Train` neither returns an error nor returns. -/
theorem C39_refuted (cfg : CorpusCfg) (p : Pass) (ws us : List Word)
    (hw : IsWords p.text ws) (hs : ∀ w ∈ ws, utf8Len w ≤ 65533) (hf : p.fails = true)
    (hmem : ∀ w ∈ ws, cfg.norm w ∈ us) (d : Dictionary) (hd : addCalls [us] = .ok d) (batchSize : Nat)
    (hb : 1 ≤ batchSize) (g : Nat) :
    ∃ (batches : List (List Nat)) (rest : List Nat),
      fsBatchWords cfg d p batchSize = (⟨batches.map .send, rest⟩, .fail .readErr) ∧
      (∀ s, Reach g true (initBatch g batches) s → s.main = .loop) ∧
      (∀ n t, Run g true n (initBatch g batches) t → n ≤ 3 * batches.flatten.length + 5 * batches.length + 6) := by
  obtain ⟨full, rest, h1, -, -, -⟩ := C12_batches_read_error cfg p us ws hw hs hf hmem d hd batchSize hb
  refine ⟨full, rest, h1, ?_, fun n t h => C37_terminates g true full _ t (.inl rfl) n h⟩
  intro s hr
  have key : s.inClosed = false ∧ s.main = .loop := by
    induction hr with
    | refl => exact ⟨rfl, rfl⟩
    | step s t h hst ih =>
      cases hst with
      | closeIn hc h hf hi => simp at hf
      | endLoop hc h hi hm => rw [ih.1] at hi; simp at hi
      | waited hc hm => rw [ih.2] at hm; simp at hm
      | closeTrained hc hm => rw [ih.2] at hm; simp at hm
      | _ => exact ih
  exact key.2

end Wego.Props

namespace Wego.Props
open Wego Wego.Spec Wego.Iter

theorem callEach_inv {α σ : Type} (fn : α → σ → σ × Ctl) (P : σ → Prop) (h : ∀ a s, P s → P (fn a s).1)
    (l : List α) (s : σ) (hs : P s) : P (callEach fn l s).1 := by
  induction l generalizing s with
  | nil => exact hs
  | cons a l ih =>
    simp only [callEach, thenDo]
    have := h a s hs
    rcases hq : fn a s with ⟨s', c⟩
    rw [hq] at this
    cases c with
    | next => exact ih s' this
    | fail => exact this
    | crash => exact this

/-- **C39 is false of the code, for any failing pass.** Whenever `BatchWords` returns an error (over-long word, failing
reader or seek, on any text and dictionary), the channel is not closed and no schedule gets past the receiving loop. -/
theorem C39_refuted_any_error (cfg : CorpusCfg) (p : Pass) (d : Dictionary) (batchSize : Int) (st : BatchState) (e : Err)
    (h : fsBatchWords cfg d p batchSize = (st, .fail e)) (g : Nat) :
    ∃ batches : List (List Nat), st.out = batches.map .send ∧
      (∀ s, Reach g true (initBatch g batches) s → s.main = .loop) ∧
      (∀ n t, Run g true n (initBatch g batches) t → n ≤ 3 * batches.flatten.length + 5 * batches.length + 6) := by
  have hsends : ∃ batches : List (List Nat), st.out = batches.map .send := by
    unfold fsBatchWords at h
    dsimp only at h
    split at h
    · simp at h
    · set r := readWord p (fun word b => liftCtl b (batchCb cfg d batchSize.toNat word b)) ⟨[], []⟩ with hr
      have hP : ∃ batches : List (List Nat), r.1.out = batches.map .send := by
        rw [hr]
        have hc := callEach_inv (fun word (b : BatchState) => liftCtl b (batchCb cfg d batchSize.toNat word b))
          (fun b => ∃ batches : List (List Nat), b.out = batches.map .send) (by
            rintro w b ⟨bs, hb⟩
            rcases hcb : batchCb cfg d batchSize.toNat w b with b' | e | pn
            · simp only [liftCtl]
              unfold batchCb at hcb
              dsimp only at hcb
              obtain ⟨drop, _, h2⟩ := Res.bind_eq_ok.1 hcb
              split at h2
              · injection h2 with h2; subst h2; exact ⟨bs, hb⟩
              · split at h2
                · split at h2
                  · injection h2 with h2; subst h2
                    exact ⟨bs ++ [b.ids ++ [d.idOrZero (cfg.norm w)]], by simp [hb]⟩
                  · injection h2 with h2; subst h2; exact ⟨bs, hb⟩
                · simp at h2
            · exact ⟨bs, hb⟩
            · exact ⟨bs, hb⟩)
          (scanWords p).toks ⟨[], []⟩ ⟨[], rfl⟩
        unfold readWord thenDo
        dsimp only
        generalize callEach (fun word (b : BatchState) => liftCtl b (batchCb cfg d batchSize.toNat word b))
          (scanWords p).toks ⟨[], []⟩ = q at hc ⊢
        rcases q with ⟨s', c⟩
        cases c with
        | next => simp only [scanEnd]; split <;> exact hc
        | fail => exact hc
        | crash => exact hc
      unfold thenDo at h
      rcases hq : r with ⟨s', c⟩
      rw [hq] at h hP
      cases c with
      | next => simp at h
      | fail e' => simp only [Prod.mk.injEq] at h; rw [← h.1]; exact hP
      | crash => simp at h
  obtain ⟨batches, hb⟩ := hsends
  refine ⟨batches, hb, ?_, fun n t h => C37_terminates g true batches _ t (.inl rfl) n h⟩
  intro s hr
  have key : s.inClosed = false ∧ s.main = .loop := by
    induction hr with
    | refl => exact ⟨rfl, rfl⟩
    | step s t h hst ih =>
      cases hst with
      | closeIn hc h hf hi => simp at hf
      | endLoop hc h hi hm => rw [ih.1] at hi; simp at hi
      | waited hc hm => rw [ih.2] at hm; simp at hm
      | closeTrained hc hm => rw [ih.2] at hm; simp at hm
      | _ => exact ih
  exact key.2

/-- the hypotheses of `C39_refuted`: a corpus of three words, and a later pass over it that fails after the second -/
example : ∃ d, addCalls [[['a'], ['b'], ['a']]] = .ok d ∧ IsWords (⟨['a', ' ', 'b'], true⟩ : Pass).text [['a'], ['b']] ∧
    fsBatchWords ⟨false, id, -1, 0⟩ d ⟨['a', ' ', 'b'], true⟩ 1 = (⟨[.send [0], .send [1]], []⟩, .fail .readErr) :=
  ⟨_, rfl, isWords_fields ['a', ' ', 'b'], by decide⟩

end Wego.Props
