import Mathlib.Data.List.Perm.Basic
import Mathlib.Data.List.Count
import Mathlib.Tactic.Ring
import Verif.Model.Concurrency

/-! # Invariants of one training iteration -/

namespace Wego.Iter
variable {α : Type}

/-- holds a permit of the semaphore -/
def holds (w : Worker α) : Bool :=
  match w.pc with
  | .running | .training | .sending | .releasing => true
  | _ => false

/-- has not called `wg.Done()` -/
def active (w : Worker α) : Bool :=
  match w.pc with
  | .waiting | .running | .training | .sending => true
  | _ => false

/-- inside `trainOne` -/
def inTrain (w : Worker α) : Bool :=
  match w.pc with
  | .training => true
  | _ => false

/-- started a turn that is not yet counted -/
def uncounted (w : Worker α) : Bool :=
  match w.pc with
  | .training | .sending => true
  | _ => false

/-- number of loop turns started -/
def started (w : Worker α) : Nat := w.pos + (if uncounted w then 1 else 0)

/-- the part of the batch whose turns have started -/
def doneOf (w : Worker α) : List α := w.batch.take (started w)

/-- The invariant, for an iteration over `batches`. -/
structure Inv (g : Nat) (fails : Bool) (batches : List (List α)) (s : Iter α) : Prop where
  ok : s.crashed = false
  parts : s.workers.map (·.batch) ++ s.buf ++ s.src = batches
  permits : s.permits + s.workers.countP holds = g
  wg : s.wg = s.workers.countP active
  pool : s.pool + s.workers.countP inTrain = g
  closed : s.trainedClosed = true ↔ s.main = .done
  ended : s.main ≠ .loop → s.src = [] ∧ s.buf = [] ∧ s.inClosed = true
  inClosed : s.inClosed = true → s.src = []
  waited : s.main = .closing ∨ s.main = .done → s.wg = 0
  obs : s.observing = false → s.trainedClosed = true
  cnt : s.cnt + s.workers.countP uncounted = s.log.length
  perm : s.log.Perm (s.workers.map doneOf).flatten
  order : ∀ w ∈ s.workers, (doneOf w).Sublist s.log
  fin : ∀ w ∈ s.workers, active w = false → w.batch.length ≤ w.pos

theorem inv_initBatch (g : Nat) (fails : Bool) (bs : List (List α)) : Inv g fails bs (initBatch g bs) := by
  constructor <;> simp [initBatch]

theorem inv_initMem (g : Nat) (fails : Bool) (bs : List (List α)) : Inv g fails bs (initMem g bs) := by
  constructor <;> simp [initMem]

/-- replacing one worker in the log permutation, when it starts a turn -/
theorem perm_insert {log : List α} {l r : List (Worker α)} {w w' : Worker α} {x : α}
    (h : log.Perm ((l ++ w :: r).map doneOf).flatten) (hx : doneOf w' = doneOf w ++ [x]) :
    (log ++ [x]).Perm ((l ++ w' :: r).map doneOf).flatten := by
  simp only [List.map_append, List.map_cons, List.flatten_append, List.flatten_cons] at h ⊢
  rw [hx]
  refine (List.Perm.append_right [x] h).trans ?_
  simp only [List.append_assoc]
  refine List.Perm.append_left _ (List.Perm.append_left _ ?_)
  exact List.perm_append_comm

theorem perm_same {log : List α} {l r : List (Worker α)} {w w' : Worker α}
    (h : log.Perm ((l ++ w :: r).map doneOf).flatten) (hx : doneOf w' = doneOf w) :
    log.Perm ((l ++ w' :: r).map doneOf).flatten := by
  simp only [List.map_append, List.map_cons, List.flatten_append, List.flatten_cons] at h ⊢
  rw [hx]; exact h

theorem take_succ_of_getElem? {b : List α} {p : Nat} {x : α} (h : b[p]? = some x) :
    b.take (p + 1) = b.take p ++ [x] := by
  rw [List.take_add_one, h]; rfl

theorem inv_step {g : Nat} {fails : Bool} {bs : List (List α)} {s t : Iter α} (i : Inv g fails bs s)
    (h : Step g fails s t) : Inv g fails bs t := by
  cases h with
  | produce b rest hc hsrc hr =>
    have hm : s.main = .loop := by
      by_contra hm; rw [(i.ended hm).1] at hsrc; simp at hsrc
    exact { i with
      parts := by have := i.parts; rw [hsrc] at this; simpa using this
      ended := fun h => absurd hm h
      inClosed := fun h => by have := i.inClosed h; rw [hsrc] at this; simp at this }
  | handoff b rest hc hsrc hb hg hm =>
    exact { i with
      parts := by have := i.parts; rw [hsrc, hb] at this; simpa [hb] using this
      permits := by have := i.permits; simp [List.countP_append, holds] at this ⊢; omega
      wg := by have := i.wg; simp [List.countP_append, active] at this ⊢; omega
      pool := by have := i.pool; simp [List.countP_append, inTrain] at this ⊢; omega
      ended := fun h => absurd hm h
      inClosed := fun h => by have := i.inClosed h; rw [hsrc] at this; simp at this
      waited := fun h => by rw [hm] at h; simp at h
      cnt := by have := i.cnt; simp [List.countP_append, uncounted] at this ⊢; omega
      perm := by simpa [doneOf, started, uncounted] using i.perm
      order := by
        intro w hw
        simp only [List.mem_append, List.mem_singleton] at hw
        rcases hw with hw | rfl
        · exact i.order w hw
        · simp [doneOf, started, uncounted]
      fin := by
        intro w hw ha
        simp only [List.mem_append, List.mem_singleton] at hw
        rcases hw with hw | rfl
        · exact i.fin w hw ha
        · simp [active] at ha }
  | closeIn hc hsrc hf hi =>
    exact { i with
      ended := fun h => ⟨(i.ended h).1, (i.ended h).2.1, rfl⟩
      inClosed := fun _ => hsrc }
  | take b rest hc hb hm =>
    exact { i with
      parts := by have := i.parts; rw [hb] at this; simpa using this
      permits := by have := i.permits; simp [List.countP_append, holds] at this ⊢; omega
      wg := by have := i.wg; simp [List.countP_append, active] at this ⊢; omega
      pool := by have := i.pool; simp [List.countP_append, inTrain] at this ⊢; omega
      ended := fun h => absurd hm h
      waited := fun h => by rw [hm] at h; simp at h
      cnt := by have := i.cnt; simp [List.countP_append, uncounted] at this ⊢; omega
      perm := by simpa [doneOf, started, uncounted] using i.perm
      order := by
        intro w hw
        simp only [List.mem_append, List.mem_singleton] at hw
        rcases hw with hw | rfl
        · exact i.order w hw
        · simp [doneOf, started, uncounted]
      fin := by
        intro w hw ha
        simp only [List.mem_append, List.mem_singleton] at hw
        rcases hw with hw | rfl
        · exact i.fin w hw ha
        · simp [active] at ha }
  | endLoop hc hb hi hm =>
    exact { i with
      closed := by have := i.closed; rw [hm] at this; simpa using this
      ended := fun _ => ⟨i.inClosed hi, hb, hi⟩
      waited := fun h => by simp at h }
  | waited hc hm hw =>
    exact { i with
      closed := by have := i.closed; rw [hm] at this; simpa using this
      ended := fun _ => i.ended (by rw [hm]; simp)
      waited := fun _ => hw }
  | closeTrained hc hm =>
    exact { i with
      closed := by simp
      ended := fun _ => i.ended (by rw [hm]; simp)
      waited := fun _ => i.waited (.inl hm)
      obs := fun _ => rfl }
  | acquire l r b p hc hw hp =>
    exact { i with
      parts := by have := i.parts; rw [hw] at this; simpa using this
      permits := by have := i.permits; rw [hw] at this; simp [List.countP_append, List.countP_cons, holds] at this ⊢; omega
      wg := by have := i.wg; rw [hw] at this; simp [List.countP_append, List.countP_cons, active] at this ⊢; omega
      pool := by have := i.pool; rw [hw] at this; simp [List.countP_append, List.countP_cons, inTrain] at this ⊢; omega
      cnt := by have := i.cnt; rw [hw] at this; simp [List.countP_append, List.countP_cons, uncounted] at this ⊢; omega
      perm := perm_same (hw ▸ i.perm) (by simp [doneOf, started, uncounted])
      order := by
        intro w hm
        have hi := i.order
        rw [hw] at hi
        simp only [List.mem_append, List.mem_cons] at hm hi
        rcases hm with hm | rfl | hm
        · exact hi w (.inl hm)
        · have := hi ⟨b, p, .waiting⟩ (.inr (.inl rfl))
          simpa [doneOf, started, uncounted] using this
        · exact hi w (.inr (.inr hm))
      fin := by
        intro w hm ha
        have hi := i.fin
        rw [hw] at hi
        simp only [List.mem_append, List.mem_cons] at hm hi
        rcases hm with hm | rfl | hm
        · exact hi w (.inl hm) ha
        · simp [active] at ha
        · exact hi w (.inr (.inr hm)) ha }
  | skip l r b p x hc hw hx =>
    exact { i with
      parts := by have := i.parts; rw [hw] at this; simpa using this
      permits := by have := i.permits; rw [hw] at this; simp [List.countP_append, List.countP_cons, holds] at this ⊢; omega
      wg := by have := i.wg; rw [hw] at this; simp [List.countP_append, List.countP_cons, active] at this ⊢; omega
      pool := by have := i.pool; rw [hw] at this; simp [List.countP_append, List.countP_cons, inTrain] at this ⊢; omega
      cnt := by have := i.cnt; rw [hw] at this; simp [List.countP_append, List.countP_cons, uncounted] at this ⊢; omega
      perm := perm_insert (hw ▸ i.perm) (by simp [doneOf, started, uncounted, take_succ_of_getElem? hx])
      order := by
        intro w hm
        have hi := i.order
        rw [hw] at hi
        simp only [List.mem_append, List.mem_cons] at hm hi
        rcases hm with hm | rfl | hm
        · exact (hi w (.inl hm)).trans (List.sublist_append_left _ _)
        · have := hi ⟨b, p, .running⟩ (.inr (.inl rfl))
          simp only [doneOf, started, uncounted, if_true, take_succ_of_getElem? hx]
          exact List.Sublist.append (by simpa [doneOf, started, uncounted] using this) (List.Sublist.refl _)
        · exact (hi w (.inr (.inr hm))).trans (List.sublist_append_left _ _)
      fin := by
        intro w hm ha
        have hi := i.fin
        rw [hw] at hi
        simp only [List.mem_append, List.mem_cons] at hm hi
        rcases hm with hm | rfl | hm
        · exact hi w (.inl hm) ha
        · simp [active] at ha
        · exact hi w (.inr (.inr hm)) ha }
  | train l r b p x hc hw hx hp =>
    exact { i with
      parts := by have := i.parts; rw [hw] at this; simpa using this
      permits := by have := i.permits; rw [hw] at this; simp [List.countP_append, List.countP_cons, holds] at this ⊢; omega
      wg := by have := i.wg; rw [hw] at this; simp [List.countP_append, List.countP_cons, active] at this ⊢; omega
      pool := by have := i.pool; rw [hw] at this; simp [List.countP_append, List.countP_cons, inTrain] at this ⊢; omega
      cnt := by have := i.cnt; rw [hw] at this; simp [List.countP_append, List.countP_cons, uncounted] at this ⊢; omega
      perm := perm_insert (hw ▸ i.perm) (by simp [doneOf, started, uncounted, take_succ_of_getElem? hx])
      order := by
        intro w hm
        have hi := i.order
        rw [hw] at hi
        simp only [List.mem_append, List.mem_cons] at hm hi
        rcases hm with hm | rfl | hm
        · exact (hi w (.inl hm)).trans (List.sublist_append_left _ _)
        · have := hi ⟨b, p, .running⟩ (.inr (.inl rfl))
          simp only [doneOf, started, uncounted, if_true, take_succ_of_getElem? hx]
          exact List.Sublist.append (by simpa [doneOf, started, uncounted] using this) (List.Sublist.refl _)
        · exact (hi w (.inr (.inr hm))).trans (List.sublist_append_left _ _)
      fin := by
        intro w hm ha
        have hi := i.fin
        rw [hw] at hi
        simp only [List.mem_append, List.mem_cons] at hm hi
        rcases hm with hm | rfl | hm
        · exact hi w (.inl hm) ha
        · simp [active] at ha
        · exact hi w (.inr (.inr hm)) ha }
  | trained l r b p hc hw hp =>
    exact { i with
      parts := by have := i.parts; rw [hw] at this; simpa using this
      permits := by have := i.permits; rw [hw] at this; simp [List.countP_append, List.countP_cons, holds] at this ⊢; omega
      wg := by have := i.wg; rw [hw] at this; simp [List.countP_append, List.countP_cons, active] at this ⊢; omega
      pool := by have := i.pool; rw [hw] at this; simp [List.countP_append, List.countP_cons, inTrain] at this ⊢; omega
      cnt := by have := i.cnt; rw [hw] at this; simp [List.countP_append, List.countP_cons, uncounted] at this ⊢; omega
      perm := perm_same (hw ▸ i.perm) (by simp [doneOf, started, uncounted])
      order := by
        intro w hm
        have hi := i.order
        rw [hw] at hi
        simp only [List.mem_append, List.mem_cons] at hm hi
        rcases hm with hm | rfl | hm
        · exact hi w (.inl hm)
        · have := hi ⟨b, p, .training⟩ (.inr (.inl rfl))
          simpa [doneOf, started, uncounted] using this
        · exact hi w (.inr (.inr hm))
      fin := by
        intro w hm ha
        have hi := i.fin
        rw [hw] at hi
        simp only [List.mem_append, List.mem_cons] at hm hi
        rcases hm with hm | rfl | hm
        · exact hi w (.inl hm) ha
        · simp [active] at ha
        · exact hi w (.inr (.inr hm)) ha }
  | send l r b p hc hw ht ho =>
    exact { i with
      parts := by have := i.parts; rw [hw] at this; simpa using this
      permits := by have := i.permits; rw [hw] at this; simp [List.countP_append, List.countP_cons, holds] at this ⊢; omega
      wg := by have := i.wg; rw [hw] at this; simp [List.countP_append, List.countP_cons, active] at this ⊢; omega
      pool := by have := i.pool; rw [hw] at this; simp [List.countP_append, List.countP_cons, inTrain] at this ⊢; omega
      cnt := by have := i.cnt; rw [hw] at this; simp [List.countP_append, List.countP_cons, uncounted] at this ⊢; omega
      perm := perm_same (hw ▸ i.perm) (by simp [doneOf, started, uncounted])
      order := by
        intro w hm
        have hi := i.order
        rw [hw] at hi
        simp only [List.mem_append, List.mem_cons] at hm hi
        rcases hm with hm | rfl | hm
        · exact hi w (.inl hm)
        · have := hi ⟨b, p, .sending⟩ (.inr (.inl rfl))
          simpa [doneOf, started, uncounted] using this
        · exact hi w (.inr (.inr hm))
      fin := by
        intro w hm ha
        have hi := i.fin
        rw [hw] at hi
        simp only [List.mem_append, List.mem_cons] at hm hi
        rcases hm with hm | rfl | hm
        · exact hi w (.inl hm) ha
        · simp [active] at ha
        · exact hi w (.inr (.inr hm)) ha }
  | sendClosed l r b p hc hw ht =>
    exfalso
    have h0 := i.waited (.inr (i.closed.1 ht))
    have := i.wg
    rw [hw] at this
    simp [List.countP_append, List.countP_cons, active] at this
    omega
  | done l r b p hc hw hx hpos =>
    exact { i with
      parts := by have := i.parts; rw [hw] at this; simpa using this
      permits := by have := i.permits; rw [hw] at this; simp [List.countP_append, List.countP_cons, holds] at this ⊢; omega
      wg := by have := i.wg; rw [hw] at this; simp [List.countP_append, List.countP_cons, active] at this ⊢; omega
      pool := by have := i.pool; rw [hw] at this; simp [List.countP_append, List.countP_cons, inTrain] at this ⊢; omega
      waited := fun h => by have := i.waited h; omega
      cnt := by have := i.cnt; rw [hw] at this; simp [List.countP_append, List.countP_cons, uncounted] at this ⊢; omega
      perm := perm_same (hw ▸ i.perm) (by simp [doneOf, started, uncounted])
      order := by
        intro w hm
        have hi := i.order
        rw [hw] at hi
        simp only [List.mem_append, List.mem_cons] at hm hi
        rcases hm with hm | rfl | hm
        · exact hi w (.inl hm)
        · have := hi ⟨b, p, .running⟩ (.inr (.inl rfl))
          simpa [doneOf, started, uncounted] using this
        · exact hi w (.inr (.inr hm))
      fin := by
        intro w hm ha
        have hi := i.fin
        rw [hw] at hi
        simp only [List.mem_append, List.mem_cons] at hm hi
        rcases hm with hm | rfl | hm
        · exact hi w (.inl hm) ha
        · simpa using hx
        · exact hi w (.inr (.inr hm)) ha }
  | doneNegative l r b p hc hw hx hz =>
    exfalso
    have := i.wg
    rw [hw] at this
    simp [List.countP_append, List.countP_cons, active] at this
    omega
  | release l r b p hc hw hp =>
    exact { i with
      parts := by have := i.parts; rw [hw] at this; simpa using this
      permits := by have := i.permits; rw [hw] at this; simp [List.countP_append, List.countP_cons, holds] at this ⊢; omega
      wg := by have := i.wg; rw [hw] at this; simp [List.countP_append, List.countP_cons, active] at this ⊢; omega
      pool := by have := i.pool; rw [hw] at this; simp [List.countP_append, List.countP_cons, inTrain] at this ⊢; omega
      cnt := by have := i.cnt; rw [hw] at this; simp [List.countP_append, List.countP_cons, uncounted] at this ⊢; omega
      perm := perm_same (hw ▸ i.perm) (by simp [doneOf, started, uncounted])
      order := by
        intro w hm
        have hi := i.order
        rw [hw] at hi
        simp only [List.mem_append, List.mem_cons] at hm hi
        rcases hm with hm | rfl | hm
        · exact hi w (.inl hm)
        · have := hi ⟨b, p, .releasing⟩ (.inr (.inl rfl))
          simpa [doneOf, started, uncounted] using this
        · exact hi w (.inr (.inr hm))
      fin := by
        intro w hm ha
        have hi := i.fin
        rw [hw] at hi
        simp only [List.mem_append, List.mem_cons] at hm hi
        rcases hm with hm | rfl | hm
        · exact hi w (.inl hm) ha
        · exact hi ⟨b, p, .releasing⟩ (.inr (.inl rfl)) rfl
        · exact hi w (.inr (.inr hm)) ha }
  | releaseTooMuch l r b p hc hw hp =>
    exfalso
    have := i.permits
    rw [hw] at this
    simp [List.countP_append, List.countP_cons, holds] at this
    omega
  | obsEnd hc ht ho =>
    exact { i with obs := fun _ => ht }

theorem inv_reach {g : Nat} {fails : Bool} {bs : List (List α)} {s₀ s : Iter α} (i : Inv g fails bs s₀)
    (h : Reach g fails s₀ s) : Inv g fails bs s := by
  induction h with
  | refl => exact i
  | step s t h hs ih => exact inv_step ih hs

/-- a turn that has started is inside the batch -/
def Bound (s : Iter α) : Prop := ∀ w ∈ s.workers, uncounted w = true → w.pos < w.batch.length

theorem bound_replace {l r : List (Worker α)} {w w' : Worker α}
    (h : ∀ v ∈ l ++ w :: r, uncounted v = true → v.pos < v.batch.length)
    (h' : uncounted w' = true → w'.pos < w'.batch.length) :
    ∀ v ∈ l ++ w' :: r, uncounted v = true → v.pos < v.batch.length := by
  intro v hv
  simp only [List.mem_append, List.mem_cons] at hv h
  rcases hv with hv | rfl | hv
  · exact h v (.inl hv)
  · exact h'
  · exact h v (.inr (.inr hv))

theorem bound_step {g : Nat} {fails : Bool} {s t : Iter α} (i : Bound s) (h : Step g fails s t) : Bound t := by
  unfold Bound at i ⊢
  have new : ∀ b : List α, ∀ w ∈ s.workers ++ [⟨b, 0, .waiting⟩], uncounted w = true → w.pos < w.batch.length := by
    intro b w hw hu
    simp only [List.mem_append, List.mem_singleton] at hw
    rcases hw with hw | rfl
    · exact i w hw hu
    · simp [uncounted] at hu
  cases h with
  | handoff b => exact new b
  | take b => exact new b
  | acquire l r b p hc hw => exact bound_replace (hw ▸ i) (by simp [uncounted])
  | skip l r b p x hc hw hx => exact bound_replace (hw ▸ i) (fun _ => (List.getElem?_eq_some_iff.1 hx).1)
  | train l r b p x hc hw hx => exact bound_replace (hw ▸ i) (fun _ => (List.getElem?_eq_some_iff.1 hx).1)
  | trained l r b p hc hw =>
    exact bound_replace (hw ▸ i) (fun _ => i ⟨b, p, .training⟩ (by rw [hw]; simp) rfl)
  | send l r b p hc hw => exact bound_replace (hw ▸ i) (by simp [uncounted])
  | done l r b p hc hw => exact bound_replace (hw ▸ i) (by simp [uncounted])
  | release l r b p hc hw => exact bound_replace (hw ▸ i) (by simp [uncounted])
  | _ => exact i

theorem bound_reach {g : Nat} {fails : Bool} {s₀ s : Iter α} (i : Bound s₀) (h : Reach g fails s₀ s) : Bound s := by
  induction h with
  | refl => exact i
  | step s t h hs ih => exact bound_step ih hs

/-! ### termination -/

def pcWeight : WPc → Nat
  | .waiting => 3
  | .running => 2
  | .training => 1
  | .sending => 0
  | .releasing => 1
  | .finished => 0

/-- remaining steps of a worker: three per turn -/
def wWeight (w : Worker α) : Nat := 3 * (w.batch.length - w.pos) + pcWeight w.pc

def mWeight : MPc → Nat
  | .loop => 3
  | .waiting => 2
  | .closing => 1
  | .done => 0

/-- an upper bound on the number of steps still to come -/
def weight (s : Iter α) : Nat :=
  (s.src.map (fun b => 3 * b.length + 5)).sum + (s.buf.map (fun b => 3 * b.length + 4)).sum
    + (s.workers.map wWeight).sum + mWeight s.main
    + (if s.inClosed then 0 else 1) + (if s.observing then 1 else 0) + (if s.crashed then 0 else 1)

theorem weight_step {g : Nat} {fails : Bool} {s t : Iter α} (i : Bound s) (h : Step g fails s t) :
    weight t < weight s := by
  cases h with
  | produce b rest hc h hr => simp [weight, h]; omega
  | handoff b rest hc h hb hg hm => simp [weight, h, hb, wWeight, pcWeight]; omega
  | closeIn hc h hf hi => simp [weight, hi]
  | take b rest hc h hm => simp [weight, h, wWeight, pcWeight]; omega
  | endLoop hc h hi hm => simp [weight, hm, mWeight]
  | waited hc hm hw => simp [weight, hm, mWeight]
  | closeTrained hc hm => simp [weight, hm, mWeight]
  | acquire l r b p hc hw hp => simp [weight, hw, wWeight, pcWeight]
  | skip l r b p x hc hw hx => simp [weight, hw, wWeight, pcWeight]
  | train l r b p x hc hw hx hp => simp [weight, hw, wWeight, pcWeight]
  | trained l r b p hc hw hp => simp [weight, hw, wWeight, pcWeight]
  | send l r b p hc hw ht ho =>
    have := i ⟨b, p, .sending⟩ (by rw [hw]; simp) rfl
    simp only at this
    simp only [weight, hw, wWeight, pcWeight, List.map_append, List.map_cons, List.sum_append, List.sum_cons]
    omega
  | sendClosed l r b p hc hw ht => simp [weight, hc]
  | done l r b p hc hw hx hpos => simp [weight, hw, wWeight, pcWeight]
  | doneNegative l r b p hc hw hx hz => simp [weight, hc]
  | release l r b p hc hw hp => simp [weight, hw, wWeight, pcWeight]
  | releaseTooMuch l r b p hc hw hp => simp [weight, hc]
  | obsEnd hc ht ho => simp [weight, ho]

theorem run_weight {g : Nat} {fails : Bool} {n : Nat} {s t : Iter α} (i : Bound s) (h : Run g fails n s t) :
    n + weight t ≤ weight s := by
  induction h with
  | nil s => omega
  | cons n s t u hs h ih =>
    have := weight_step i hs
    have := ih (bound_step i hs)
    omega

theorem reach_of_run {g : Nat} {fails : Bool} {n : Nat} {s₀ s t : Iter α} (hr : Reach g fails s₀ s)
    (h : Run g fails n s t) : Reach g fails s₀ t := by
  induction h with
  | nil s => exact hr
  | cons n s t u hs h ih => exact ih (.step _ _ hr hs)

/-! ### progress -/

theorem exists_split {l : List (Worker α)} {P : Worker α → Bool} (h : 0 < l.countP P) :
    ∃ a w b, l = a ++ w :: b ∧ P w = true := by
  obtain ⟨w, hw, hp⟩ := List.countP_pos_iff.1 h
  obtain ⟨a, b, rfl⟩ := List.append_of_mem hw
  exact ⟨a, w, b, rfl, hp⟩

/-- With at least one goroutine and a producer that does not fail, some step is possible until the iteration is over
and every goroutine of it has ended. -/
theorem progress {g : Nat} {bs : List (List α)} {s : Iter α} (i : Inv g false bs s) (hg : 1 ≤ g)
    (h : s.main ≠ .done ∨ s.observing = true ∨ ∃ w ∈ s.workers, w.pc ≠ .finished) :
    ∃ t, Step g false s t := by
  have hc := i.ok
  by_cases hh : 0 < s.workers.countP holds
  · obtain ⟨a, ⟨b, p, pc⟩, r, hw, hp⟩ := exists_split hh
    have hperm := i.permits
    have hwg := i.wg
    have hpool := i.pool
    have hle : s.workers.countP inTrain ≤ s.workers.countP holds :=
      List.countP_mono_left (by
        rintro ⟨b, p, pc⟩ _
        cases pc <;> simp [inTrain, holds])
    rw [hw] at hperm hwg hpool hle
    cases pc with
    | waiting => simp [holds] at hp
    | finished => simp [holds] at hp
    | running =>
      cases hx : b[p]? with
      | some x => exact ⟨_, .skip s a r b p x hc hw hx⟩
      | none =>
        simp [List.countP_append, List.countP_cons, active] at hwg
        exact ⟨_, .done s a r b p hc hw hx (by omega)⟩
    | training =>
      simp [List.countP_append, List.countP_cons, inTrain] at hpool
      exact ⟨_, .trained s a r b p hc hw (by omega)⟩
    | sending =>
      simp [List.countP_append, List.countP_cons, active] at hwg
      have ht : s.trainedClosed = false := by
        rw [Bool.eq_false_iff]; intro ht
        have := i.waited (.inr (i.closed.1 ht)); omega
      have ho : s.observing = true := by
        by_contra hn
        rw [Bool.not_eq_true] at hn
        rw [i.obs hn] at ht; simp at ht
      exact ⟨_, .send s a r b p hc hw ht ho⟩
    | releasing =>
      simp [List.countP_append, List.countP_cons, holds] at hperm
      exact ⟨_, .release s a r b p hc hw (by omega)⟩
  · have hperm := i.permits
    by_cases ha : 0 < s.workers.countP active
    · obtain ⟨a, ⟨b, p, pc⟩, r, hw, hp⟩ := exists_split ha
      have hnh : holds ⟨b, p, pc⟩ = false := by
        rw [Bool.eq_false_iff]
        intro hx
        exact hh (List.countP_pos_iff.2 ⟨⟨b, p, pc⟩, by rw [hw]; simp, hx⟩)
      cases pc <;> simp [holds, active] at hp hnh
      exact ⟨_, .acquire s a r b p hc hw (by omega)⟩
    · have hwg := i.wg
      cases hm : s.main with
      | loop =>
        cases hb : s.buf with
        | cons b rest => exact ⟨_, .take s b rest hc hb hm⟩
        | nil =>
          cases hi : s.inClosed with
          | true => exact ⟨_, .endLoop s hc hb hi hm⟩
          | false =>
            cases hs : s.src with
            | nil => exact ⟨_, .closeIn s hc hs rfl hi⟩
            | cons b rest => exact ⟨_, .produce s b rest hc hs (by rw [hb]; exact hg)⟩
      | waiting => exact ⟨_, .waited s hc hm (by omega)⟩
      | closing => exact ⟨_, .closeTrained s hc hm⟩
      | done =>
        rcases h with h | h | ⟨w, hw, hf⟩
        · exact absurd hm h
        · exact ⟨_, .obsEnd s hc (i.closed.2 hm) h⟩
        · exfalso
          have h1 : holds w = false := by
            rw [Bool.eq_false_iff]; intro hx; exact hh (List.countP_pos_iff.2 ⟨w, hw, hx⟩)
          have h2 : active w = false := by
            rw [Bool.eq_false_iff]; intro hx; exact ha (List.countP_pos_iff.2 ⟨w, hw, hx⟩)
          obtain ⟨b, p, pc⟩ := w
          cases pc <;> simp [holds, active] at h1 h2 hf

/-- what is known when the main goroutine has finished the iteration -/
theorem final {g : Nat} {fails : Bool} {bs : List (List α)} {s : Iter α} (i : Inv g fails bs s) (hm : s.main = .done) :
    s.log.Perm bs.flatten ∧ (∀ b ∈ bs, b.Sublist s.log) ∧ s.cnt = bs.flatten.length ∧ s.pool = g ∧
      s.workers.map (·.batch) = bs := by
  have he := i.ended (by rw [hm]; simp)
  have hparts := i.parts
  rw [he.1, he.2.1, List.append_nil, List.append_nil] at hparts
  have h0 : s.workers.countP active = 0 := by rw [← i.wg]; exact i.waited (.inr hm)
  have hact : ∀ w ∈ s.workers, active w = false := by
    intro w hw
    rw [Bool.eq_false_iff]
    exact List.countP_eq_zero.1 h0 w hw
  have hdone : ∀ w ∈ s.workers, doneOf w = w.batch := by
    intro w hw
    have := i.fin w hw (hact w hw)
    unfold doneOf started
    exact List.take_of_length_le (by omega)
  have hmap : s.workers.map doneOf = bs := by
    rw [← hparts]; exact List.map_congr_left hdone
  have hperm := i.perm
  rw [hmap] at hperm
  have hu : s.workers.countP uncounted = 0 := by
    rw [List.countP_eq_zero]
    intro w hw hx
    have := hact w hw
    obtain ⟨b, p, pc⟩ := w
    cases pc <;> simp [uncounted, active] at hx this
  have ht : s.workers.countP inTrain = 0 := by
    rw [List.countP_eq_zero]
    intro w hw hx
    have := hact w hw
    obtain ⟨b, p, pc⟩ := w
    cases pc <;> simp [inTrain, active] at hx this
  refine ⟨hperm, ?_, ?_, ?_, hparts⟩
  · intro b hb
    rw [← hparts] at hb
    obtain ⟨w, hw, rfl⟩ := List.mem_map.1 hb
    have := i.order w hw
    rw [hdone w hw] at this
    exact this
  · have := i.cnt; rw [hu] at this
    rw [← hperm.length_eq]; omega
  · have := i.pool; omega

end Wego.Iter
