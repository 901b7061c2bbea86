/-!
# Outcomes of Go calls

A Go call returns normally, returns a non-nil `error`, or panics.  `Res` records which.
The kinds of errors/panics are enumerated so that theorems can say which one occurs.
-/

namespace Wego

/-- Runtime panics that the modelled code can raise. -/
inductive Panic where
  | indexOutOfRange
  | sliceBounds
  | makeNegLen
  | divByZero
  | nilDeref
  | sendOnClosed
  /-- not a panic: the call never returns (an endless loop) -/
  | hang
  deriving DecidableEq, Repr

/-- Errors returned by the modelled code (the message text is abstracted to its kind). -/
inductive Err where
  /-- `cooccurrence.go:67` "Divide by zero on counting co-occurrence" -/
  | divideByZero
  /-- `cooccurrence.go:33-35` invalid relation (count) type -/
  | invalidCountType
  /-- `bufio.ErrTooLong` -/
  | tokenTooLong
  /-- an error of the underlying reader -/
  | readErr
  /-- an error of the underlying writer -/
  | writeErr
  /-- `word2vec.go:105` -/
  | invalidModel
  /-- `word2vec.go:120` -/
  | invalidOptimizer
  /-- `glove.go:104` -/
  | invalidSolver
  /-- `lexvec/item.go:84` -/
  | invalidRelation
  /-- `vector.go:43` -/
  | lenMismatch
  /-- `embedding.go:37` -/
  | emptyWord
  /-- `embedding.go:39` -/
  | dimZero
  /-- `embedding.go:41` -/
  | dimMismatch
  /-- `embedding.go:66` -/
  | dimNotSame
  /-- `embedding.go:111` -/
  | tooFewFields
  /-- `strconv.ParseFloat` syntax or range error -/
  | parseFloat
  /-- `search.go:77` -/
  | notFound
  /-- `console.go:49` -/
  | noItems
  /-- `parser.ParseExpr` error -/
  | parseExpr
  /-- `console.go:115,128` -/
  | invalidExprType
  /-- `console.go:153` -/
  | failedToParse
  /-- `console.go:157` -/
  | wordNotFound
  /-- `console.go:171` -/
  | invalidOperator
  /-- `op.go:25` -/
  | vecLenMismatch
  /-- `cmd/.../execute`: output file exists -/
  | outputExists
  /-- `cmd/.../execute`: input file missing -/
  | noInput
  /-- `os.MkdirAll`/`os.Create`/`os.Open` failure -/
  | osErr
  /-- `cmd/query/query.go:56` -/
  | singleWord
  /-- an arbitrary error of a caller-supplied callback -/
  | callback (code : Nat)
  deriving DecidableEq, Repr

/-- Outcome of a Go call. -/
inductive Res (α : Type) where
  | ok (a : α)
  | err (e : Err)
  | panic (p : Panic)
  deriving DecidableEq, Repr

namespace Res

variable {α β γ σ : Type}

@[simp] protected def bind (x : Res α) (f : α → Res β) : Res β :=
  match x with
  | ok a => f a
  | err e => err e
  | panic p => panic p

instance : Monad Res where
  pure := Res.ok
  bind := Res.bind

@[simp] theorem pure_eq (a : α) : (pure a : Res α) = ok a := rfl
@[simp] theorem ok_bind (a : α) (f : α → Res β) : (ok a >>= f) = f a := rfl
@[simp] theorem err_bind (e : Err) (f : α → Res β) : (err e >>= f) = err e := rfl
@[simp] theorem panic_bind (p : Panic) (f : α → Res β) : (panic p >>= f) = panic p := rfl
@[simp] theorem map_ok (f : α → β) (a : α) : (f <$> (ok a : Res α)) = ok (f a) := rfl
@[simp] theorem map_err (f : α → β) (e : Err) : (f <$> (err e : Res α)) = err e := rfl
@[simp] theorem map_panic (f : α → β) (p : Panic) : (f <$> (panic p : Res α)) = panic p := rfl

instance : LawfulMonad Res := LawfulMonad.mk'
  (id_map := by intro α x; cases x <;> rfl)
  (pure_bind := by intros; rfl)
  (bind_assoc := by intro α β γ x f g; cases x <;> rfl)

theorem bind_eq_ok {x : Res α} {f : α → Res β} {b : β} :
    (x >>= f) = ok b ↔ ∃ a, x = ok a ∧ f a = ok b := by
  cases x <;> simp

end Res

/-- Result of a callback `func(...) error` that also updates captured variables of type `σ`:
the new captured state and how the call ended. -/
inductive Ctl where
  | next
  | fail (e : Err)
  | crash (p : Panic)
  deriving DecidableEq, Repr

/-- `l[i]` : index expression, panics when out of range. -/
def idx {α : Type} (l : List α) (i : Nat) : Res α :=
  match l[i]? with
  | some a => .ok a
  | none => .panic .indexOutOfRange

/-- `l[i]` with a Go `int` index. -/
def idxI {α : Type} (l : List α) (i : Int) : Res α :=
  if i < 0 then .panic .indexOutOfRange else idx l i.toNat

/-- `l[i] = v`, panics when out of range. -/
def setIdx {α : Type} (l : List α) (i : Nat) (v : α) : Res (List α) :=
  if i < l.length then .ok (l.set i v) else .panic .indexOutOfRange

/-- `for i := lo; i < lo+n; i++ { s = f i s }`, stopping at the first error or panic. -/
def forFrom {σ : Type} (lo : Nat) (n : Nat) (s : σ) (f : Nat → σ → Res σ) : Res σ :=
  match n with
  | 0 => .ok s
  | n + 1 => f lo s >>= fun s' => forFrom (lo + 1) n s' f

/-- `for i := 0; i < n; i++ { s = f i s }`. -/
def forN {σ : Type} (n : Nat) (s : σ) (f : Nat → σ → Res σ) : Res σ := forFrom 0 n s f

/-- `for _, a := range l { s = f a s }`. -/
def forEach {α σ : Type} (l : List α) (s : σ) (f : α → σ → Res σ) : Res σ :=
  match l with
  | [] => .ok s
  | a :: l => f a s >>= fun s' => forEach l s' f

section lemmas
variable {α σ : Type}

@[simp] theorem idx_of_lt (l : List α) (i : Nat) (h : i < l.length) : idx l i = .ok l[i] := by
  simp [idx, h]

theorem idx_of_ge (l : List α) (i : Nat) (h : l.length ≤ i) : idx l i = .panic .indexOutOfRange := by
  simp [idx, h]

theorem idx_eq_ok {l : List α} {i : Nat} {a : α} : idx l i = .ok a ↔ l[i]? = some a := by
  unfold idx; cases h : l[i]? <;> simp

@[simp] theorem setIdx_of_lt (l : List α) (i : Nat) (v : α) (h : i < l.length) :
    setIdx l i v = .ok (l.set i v) := by simp [setIdx, h]

@[simp] theorem forFrom_zero (lo : Nat) (s : σ) (f : Nat → σ → Res σ) : forFrom lo 0 s f = .ok s := rfl

theorem forFrom_succ (lo n : Nat) (s : σ) (f : Nat → σ → Res σ) :
    forFrom lo (n+1) s f = (f lo s >>= fun s' => forFrom (lo+1) n s' f) := rfl

@[simp] theorem forEach_nil (s : σ) (f : α → σ → Res σ) : forEach [] s f = .ok s := rfl

@[simp] theorem forEach_cons (a : α) (l : List α) (s : σ) (f : α → σ → Res σ) :
    forEach (a :: l) s f = (f a s >>= fun s' => forEach l s' f) := rfl

theorem forEach_append (l₁ l₂ : List α) (s : σ) (f : α → σ → Res σ) :
    forEach (l₁ ++ l₂) s f = (forEach l₁ s f >>= fun s' => forEach l₂ s' f) := by
  induction l₁ generalizing s with
  | nil => rfl
  | cons a l ih =>
    simp only [List.cons_append, forEach_cons, bind_assoc]
    congr 1; funext s'; exact ih s'

/-- A loop whose body never fails and is a pure function is a fold. -/
theorem forEach_ok (l : List α) (s : σ) (f : α → σ → Res σ) (g : σ → α → σ)
    (h : ∀ a ∈ l, ∀ s, f a s = .ok (g s a)) : forEach l s f = .ok (l.foldl g s) := by
  induction l generalizing s with
  | nil => rfl
  | cons a l ih =>
    simp only [forEach_cons, h a (by simp) s, Res.ok_bind, List.foldl_cons]
    exact ih _ (fun b hb => h b (by simp [hb]))

/-- Invariant rule for `forFrom`: the body keeps the invariant, so the loop succeeds with it. -/
theorem forFrom_inv (I : Nat → σ → Prop) (lo n : Nat) (s : σ) (f : Nat → σ → Res σ)
    (h0 : I lo s)
    (hs : ∀ i s, lo ≤ i → i < lo + n → I i s → ∃ s', f i s = .ok s' ∧ I (i+1) s') :
    ∃ s', forFrom lo n s f = .ok s' ∧ I (lo + n) s' := by
  induction n generalizing lo s with
  | zero => exact ⟨s, rfl, h0⟩
  | succ n ih =>
    obtain ⟨s1, h1, hI⟩ := hs lo s (Nat.le_refl _) (by omega) h0
    obtain ⟨s2, h2, hI2⟩ := ih (lo+1) s1 hI (fun i s hi hi2 => hs i s (by omega) (by omega))
    refine ⟨s2, ?_, ?_⟩
    · rw [forFrom_succ, h1]; exact h2
    · have : lo + (n + 1) = lo + 1 + n := by omega
      rw [this]; exact hI2

theorem forN_inv (I : Nat → σ → Prop) (n : Nat) (s : σ) (f : Nat → σ → Res σ)
    (h0 : I 0 s)
    (hs : ∀ i s, i < n → I i s → ∃ s', f i s = .ok s' ∧ I (i+1) s') :
    ∃ s', forN n s f = .ok s' ∧ I n s' := by
  have := forFrom_inv I 0 n s f h0 (fun i s _ h2 => hs i s (by omega))
  simpa [forN] using this

theorem forEach_inv (I : σ → Prop) (l : List α) (s : σ) (f : α → σ → Res σ)
    (h0 : I s)
    (hs : ∀ a ∈ l, ∀ s, I s → ∃ s', f a s = .ok s' ∧ I s') :
    ∃ s', forEach l s f = .ok s' ∧ I s' := by
  induction l generalizing s with
  | nil => exact ⟨s, rfl, h0⟩
  | cons a l ih =>
    obtain ⟨s1, h1, hI⟩ := hs a (by simp) s h0
    obtain ⟨s2, h2, hI2⟩ := ih s1 hI (fun b hb => hs b (by simp [hb]))
    exact ⟨s2, by simp [h1, h2], hI2⟩

/-- Partial-correctness rule: whenever the loop succeeds, the invariant holds at the end. -/
theorem forEach_inv_partial (I : σ → Prop) (l : List α) (s s' : σ) (f : α → σ → Res σ)
    (h0 : I s) (hs : ∀ a ∈ l, ∀ s s', I s → f a s = .ok s' → I s')
    (hr : forEach l s f = .ok s') : I s' := by
  induction l generalizing s with
  | nil => simp at hr; exact hr ▸ h0
  | cons a l ih =>
    rw [forEach_cons, Res.bind_eq_ok] at hr
    obtain ⟨s1, h1, h2⟩ := hr
    exact ih s1 (hs a (by simp) s s1 h0 h1) (fun b hb => hs b (by simp [hb])) h2

theorem forFrom_inv_partial (I : σ → Prop) (lo n : Nat) (s s' : σ) (f : Nat → σ → Res σ)
    (h0 : I s) (hs : ∀ i s s', lo ≤ i → i < lo + n → I s → f i s = .ok s' → I s')
    (hr : forFrom lo n s f = .ok s') : I s' := by
  induction n generalizing lo s with
  | zero => simp at hr; exact hr ▸ h0
  | succ n ih =>
    rw [forFrom_succ, Res.bind_eq_ok] at hr
    obtain ⟨s1, h1, h2⟩ := hr
    exact ih (lo+1) s1 (hs lo s s1 (by omega) (by omega) h0 h1)
      (fun i s s' a b => hs i s s' (by omega) (by omega)) h2

end lemmas

end Wego
