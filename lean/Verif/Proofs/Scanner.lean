import Verif.Go.Scanner
import Mathlib.Data.List.Infix

namespace Wego.Scan

/-! ## The scanner, for any split function that agrees with a description of whole inputs -/

/-- What a scanner should deliver for a whole input: the tokens, and whether it then gives up because a token is too long. -/
abbrev Whole := List Bytes × Bool

def Whole.cons (t : Bytes) (w : Whole) : Whole := (t :: w.1, w.2)

/-- What the correctness of a split function means: on a beginning `data` of the input it only delivers what the whole input calls for. -/
structure Correct (split : SplitFn) (spec : Bytes → Whole) : Prop where
  tok : ∀ data B adv t, data <+: B → data.length ≤ maxTok → split data false = (adv, some t) →
    0 < adv ∧ adv ≤ data.length ∧ spec B = Whole.cons t (spec (B.drop adv))
  skip : ∀ data B adv, data <+: B → split data false = (adv, none) → adv ≤ data.length ∧ spec B = spec (B.drop adv)
  full : ∀ data B, data <+: B → data.length = maxTok → split data false = (0, none) → spec B = ([], true)
  eofTok : ∀ B adv t, B.length ≤ maxTok → (B.length = maxTok → split B false ≠ (0, none)) → split B true = (adv, some t) →
    0 < adv ∧ adv ≤ B.length ∧ spec B = Whole.cons t (spec (B.drop adv))
  eofNone : ∀ B adv, split B true = (adv, none) → spec B = ([], false)

/-- No 101 empty reads in a row. -/
def Patient (sizes : List Nat) : Prop := ¬ List.replicate 101 0 <:+: sizes

def stopOf (fails : Bool) (w : Whole) : Stop := if w.2 then .tooLong else if fails then .readErr else .eof

theorem readLoop_spec (s : St) (room : s.start + s.data.length < s.cap) (fuel : Nat)
    (hp : ¬ List.replicate fuel 0 <+: s.rd.sizes) (herr : s.err = none) :
    (s.rd.rest = [] ∧ s.readLoop fuel = { s with err := some (if s.rd.fails then .readErr else .eof) }) ∨
    (∃ bs rest' sz err, bs ≠ [] ∧ s.rd.rest = bs ++ rest' ∧ sz <:+ s.rd.sizes ∧ s.start + s.data.length + bs.length ≤ s.cap ∧
      (err = none ∨ (rest' = [] ∧ s.rd.eager = true ∧ err = some (if s.rd.fails then .readErr else .eof))) ∧
      s.readLoop fuel = { s with data := s.data ++ bs, err := err, rd := { s.rd with rest := rest', sizes := sz } }) := by
  induction fuel generalizing s with
  | zero => simp at hp
  | succ fuel ih =>
    obtain ⟨data, start, cap, err, ⟨rest, sizes, fails, eager⟩⟩ := s
    simp only at room hp herr
    subst herr
    by_cases hr : rest = []
    · left
      subst hr
      refine ⟨rfl, ?_⟩
      unfold St.readLoop Reader.read
      simp
    · right
      by_cases hz : ∃ l, sizes = 0 :: l
      · obtain ⟨sizes, rfl⟩ := hz
        have hp' : ¬ List.replicate fuel 0 <+: sizes := by
          intro hc; apply hp
          rw [List.replicate_succ]
          exact List.cons_prefix_cons.2 ⟨rfl, hc⟩
        have hread : St.readLoop ⟨data, start, cap, none, ⟨rest, 0 :: sizes, fails, eager⟩⟩ (fuel + 1) =
            St.readLoop ⟨data, start, cap, none, ⟨rest, sizes, fails, eager⟩⟩ fuel := by
          conv_lhs => unfold St.readLoop Reader.read
          simp only [hr, if_false, Reader.wants, Nat.zero_min, List.take_zero, List.drop_zero, and_false, ne_eq, not_true_eq_false, List.append_nil, List.tail_cons]
        rw [hread]
        rcases ih ⟨data, start, cap, none, ⟨rest, sizes, fails, eager⟩⟩ room hp' rfl with ⟨h0, _⟩ | ⟨bs, rest', sz, err, h1, h2, h3, h4, h5, h6⟩
        · exact absurd h0 hr
        · exact ⟨bs, rest', sz, err, h1, h2, h3.trans (List.suffix_cons _ _), h4, h5, h6⟩
      · obtain ⟨n, hn, hn1, hn2⟩ : ∃ n, Reader.wants ⟨rest, sizes, fails, eager⟩ (cap - (start + data.length)) = n ∧
            0 < n ∧ n ≤ cap - (start + data.length) := by
          refine ⟨_, rfl, ?_, ?_⟩ <;> unfold Reader.wants
          · rcases sizes with _ | ⟨n, sizes⟩
            · simp only; omega
            · have : n ≠ 0 := by rintro rfl; exact hz ⟨_, rfl⟩
              simp only; omega
          · rcases sizes with _ | ⟨n, sizes⟩
            · simp
            · simp only; omega
        have hne : rest.take n ≠ [] := by
          rw [ne_eq, List.take_eq_nil_iff]; push Not; exact ⟨by omega, hr⟩
        refine ⟨rest.take n, rest.drop n, sizes.tail, if eager = true ∧ rest.drop n = [] then some (if fails then .readErr else .eof) else none, hne,
          (List.take_append_drop _ _).symm, List.tail_suffix _, ?_, ?_, ?_⟩
        · simp only [List.length_take]; omega
        · by_cases he : eager = true ∧ rest.drop n = []
          · right
            refine ⟨he.2, he.1, ?_⟩
            rw [if_pos he]
          · left
            rw [if_neg he]
        · unfold St.readLoop Reader.read
          simp only [hr, if_false, hn]
          by_cases he : eager = true ∧ rest.drop n = []
          · rw [if_pos he]
          · rw [if_neg he]
            simp only
            rw [if_pos hne]

/-- If the reader reports the end together with the last bytes: the input does not end with a piece of exactly `maxTok` bytes that
the split function would wait to see more of. -/
def NoLimit (split : SplitFn) (eager : Bool) (B : Bytes) : Prop :=
  eager = true → ∀ T, T <:+ B → T.length = maxTok → split T false ≠ (0, none)

/-- The invariant of the scanner. -/
structure Inv (split : SplitFn) (s : St) : Prop where
  cap : s.start + s.data.length ≤ s.cap
  max : s.cap ≤ maxTok
  patient : Patient s.rd.sizes
  limit : NoLimit split s.rd.eager (s.data ++ s.rd.rest)
  atEnd : ∀ e, s.err = some e → e = (if s.rd.fails then .readErr else .eof) ∧ s.rd.rest = [] ∧ (s.data.length = maxTok → s.rd.eager = true)

theorem NoLimit.suffix {split : SplitFn} {eager : Bool} {B B' : Bytes} (h : NoLimit split eager B) (hs : B' <:+ B) : NoLimit split eager B' :=
  fun he T hT hl => h he T (hT.trans hs) hl

def size (s : St) : Nat := s.data.length + 2 * s.rd.rest.length + (if s.err = none then 1 else 0)

theorem Patient.suffix {a b : List Nat} (h : Patient b) (hs : a <:+ b) : Patient a := fun hc => h (hc.trans hs.isInfix)

theorem fill_ok {split : SplitFn} (s : St) (h : Inv split s) (herr : s.err = none) :
    (s.fill = .inr .tooLong ∧ s.start = 0 ∧ s.data.length = maxTok) ∨
    (∃ s', s.fill = .inl s' ∧ Inv split s' ∧ s'.rd.fails = s.rd.fails ∧ s'.data ++ s'.rd.rest = s.data ++ s.rd.rest ∧ size s' < size s) := by
  -- reading once there is room
  have key : ∀ t : St, t.start + t.data.length < t.cap → t.cap ≤ maxTok → t.rd = s.rd → t.data = s.data → t.err = none →
      Inv split (t.readLoop 101) ∧ (t.readLoop 101).rd.fails = s.rd.fails ∧
        (t.readLoop 101).data ++ (t.readLoop 101).rd.rest = s.data ++ s.rd.rest ∧ size (t.readLoop 101) < size s := by
    intro t hroom hmax hrd hdata hterr
    have hp : ¬ List.replicate 101 0 <+: t.rd.sizes := by
      rw [hrd]; exact fun hc => h.patient hc.isInfix
    rcases readLoop_spec t hroom 101 hp hterr with ⟨h0, h1⟩ | ⟨bs, rest', sz, err, h1, h2, h3, h4, h5, h6⟩
    · rw [h1]
      refine ⟨⟨by simpa using hroom.le, hmax, by simpa [hrd] using h.patient, by simpa [hrd, hdata] using h.limit, ?_⟩, by simp [hrd], by simp [hrd, hdata], ?_⟩
      · intro e he
        simp only [Option.some.injEq] at he
        exact ⟨he.symm, h0, by simp only; omega⟩
      · simp [size, hrd, hdata, herr]
    · rw [h6]
      have hall : (t.data ++ bs) ++ rest' = s.data ++ s.rd.rest := by rw [List.append_assoc, ← h2, hrd, hdata]
      refine ⟨⟨by simp only [List.length_append]; omega, hmax, ?_, ?_, ?_⟩, by simp [hrd], hall, ?_⟩
      · exact (show Patient t.rd.sizes by rw [hrd]; exact h.patient).suffix h3
      · show NoLimit split t.rd.eager ((t.data ++ bs) ++ rest')
        rw [hall, hrd]; exact h.limit
      · intro e he
        rcases h5 with h5 | ⟨k1, k2, k3⟩
        · simp only [h5] at he
          exact absurd he (by simp)
        · simp only [k3, Option.some.injEq] at he
          exact ⟨he.symm, k1, fun _ => k2⟩
      · have hl : 0 < bs.length := List.length_pos_iff.2 h1
        have hr : s.rd.rest.length = bs.length + rest'.length := by rw [← hrd, h2, List.length_append]
        simp only [size, herr, List.length_append, hdata, if_true]
        split <;> omega
  have hcap := h.cap
  have hmax := h.max
  unfold St.fill
  by_cases hsh : 0 < s.start ∧ (s.start + s.data.length = s.cap ∨ s.cap / 2 < s.start)
  · rw [if_pos hsh]
    have hne : ¬ ({ s with start := 0 } : St).start + ({ s with start := 0 } : St).data.length = ({ s with start := 0 } : St).cap := by
      simp only; omega
    simp only at hne ⊢
    rw [if_neg hne]
    right
    exact ⟨_, rfl, key _ (by simp only; omega) hmax rfl rfl herr⟩
  · rw [if_neg hsh]
    simp only
    by_cases hfull : s.start + s.data.length = s.cap
    · rw [if_pos hfull]
      have h0 : s.start = 0 := by omega
      by_cases hm : maxTok ≤ s.cap
      · left
        rw [if_pos hm]
        exact ⟨rfl, h0, by omega⟩
      · right
        rw [if_neg hm]
        refine ⟨_, rfl, key _ ?_ (Nat.min_le_right _ _) rfl rfl herr⟩
        simp only
        have : s.data.length < (if s.cap * 2 = 0 then startBuf else s.cap * 2) := by
          split
          · unfold startBuf; omega
          · omega
        have : s.data.length < maxTok := by omega
        omega
    · rw [if_neg hfull]
      right
      exact ⟨_, rfl, key _ (by omega) hmax rfl rfl herr⟩

/-- The state after skipping `adv` bytes. -/
def St.skip (s : St) (adv : Nat) : St := { s with data := s.data.drop adv, start := s.start + adv }

theorem skip_all {s : St} {adv : Nat} (ha : adv ≤ s.data.length) :
    (s.skip adv).data ++ (s.skip adv).rd.rest = (s.data ++ s.rd.rest).drop adv := by
  simp only [St.skip]
  rw [List.drop_append_of_le_length ha]

theorem Inv.skip {split : SplitFn} {s : St} (h : Inv split s) {adv : Nat} (ha : adv ≤ s.data.length) : Inv split (s.skip adv) := by
  have := h.cap
  refine ⟨?_, h.max, h.patient, ?_, ?_⟩
  · simp only [St.skip, List.length_drop]; omega
  · rw [skip_all ha]
    exact h.limit.suffix (List.drop_suffix _ _)
  · intro e he
    obtain ⟨h1, h2, h3⟩ := h.atEnd e he
    refine ⟨h1, h2, ?_⟩
    simp only [St.skip, List.length_drop]
    intro hl
    have := h.max
    exact h3 (by omega)

theorem size_skip (s : St) (adv : Nat) : size (s.skip adv) = s.data.length - adv + 2 * s.rd.rest.length + (if s.err = none then 1 else 0) := by
  unfold size St.skip; simp only [List.length_drop]

/-- A scanner delivers what the description of whole inputs says for its unread bytes. -/
theorem yields_of_inv {split : SplitFn} {spec : Bytes → Whole} (hc : Correct split spec) (s : St) (h : Inv split s) :
    Yields split s (spec (s.data ++ s.rd.rest)).1 (stopOf s.rd.fails (spec (s.data ++ s.rd.rest))) := by
  induction hn : size s using Nat.strong_induction_on generalizing s with
  | _ n ih =>
    subst hn
    -- a token is delivered
    have htok : ∀ adv t, (if 0 < s.data.length ∨ s.err.isSome then split s.data s.err.isSome else (0, none)) = (adv, some t) →
        0 < adv → adv ≤ s.data.length → spec (s.data ++ s.rd.rest) = Whole.cons t (spec ((s.data ++ s.rd.rest).drop adv)) →
        Yields split s (spec (s.data ++ s.rd.rest)).1 (stopOf s.rd.fails (spec (s.data ++ s.rd.rest))) := by
      intro adv t hsp h0 ha hspec
      have hr : s.round split = .token t (s.skip adv) := by
        unfold St.round; rw [hsp]; rfl
      have := ih (size (s.skip adv)) (by rw [size_skip]; unfold size; omega) (s.skip adv) (h.skip ha) rfl
      rw [skip_all ha] at this
      rw [hspec]
      exact Yields.token hr this
    rcases herr : s.err with _ | e
    · -- still reading
      have hmore : ∀ adv, (if 0 < s.data.length ∨ s.err.isSome then split s.data s.err.isSome else (0, none)) = (adv, none) →
          adv ≤ s.data.length → spec (s.data ++ s.rd.rest) = spec ((s.data ++ s.rd.rest).drop adv) →
          (adv = 0 → s.data.length = maxTok → spec (s.data ++ s.rd.rest) = ([], true)) →
          Yields split s (spec (s.data ++ s.rd.rest)).1 (stopOf s.rd.fails (spec (s.data ++ s.rd.rest))) := by
        intro adv hsp ha hspec hfull
        have hcap := h.cap
        have hmx := h.max
        rcases fill_ok (s.skip adv) (h.skip ha) herr with ⟨h1, h2, h3⟩ | ⟨s', h1, h2, h3, h4, h5⟩
        · have hr : s.round split = .stop .tooLong := by
            unfold St.round; rw [hsp]
            simp only [herr]
            rw [show ({ s with data := s.data.drop adv, start := s.start + adv, err := none } : St) = s.skip adv by simp [St.skip, herr]]
            rw [h1]
          simp only [St.skip, List.length_drop] at h2 h3
          rw [hfull (by omega) (by omega)]
          exact Yields.stop hr
        · have hr : s.round split = .again s' := by
            unfold St.round; rw [hsp]
            simp only [herr]
            rw [show ({ s with data := s.data.drop adv, start := s.start + adv, err := none } : St) = s.skip adv by simp [St.skip, herr]]
            rw [h1]
          have := ih (size s') (by rw [size_skip] at h5; unfold size at h5 ⊢; omega) s' h2 rfl
          rw [h4, h3, skip_all ha, ← hspec] at this
          exact Yields.again hr this
      by_cases hd : 0 < s.data.length
      · rcases hsp : split s.data false with ⟨adv, _ | t⟩
        · obtain ⟨ha, hs⟩ := hc.skip s.data (s.data ++ s.rd.rest) adv (List.prefix_append _ _) hsp
          refine hmore adv (by rw [if_pos (Or.inl hd), herr]; exact hsp) ha hs ?_
          intro h0 hl
          subst h0
          exact hc.full s.data _ (List.prefix_append _ _) hl hsp
        · obtain ⟨h0, ha, hs⟩ := hc.tok s.data (s.data ++ s.rd.rest) adv t (List.prefix_append _ _)
            (by have := h.cap; have := h.max; omega) hsp
          exact htok adv t (by rw [if_pos (Or.inl hd), herr]; exact hsp) h0 ha hs
      · refine hmore 0 (by rw [if_neg (by rw [herr]; simpa using hd)]) (Nat.zero_le _) (by simp) ?_
        intro _ hl
        unfold maxTok at hl; omega
    · -- the reader has ended
      obtain ⟨he, hrest, hlt⟩ := h.atEnd e herr
      have hB : s.data ++ s.rd.rest = s.data := by rw [hrest, List.append_nil]
      rcases hsp : split s.data true with ⟨adv, _ | t⟩
      · have hs := hc.eofNone s.data adv hsp
        have hr : s.round split = .stop e := by
          unfold St.round
          rw [if_pos (Or.inr (by simp [herr])), herr]
          simp only [Option.isSome_some, hsp]
        rw [hB, hs]
        have := Yields.stop hr
        rw [he] at this
        simpa [stopOf] using this
      · obtain ⟨h0, ha, hs⟩ := hc.eofTok s.data adv t (by have := h.cap; have := h.max; omega)
          (fun hl => h.limit (hlt hl) s.data (by rw [hB]) hl) hsp
        exact htok adv t (by rw [if_pos (Or.inr (by simp [herr])), herr]; exact hsp) h0 ha (by rw [hB]; exact hs)

/-- A scanner delivers only one thing. -/
theorem yields_unique {split : SplitFn} {s : St} {ts ts' : List Bytes} {e e' : Stop} (h : Yields split s ts e) (h' : Yields split s ts' e') :
    ts = ts' ∧ e = e' := by
  induction h generalizing ts' e' with
  | token hr _ ih =>
    cases h' with
    | token hr' h' =>
      rw [hr] at hr'; injection hr' with h1 h2
      subst h1; subst h2
      obtain ⟨rfl, rfl⟩ := ih h'
      exact ⟨rfl, rfl⟩
    | again hr' _ => rw [hr] at hr'; cases hr'
    | stop hr' => rw [hr] at hr'; cases hr'
  | again hr _ ih =>
    cases h' with
    | token hr' _ => rw [hr] at hr'; cases hr'
    | again hr' h' =>
      rw [hr] at hr'; injection hr' with h1
      subst h1
      exact ih h'
    | stop hr' => rw [hr] at hr'; cases hr'
  | stop hr =>
    cases h' with
    | token hr' _ => rw [hr] at hr'; cases hr'
    | again hr' _ => rw [hr] at hr'; cases hr'
    | stop hr' => rw [hr] at hr'; injection hr' with h1; exact ⟨rfl, h1⟩

/-- A new scanner over any patient reader delivers exactly what the description says for all the reader's bytes. -/
theorem yields_iff {split : SplitFn} {spec : Bytes → Whole} (hc : Correct split spec) (r : Reader) (hp : Patient r.sizes)
    (hl : NoLimit split r.eager r.rest) (ts : List Bytes) (e : Stop) :
    Yields split (St.new r) ts e ↔ ts = (spec r.rest).1 ∧ e = stopOf r.fails (spec r.rest) := by
  have h := yields_of_inv hc (St.new r) ⟨by simp [St.new], by simp [St.new], hp, by simpa [St.new] using hl, by simp [St.new]⟩
  simp only [St.new, List.nil_append] at h
  constructor
  · intro h'; obtain ⟨h1, h2⟩ := yields_unique h' h; exact ⟨h1, h2⟩
  · rintro ⟨rfl, rfl⟩; exact h

/-! ## Words -/

theorem decode_le (p : Bytes) : (decodeRune p).2 ≤ p.length := by
  cases p with
  | nil => simp [decodeRune]
  | cons a l => exact (decodeRune_width _ (by simp)).2

theorem decode_cont (b : UInt8) (l : Bytes) (h : isCont b = true) : decodeRune (b :: l) = (runeError, 1) := by
  have h' : 0x80 ≤ b.toNat ∧ b.toNat ≤ 0xBF := by simpa [isCont] using h
  simp only [decodeRune]
  rw [if_neg (by omega)]
  have : leadInfo b.toNat = none := by
    unfold leadInfo
    repeat' rw [if_neg (by omega)]
  rw [this]

theorem runeError_no_space : isSpaceRune runeError = false := by decide

theorem leadInfo_bounds {p0 sz lo hi : Nat} (hl : leadInfo p0 = some (sz, lo, hi)) : 2 ≤ sz ∧ sz ≤ 4 ∧ 0x80 ≤ lo ∧ hi ≤ 0xBF := by
  unfold leadInfo at hl
  repeat' split at hl
  all_goals first | (cases hl; omega) | (simp at hl)

/-- A multi-byte sequence either is an error or has the size of its first byte and continuation bytes. -/
theorem decode_multi (p0 : UInt8) (e : Bytes) (h0 : ¬ p0.toNat < 0x80) {sz lo hi : Nat} (hl : leadInfo p0.toNat = some (sz, lo, hi)) :
    decodeRune (p0 :: e) = (runeError, 1) ∨
    ((decodeRune (p0 :: e)).2 = sz ∧ sz ≤ e.length + 1 ∧ (∀ b ∈ e.take (sz - 1), isCont b = true) ∧
      ∀ x, decodeRune (p0 :: e.take (sz - 1) ++ x) = decodeRune (p0 :: e)) := by
  have hb := leadInfo_bounds hl
  have hsz : sz = 2 ∨ sz = 3 ∨ sz = 4 := by omega
  have hc1 : ∀ b1 : UInt8, ¬ (b1.toNat < lo ∨ hi < b1.toNat) → isCont b1 = true := by
    intro b1 h; simp only [isCont, Bool.and_eq_true, decide_eq_true_eq]; omega
  have k2 : ∀ n : Nat, ¬ n + 1 + 1 < 2 := by omega
  have k3 : ∀ n : Nat, ¬ n + 1 + 1 + 1 < 3 := by omega
  have k4 : ∀ n : Nat, ¬ n + 1 + 1 + 1 + 1 < 4 := by omega
  rcases hsz with rfl | rfl | rfl
  · rcases e with _ | ⟨b1, e⟩
    · left; simp [decodeRune, h0, hl]
    · by_cases h1 : b1.toNat < lo ∨ hi < b1.toNat
      · left; simp [decodeRune, h0, hl, h1]
      · right
        have := hc1 b1 h1
        simp [decodeRune, h0, hl, h1, this, k2]
  · rcases e with _ | ⟨b1, _ | ⟨b2, e⟩⟩
    · left; simp [decodeRune, h0, hl]
    · left; simp [decodeRune, h0, hl]
    · by_cases h1 : b1.toNat < lo ∨ hi < b1.toNat
      · left; simp [decodeRune, h0, hl, h1]
      · by_cases h2 : isCont b2 = false
        · left; simp [decodeRune, h0, hl, h1, h2]
        · right
          have := hc1 b1 h1
          simp only [Bool.not_eq_false] at h2
          simp [decodeRune, h0, hl, h1, this, h2, k3]
  · rcases e with _ | ⟨b1, _ | ⟨b2, _ | ⟨b3, e⟩⟩⟩
    · left; simp [decodeRune, h0, hl]
    · left; simp [decodeRune, h0, hl]
    · left; simp [decodeRune, h0, hl]
    · by_cases h1 : b1.toNat < lo ∨ hi < b1.toNat
      · left; simp [decodeRune, h0, hl, h1]
      · by_cases h2 : isCont b2 = false
        · left; simp [decodeRune, h0, hl, h1, h2]
        · by_cases h3 : isCont b3 = false
          · left; simp [decodeRune, h0, hl, h1, h2, h3]
          · right
            have := hc1 b1 h1
            simp only [Bool.not_eq_false] at h2 h3
            simp [decodeRune, h0, hl, h1, this, h2, h3, k4]

/-- Decoding a beginning of the input gives the same rune, unless the rune of the whole input ends after it. -/
theorem decode_prefix (data rest : Bytes) (h : data ≠ []) :
    decodeRune data = decodeRune (data ++ rest) ∨
    (data.length < (decodeRune (data ++ rest)).2 ∧ (decodeRune (data ++ rest)).2 ≤ 4 ∧ decodeRune data = (runeError, 1) ∧ ∀ b ∈ data.tail, isCont b = true) := by
  obtain ⟨p0, d, rfl⟩ := List.exists_cons_of_ne_nil h
  by_cases h0 : p0.toNat < 0x80
  · left; simp [decodeRune, h0]
  · rcases hl : leadInfo p0.toNat with _ | ⟨sz, lo, hi⟩
    · left; simp [decodeRune, h0, hl]
    · have hsz := leadInfo_bounds hl
      rcases decode_multi p0 (d ++ rest) h0 hl with hw | ⟨hw, hlw, hcw, hxw⟩
      · -- an error in the whole input
        rcases decode_multi p0 d h0 hl with hd | ⟨hd, hld, hcd, hxd⟩
        · left; rw [hd, List.cons_append, hw]
        · left
          have := hxd (d.drop (sz - 1) ++ rest)
          rw [List.cons_append, ← List.append_assoc, List.take_append_drop] at this
          exact this.symm
      · by_cases hlen : d.length + 1 < sz
        · right
          have hd : decodeRune (p0 :: d) = (runeError, 1) := by
            simp only [decodeRune]; rw [if_neg h0, hl]; simp only; rw [if_pos (by simpa using hlen)]
          refine ⟨by rw [List.cons_append, hw]; simpa using hlen, by rw [List.cons_append, hw]; omega, hd, ?_⟩
          intro b hb
          apply hcw
          rw [List.take_append]
          apply List.mem_append_left
          rw [List.take_of_length_le (by omega)]
          exact hb
        · left
          have := hxw (d.drop (sz - 1))
          rw [List.take_append_of_le_length (by omega), List.cons_append, List.take_append_drop] at this
          rw [this]; rfl

theorem findSpace_nil : findSpace [] = none := by rw [findSpace]; simp

theorem findSpace_ne {data : Bytes} (h : data ≠ []) : findSpace data =
    if isSpaceRune (decodeRune data).1 then some (0, (decodeRune data).2)
    else (findSpace (data.drop (decodeRune data).2)).map (fun x => ((decodeRune data).2 + x.1, x.2)) := by
  rw [findSpace]; simp [h]

theorem skipLen_nil : skipLen [] = 0 := by rw [skipLen]; simp

theorem skipLen_ne {data : Bytes} (h : data ≠ []) : skipLen data =
    if isSpaceRune (decodeRune data).1 then (decodeRune data).2 + skipLen (data.drop (decodeRune data).2) else 0 := by
  rw [skipLen]; simp [h]

theorem findSpace_conts (l : Bytes) (h : ∀ b ∈ l, isCont b = true) : findSpace l = none := by
  induction l with
  | nil => exact findSpace_nil
  | cons b l ih =>
    rw [findSpace_ne (by simp), decode_cont b l (h b (by simp)), if_neg (by rw [runeError_no_space]; simp)]
    simp only [List.drop_succ_cons, List.drop_zero]
    rw [ih (fun x hx => h x (by simp [hx]))]
    rfl

/-- The second alternative of `decode_prefix`: there is no space in such data. -/
theorem findSpace_cut {data : Bytes} (h : data ≠ []) (hd : decodeRune data = (runeError, 1)) (hc : ∀ b ∈ data.tail, isCont b = true) :
    findSpace data = none := by
  rw [findSpace_ne h, hd, if_neg (by rw [runeError_no_space]; simp)]
  simp only [List.drop_one]
  rw [findSpace_conts _ hc]; rfl

theorem findSpace_some {data rest : Bytes} {i w : Nat} (h : findSpace data = some (i, w)) :
    findSpace (data ++ rest) = some (i, w) ∧ i + w ≤ data.length ∧ 1 ≤ w := by
  induction hn : data.length using Nat.strong_induction_on generalizing data i w with
  | _ n ih =>
    subst hn
    by_cases h0 : data = []
    · subst h0; rw [findSpace_nil] at h; cases h
    have hne : data ++ rest ≠ [] := by simp [h0]
    rcases decode_prefix data rest h0 with hd | ⟨_, _, hd, hc⟩
    · have hw := decodeRune_width data h0
      rw [findSpace_ne h0] at h
      rw [findSpace_ne hne, ← hd]
      split at h
      · rename_i hs
        cases h
        rw [if_pos hs]
        exact ⟨rfl, by omega, hw.1⟩
      · rename_i hs
        rw [if_neg hs]
        rw [Option.map_eq_some_iff] at h
        obtain ⟨⟨i', w'⟩, h1, h2⟩ := h
        cases h2
        obtain ⟨h3, h4, h5⟩ := ih _ (by rw [List.length_drop]; omega) h1 rfl
        rw [List.drop_append_of_le_length hw.2, h3]
        rw [List.length_drop] at h4
        exact ⟨rfl, by omega, h5⟩
    · rw [findSpace_cut h0 hd hc] at h; cases h

theorem findSpace_width {B : Bytes} {i w : Nat} (h : findSpace B = some (i, w)) : 1 ≤ w := (findSpace_some (rest := []) h).2.2

theorem findSpace_none {data rest : Bytes} (h : findSpace data = none) {i w : Nat} (hB : findSpace (data ++ rest) = some (i, w)) :
    data.length < i + w := by
  induction hn : data.length using Nat.strong_induction_on generalizing data i w with
  | _ n ih =>
    subst hn
    by_cases h0 : data = []
    · subst h0; have := findSpace_width hB; simp only [List.length_nil]; omega
    have hne : data ++ rest ≠ [] := by simp [h0]
    rcases decode_prefix data rest h0 with hd | ⟨hlt, _, hd, hc⟩
    · have hw := decodeRune_width data h0
      rw [findSpace_ne h0] at h
      rw [findSpace_ne hne, ← hd] at hB
      split at h
      · cases h
      · rename_i hs
        rw [if_neg hs, List.drop_append_of_le_length hw.2, Option.map_eq_some_iff] at hB
        obtain ⟨⟨i', w'⟩, h1, h2⟩ := hB
        cases h2
        rw [Option.map_eq_none_iff] at h
        have := ih _ (by rw [List.length_drop]; omega) h h1 rfl
        rw [List.length_drop] at this
        omega
    · rw [findSpace_ne hne] at hB
      split at hB
      · cases hB; omega
      · rw [Option.map_eq_some_iff] at hB
        obtain ⟨⟨i', w'⟩, h1, h2⟩ := hB
        cases h2
        have := findSpace_width h1
        omega

theorem skipLen_le (data : Bytes) : skipLen data ≤ data.length := by
  induction hn : data.length using Nat.strong_induction_on generalizing data with
  | _ n ih =>
    subst hn
    by_cases h0 : data = []
    · subst h0; rw [skipLen_nil]; simp
    · have hw := decodeRune_width data h0
      rw [skipLen_ne h0]
      split
      · have := ih _ (by rw [List.length_drop]; omega) (data.drop (decodeRune data).2) rfl
        rw [List.length_drop] at this
        omega
      · omega

/-- Skipping the spaces of a beginning of the input first makes no difference. -/
theorem skipLen_append (data rest : Bytes) : skipLen (data ++ rest) = skipLen data + skipLen ((data ++ rest).drop (skipLen data)) := by
  induction hn : data.length using Nat.strong_induction_on generalizing data with
  | _ n ih =>
    subst hn
    by_cases h0 : data = []
    · subst h0; rw [skipLen_nil]; simp
    have hne : data ++ rest ≠ [] := by simp [h0]
    have hw := decodeRune_width data h0
    rw [skipLen_ne h0]
    split
    · rename_i hs
      rcases decode_prefix data rest h0 with hd | ⟨hlt, _, hd, hc⟩
      · conv_lhs => rw [skipLen_ne hne, ← hd, if_pos hs]
        rw [List.drop_append_of_le_length hw.2, ih _ (by rw [List.length_drop]; omega) (data.drop (decodeRune data).2) rfl]
        rw [Nat.add_assoc]
        congr 3
        rw [← List.drop_drop, List.drop_append_of_le_length hw.2]
      · rw [hd, runeError_no_space] at hs; cases hs
    · simp

/-- What a word scanner should deliver for a whole input. -/
def wordsOf (B : Bytes) : Whole :=
  let W := B.drop (skipLen B)
  match h : findSpace W with
  | some (i, k) => if i + k ≤ maxTok then Whole.cons (W.take i) (wordsOf (W.drop (i + k))) else ([], true)
  | none => if W = [] then ([], false) else if W.length < maxTok then ([W], false) else ([], true)
termination_by B.length
decreasing_by
  have h1 := findSpace_some (rest := []) h
  have h2 : W.length ≤ B.length := by simp only [W, List.length_drop]; omega
  simp only [List.length_drop]
  omega

theorem wordsOf_some {B : Bytes} {i k : Nat} (h : findSpace (B.drop (skipLen B)) = some (i, k)) (hle : i + k ≤ maxTok) :
    wordsOf B = Whole.cons ((B.drop (skipLen B)).take i) (wordsOf (B.drop (skipLen B + i + k))) := by
  rw [wordsOf]
  split
  · rename_i i' k' h'
    rw [h] at h'; cases h'
    rw [if_pos hle, List.drop_drop, Nat.add_assoc]
  · rename_i h'; rw [h] at h'; cases h'

theorem wordsOf_long {B : Bytes} {i k : Nat} (h : findSpace (B.drop (skipLen B)) = some (i, k)) (hle : maxTok < i + k) :
    wordsOf B = ([], true) := by
  rw [wordsOf]
  split
  · rename_i i' k' h'
    rw [h] at h'; cases h'
    rw [if_neg (by omega)]
  · rename_i h'; rw [h] at h'; cases h'

theorem wordsOf_none {B : Bytes} (h : findSpace (B.drop (skipLen B)) = none) :
    wordsOf B = if B.drop (skipLen B) = [] then ([], false) else if (B.drop (skipLen B)).length < maxTok then ([B.drop (skipLen B)], false) else ([], true) := by
  rw [wordsOf]
  split
  · rename_i h'; rw [h] at h'; cases h'
  · rfl

theorem skipLen_skipped (B : Bytes) : skipLen (B.drop (skipLen B)) = 0 := by
  have := skipLen_append B []
  rw [List.append_nil] at this
  omega

/-- Only what is left after the spaces matters. -/
theorem wordsOf_congr {B B' : Bytes} (h : B.drop (skipLen B) = B'.drop (skipLen B')) : wordsOf B = wordsOf B' := by
  rcases hf : findSpace (B.drop (skipLen B)) with _ | ⟨i, k⟩
  · rw [wordsOf_none hf, wordsOf_none (h ▸ hf), h]
  · by_cases hk : i + k ≤ maxTok
    · have hf' : findSpace (B'.drop (skipLen B')) = some (i, k) := h ▸ hf
      rw [wordsOf_some hf hk, wordsOf_some hf' hk]
      have : ∀ X : Bytes, X.drop (skipLen X + i + k) = (X.drop (skipLen X)).drop (i + k) := by
        intro X; rw [List.drop_drop, Nat.add_assoc]
      rw [this B, this B', h]
    · rw [wordsOf_long hf (by omega), wordsOf_long (h ▸ hf) (by omega)]

theorem wordsOf_skip (data rest : Bytes) : wordsOf (data ++ rest) = wordsOf ((data ++ rest).drop (skipLen data)) := by
  apply wordsOf_congr
  rw [List.drop_drop, ← skipLen_append]

/-- A beginning of the input with a word and a space after it has all the spaces before the word. -/
theorem skipLen_of_some {data rest : Bytes} {i k : Nat} (h : findSpace (data.drop (skipLen data)) = some (i, k)) :
    skipLen (data ++ rest) = skipLen data := by
  have hle := skipLen_le data
  have h0 : data.drop (skipLen data) ≠ [] := by
    intro h0; rw [h0, findSpace_nil] at h; cases h
  rw [skipLen_append, List.drop_append_of_le_length hle]
  have : skipLen (data.drop (skipLen data) ++ rest) = 0 := by
    have hz := skipLen_skipped data
    rcases decode_prefix (data.drop (skipLen data)) rest h0 with hd | ⟨_, _, hd, hc⟩
    · rw [skipLen_ne (by simp [h0]), ← hd]
      rw [skipLen_ne h0] at hz
      have hw := decodeRune_width _ h0
      split
      · rename_i hs; rw [if_pos hs] at hz; omega
      · rfl
    · rw [findSpace_cut h0 hd hc] at h; cases h
  omega

theorem correct_words : Correct splitWords wordsOf where
  tok := by
    rintro data _ adv t ⟨rest, rfl⟩ hmax h
    unfold splitWords at h
    simp only at h
    have hle := skipLen_le data
    rcases hf : findSpace (data.drop (skipLen data)) with _ | ⟨i, k⟩
    · rw [hf] at h; simp at h
    · rw [hf] at h
      simp only [Prod.mk.injEq, Option.some.injEq] at h
      obtain ⟨rfl, rfl⟩ := h
      obtain ⟨h1, h2, h3⟩ := findSpace_some (rest := rest) hf
      rw [List.length_drop] at h2
      have hs := skipLen_of_some (rest := rest) hf
      refine ⟨by omega, by omega, ?_⟩
      have hB : findSpace ((data ++ rest).drop (skipLen (data ++ rest))) = some (i, k) := by
        rw [hs, List.drop_append_of_le_length hle]; exact h1
      rw [wordsOf_some hB (by omega), hs]
      congr 1
      rw [List.drop_append_of_le_length hle, List.take_append_of_le_length (by rw [List.length_drop]; omega)]
  skip := by
    rintro data _ adv ⟨rest, rfl⟩ h
    unfold splitWords at h
    simp only at h
    rcases hf : findSpace (data.drop (skipLen data)) with _ | ⟨i, k⟩
    · rw [hf] at h
      simp at h
      subst h
      exact ⟨skipLen_le data, wordsOf_skip data rest⟩
    · rw [hf] at h; simp at h
  full := by
    rintro data _ ⟨rest, rfl⟩ hl h
    unfold splitWords at h
    simp only at h
    rcases hf : findSpace (data.drop (skipLen data)) with _ | ⟨i, k⟩
    · rw [hf] at h
      simp at h
      rw [h, List.drop_zero] at hf
      have h0 : data ≠ [] := by intro h0; subst h0; simp [maxTok] at hl
      have hs : skipLen (data ++ rest) = 0 := by
        rcases decode_prefix data rest h0 with hd | ⟨h1, h2, _, _⟩
        · rw [skipLen_ne (by simp [h0]), ← hd]
          rw [skipLen_ne h0] at h
          have hw := decodeRune_width _ h0
          split
          · rename_i hs; rw [if_pos hs] at h; omega
          · rfl
        · unfold maxTok at hl; omega
      rcases hB : findSpace (data ++ rest) with _ | ⟨i, k⟩
      · rw [wordsOf_none (by rw [hs]; exact hB), hs, List.drop_zero, if_neg (by simp [h0]), if_neg (by rw [List.length_append]; omega)]
      · exact wordsOf_long (by rw [hs]; exact hB) (by have := findSpace_none hf hB; omega)
    · rw [hf] at h; simp at h
  eofTok := by
    intro B adv t hl hcorner h
    unfold splitWords at h hcorner
    simp only at h hcorner
    have hle := skipLen_le B
    rcases hf : findSpace (B.drop (skipLen B)) with _ | ⟨i, k⟩
    · rw [hf] at h
      simp only [true_and] at h
      split at h
      · rename_i hlt
        simp only [Prod.mk.injEq, Option.some.injEq] at h
        obtain ⟨rfl, rfl⟩ := h
        refine ⟨by omega, le_refl _, ?_⟩
        have hne : B.drop (skipLen B) ≠ [] := by
          intro h0; have := congrArg List.length h0; rw [List.length_drop] at this; simp at this; omega
        have hshort : (B.drop (skipLen B)).length < maxTok := by
          rw [List.length_drop]
          by_cases hm : B.length = maxTok
          · have := hcorner hm
            rw [hf] at this
            simp at this
            omega
          · omega
        rw [wordsOf_none hf, if_neg hne, if_pos hshort, List.drop_length]
        have : wordsOf [] = ([], false) := by
          rw [wordsOf_none (by rw [skipLen_nil]; exact findSpace_nil)]; simp
        rw [this]; rfl
      · simp at h
    · rw [hf] at h
      simp only [Prod.mk.injEq, Option.some.injEq] at h
      obtain ⟨rfl, rfl⟩ := h
      obtain ⟨_, h2, h3⟩ := findSpace_some (rest := []) hf
      rw [List.length_drop] at h2
      exact ⟨by omega, by omega, wordsOf_some hf (by omega)⟩
  eofNone := by
    intro B adv h
    unfold splitWords at h
    simp only at h
    have hle := skipLen_le B
    rcases hf : findSpace (B.drop (skipLen B)) with _ | ⟨i, k⟩
    · rw [hf] at h
      simp only [true_and] at h
      split at h
      · simp at h
      · rename_i hlt
        rw [wordsOf_none hf, if_pos (by apply List.drop_eq_nil_of_le; omega)]
    · rw [hf] at h; simp at h

end Wego.Scan
