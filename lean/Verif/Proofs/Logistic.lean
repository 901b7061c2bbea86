import Mathlib.Analysis.Complex.ExponentialBounds
import Verif.Spec.Logistic
import Verif.Model.Word2vec
import Verif.Proofs.Matrix
import Verif.Props.Sigmoid
import Verif.Props.Modelutil

/-! Facts shared by the optimizer proofs. -/

namespace Wego
open Spec Matrix

theorem dotF_real (x y : List ℝ) : dotF x y = Spec.dot x y := by
  have key : ∀ (x y : List ℝ) (acc : ℝ), (List.zip x y).foldl (fun acc p => acc +. p.1 *. p.2) acc = acc + Spec.dot x y := by
    intro x
    induction x with
    | nil => intro y acc; simp [Spec.dot]
    | cons a x ih =>
      intro y acc
      cases y with
      | nil => simp [Spec.dot]
      | cons b y =>
        rw [List.zip_cons_cons, List.foldl_cons, ih]
        simp [Spec.dot]; ring
  unfold dotF
  rw [key]; simp

theorem axpyF_real (a : ℝ) (x y : List ℝ) : axpyF a x y = Spec.axpy a x y := rfl

theorem length_axpy (a : ℝ) (x y : List ℝ) (h : x.length = y.length) : (Spec.axpy a x y).length = y.length := by
  simp [Spec.axpy, h]

theorem axpy_axpy (a b : ℝ) (x y : List ℝ) : Spec.axpy a x (Spec.axpy b x y) = Spec.axpy (b + a) x y := by
  induction x generalizing y with
  | nil => cases y <;> simp [Spec.axpy]
  | cons u x ih => cases y with
    | nil => simp [Spec.axpy]
    | cons v y =>
      have := ih y
      simp only [Spec.axpy, List.zipWith_cons_cons] at this ⊢
      rw [this]; congr 1; ring

theorem axpy_zero (x y : List ℝ) (h : y.length ≤ x.length) : Spec.axpy 0 x y = y := by
  induction x generalizing y with
  | nil => cases y with
    | nil => rfl
    | cons v y => simp at h
  | cons u x ih => cases y with
    | nil => simp [Spec.axpy]
    | cons v y =>
      have := ih y (by simpa using h)
      simp only [Spec.axpy, List.zipWith_cons_cons] at this ⊢
      rw [this]; simp

section
variable {F : Type} [GoFloat F]

theorem length_axpyF (a : F) (x y : List F) (h : x.length = y.length) : (axpyF a x y).length = y.length := by
  simp [axpyF, h]

theorem length_addF (x y : List F) : (addF x y).length = min y.length x.length := by simp [addF]

/-- The lookup succeeds for every value outside both clipping ranges. -/
def SigSafe (table : List F) : Prop :=
  ∀ x : F, GoFloat.le x (GoFloat.ofRat (-6)) = false → GoFloat.le (maxExp : F) x = false → ∃ v, sigmoidAt table x = .ok v

theorem sigSafe_real : SigSafe (sigTable : List ℝ) := by
  intro x h1 h2
  simp only [real_le, real_ofRat, maxExp, decide_eq_false_iff_not, not_le] at h1 h2
  obtain ⟨v, hv, _⟩ := Props.C32_sigmoid_accuracy x (by simpa using h1) (by simpa using h2)
  exact ⟨v, hv⟩

theorem nsCoef_ok (table : List F) (ht : SigSafe table) (label : Int) (lr x : F) : ∃ g, nsCoef table label lr x = .ok g := by
  unfold nsCoef
  by_cases h1 : GoFloat.le x (GoFloat.ofRat (-6)) = true
  · exact ⟨_, if_pos h1⟩
  · rw [if_neg h1]
    by_cases h2 : GoFloat.le (maxExp : F) x = true
    · exact ⟨_, if_pos h2⟩
    · rw [if_neg h2]
      obtain ⟨v, hv⟩ := ht x (by simpa using h1) (by simpa using h2)
      rw [hv]; exact ⟨_, rfl⟩

theorem nsPick_ok (table : List F) (ht : SigSafe table) (label : Int) (k n c : Nat) (hk : k < n) (lr : F) (ctx : List F)
    (mat : Matrix F) (tmp : List F) (hm : Shaped mat n c) (hc : ctx.length = c) (htmp : tmp.length = c) :
    ∃ g mat', nsCoef table label lr (dotF (mat.rowOf k) ctx) = .ok g ∧
      nsPick table label k lr ctx mat tmp = .ok (mat', axpyF g (mat.rowOf k) tmp) ∧ Shaped mat' n c ∧
      mat'.rowOf k = axpyF g ctx (mat.rowOf k) ∧ (∀ j, j ≠ k → mat'.rowOf j = mat.rowOf j) := by
  have hl := hm.length_rowOf hk
  obtain ⟨g, hg⟩ := nsCoef_ok table ht label lr (dotF (mat.rowOf k) ctx)
  obtain ⟨mat', e, h1, h2, h3⟩ := hm.setRow hk (axpyF g ctx (mat.rowOf k))
    (by rw [length_axpyF _ _ _ (by omega), hl])
  refine ⟨g, mat', hg, ?_, h1, h2, h3⟩
  unfold nsPick
  rw [hm.getRow hk]
  simp only [Res.ok_bind, hl, hc, htmp, ne_eq, not_true_eq_false, or_self, if_false, hg, e]

end

theorem sigmoid_neg_six : 1 / (1 + Real.exp (6 : ℝ)) ≤ 0.003 := by
  have h : (2.7 : ℝ) ≤ Real.exp 1 := le_of_lt (lt_trans (by norm_num) Real.exp_one_gt_d9)
  have h6 : Real.exp 6 = Real.exp 1 ^ 6 := by rw [← Real.exp_nat_mul]; norm_num
  have : (2.7 : ℝ) ^ 6 ≤ Real.exp 6 := by rw [h6]; exact pow_le_pow_left₀ (by norm_num) h 6
  rw [div_le_iff₀ (by linarith [Real.exp_pos 6])]
  nlinarith

theorem sigmoid_low (x : ℝ) (h : x ≤ -6) : 1 / (1 + Real.exp (-x)) ≤ 0.003 := by
  refine le_trans ?_ sigmoid_neg_six
  apply one_div_le_one_div_of_le (by positivity)
  have : Real.exp 6 ≤ Real.exp (-x) := Real.exp_le_exp.2 (by linarith)
  linarith

theorem sigmoid_flip (x : ℝ) : 1 - 1 / (1 + Real.exp (-x)) = 1 / (1 + Real.exp x) := by
  have h : Real.exp (-x) * Real.exp x = 1 := by rw [← Real.exp_add]; simp
  have h1 := Real.exp_pos x
  have h2 := Real.exp_pos (-x)
  field_simp
  nlinarith

theorem sigmoid_high (x : ℝ) (h : 6 ≤ x) : 1 - 1 / (1 + Real.exp (-x)) ≤ 0.003 := by
  rw [sigmoid_flip]
  have := sigmoid_low (-x) (by linarith)
  simpa using this

/-- the coefficient is `(label - p) * lr` for a probability `p` close to the logistic function -/
theorem nsCoef_real (label : Int) (lr x : ℝ) :
    ∃ p : ℝ, 0 ≤ p ∧ p ≤ 1 ∧ |p - 1 / (1 + Real.exp (-x))| ≤ 0.003 ∧
      nsCoef sigTable label lr x = .ok (((label : ℝ) - p) * lr) := by
  unfold nsCoef
  simp only [real_le, real_ofRat, maxExp, decide_eq_true_eq, real_mul, real_sub]
  have hs : 0 < 1 / (1 + Real.exp (-x)) := by positivity
  have hs1 : 1 / (1 + Real.exp (-x)) ≤ 1 := by
    rw [div_le_one (by positivity)]; linarith [Real.exp_pos (-x)]
  by_cases h1 : x ≤ ((-6 : ℚ) : ℝ)
  · refine ⟨0, le_refl _, zero_le_one, ?_, ?_⟩
    · push_cast at h1
      rw [zero_sub, abs_neg, abs_of_pos hs]
      exact sigmoid_low x h1
    · rw [if_pos h1]; push_cast; rw [sub_zero]
  · rw [if_neg h1]
    by_cases h2 : ((6 : ℚ) : ℝ) ≤ x
    · refine ⟨1, zero_le_one, le_refl _, ?_, ?_⟩
      · push_cast at h2
        rw [abs_of_nonneg (by linarith)]
        exact sigmoid_high x h2
      · rw [if_pos h2]; push_cast; rfl
    · rw [if_neg h2]
      push_cast at h1 h2
      obtain ⟨v, hv, h3, h4, h5, h6⟩ := Props.C32_sigmoid_accuracy x (by linarith) (by linarith)
      refine ⟨v, le_of_lt h3, le_of_lt h4, ?_, ?_⟩
      · rw [abs_sub_comm, abs_of_nonneg (by linarith)]; linarith
      · rw [hv]; simp

end Wego
