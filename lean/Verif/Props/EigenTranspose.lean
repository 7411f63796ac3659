import Verif.Props.EigenBias

/-!
# C135: which materials are treated as the time-reverse of materials without gain, with the eigenvalues as they are calculated
-/

namespace Verif.Solver

open Verif Verif.Fourier Verif.Backend Complex Matrix
open Verif.Spec.Solver (NoGain Close)

variable {d n : ℕ} {N : Fin d → ℕ} {δ : ℝ} {ev : Matrix (Fin n) (Fin n) ℂ → List ℂ}

/-! ### Specification -/

/-- The material amplifies a field by more than `tol`. -/
def GainAbove (tol : ℝ) (A : Tensor n N) : Prop := ∃ x v, (star v ⬝ᵥ (A x).mulVec v).im < -tol * ∑ i, ‖v i‖ ^ 2

/-- The material attenuates a field by more than `tol`. -/
def LossAbove (tol : ℝ) (A : Tensor n N) : Prop := ∃ x v, tol * ∑ i, ‖v i‖ ^ 2 < (star v ⬝ᵥ (A x).mulVec v).im

/-- The four properties of a material. -/
def Medium.tensors (m : Medium n N) : List (Tensor n N) := [m.epsilon, m.xi, m.zeta, m.mu]

/-! ### Lemmas -/

theorem hasGain_shift (tol : ℝ) (A : Tensor n N) : hasGain tol A ↔ hasGain 0 fun x => A x + (I * (tol : ℂ)) • 1 := by
  have e : ∀ B : Matrix (Fin n) (Fin n) ℂ, (-I / 2) • ((B + (I * (tol : ℂ)) • (1 : Matrix (Fin n) (Fin n) ℂ)) - (B + (I * (tol : ℂ)) • (1 : Matrix (Fin n) (Fin n) ℂ))ᴴ) =
      (-I / 2) • (B - Bᴴ) + (tol : ℂ) • 1 := by
    intro B
    rw [Matrix.conjTranspose_add, Matrix.conjTranspose_smul, Matrix.conjTranspose_one, RCLike.star_def, map_mul, conj_I, conj_ofReal, add_sub_add_comm, smul_add, ← sub_smul, smul_smul]
    congr 2
    have := I_mul_I
    linear_combination (-(tol : ℂ)) * this
  have key : ∀ (M : Matrix (Fin n) (Fin n) ℂ) (z : ℂ), (z + tol) ∈ (M + (tol : ℂ) • 1).charpoly.roots ↔ z ∈ M.charpoly.roots := by
    intro M z
    rw [mem_roots_det, mem_roots_det, add_smul, add_sub_add_right_eq_sub]
  constructor
  · rintro ⟨x, z, hz, h⟩
    refine ⟨x, z + tol, ?_, by rw [add_re, ofReal_re]; linarith⟩
    rw [e, key]
    exact hz
  · rintro ⟨x, z, hz, h⟩
    rw [e] at hz
    refine ⟨x, z - tol, ?_, by rw [sub_re, ofReal_re]; linarith⟩
    rw [← key, sub_add_cancel]
    exact hz

theorem form_shift (tol : ℝ) (A : Matrix (Fin n) (Fin n) ℂ) (v : Fin n → ℂ) :
    (star v ⬝ᵥ (A + (I * (tol : ℂ)) • (1 : Matrix (Fin n) (Fin n) ℂ)).mulVec v).im = (star v ⬝ᵥ A.mulVec v).im + tol * ∑ i, ‖v i‖ ^ 2 := by
  rw [Matrix.add_mulVec, Matrix.smul_mulVec, Matrix.one_mulVec, dotProduct_add, dotProduct_smul, star_dot_self, add_im, smul_eq_mul, mul_assoc, I_mul_im, ← ofReal_mul, ofReal_re]

theorem hasGain_iff_above (tol : ℝ) (A : Tensor n N) : hasGain tol A ↔ GainAbove tol A := by
  rw [hasGain_shift, hasGain_iff]
  unfold NoGain GainAbove
  push Not
  refine exists_congr fun x => exists_congr fun v => ?_
  rw [form_shift]
  constructor <;> intro h <;> linarith

theorem hasGain_neg_iff (tol : ℝ) (A : Tensor n N) : (hasGain tol fun x => - A x) ↔ LossAbove tol A := by
  rw [hasGain_iff_above]
  unfold GainAbove LossAbove
  refine exists_congr fun x => exists_congr fun v => ?_
  rw [Matrix.neg_mulVec, dotProduct_neg, neg_im]
  constructor <;> intro h <;> linarith

/-! ### Properties -/

/-- **C135 (gain and loss).** A property of the material is considered to have gain or loss only if it amplifies or attenuates some field by more than the tolerance, and always if by more than the tolerance and the error
of the eigenvalues. -/
theorem C135_loss (hev : Close δ ev) (tol : ℝ) (A : Tensor n N) :
    (gainWith ev tol A → GainAbove tol A) ∧ (GainAbove (tol + δ) A → gainWith ev tol A) ∧ (lossWith ev tol A → LossAbove tol A) ∧ (LossAbove (tol + δ) A → lossWith ev tol A) := by
  have h1 := C135_gain hev tol A
  have h2 := C135_gain hev tol fun x => - A x
  rw [hasGain_iff_above, hasGain_iff_above] at h1
  rw [hasGain_neg_iff, hasGain_neg_iff] at h2
  exact ⟨h1.1, h1.2, h2.1, h2.2⟩

/-- **C135 (time-reversed materials).** For all materials: if the bias is conjugated, then some property amplifies and none attenuates, and the other way around, up to the tolerance and the error of the eigenvalues. -/
theorem C135_transposed (hev : Close δ ev) (tol : ℝ) (m : Medium n N) :
    (m.transposedWith ev tol → (∃ A ∈ m.tensors, GainAbove tol A) ∧ ∀ A ∈ m.tensors, ¬ LossAbove (tol + δ) A) ∧
      ((∃ A ∈ m.tensors, GainAbove (tol + δ) A) → (∀ A ∈ m.tensors, ¬ LossAbove tol A) → m.transposedWith ev tol) := by
  have h := fun A : Tensor n N => C135_loss hev tol A
  constructor
  · rintro ⟨hg, hl⟩
    push Not at hl
    refine ⟨?_, ?_⟩
    · rcases hg with h1 | h1 | h1 | h1
      · exact ⟨_, by simp [Medium.tensors], (h _).1 h1⟩
      · exact ⟨m.xi, by simp [Medium.tensors], (h _).1 h1⟩
      · exact ⟨m.zeta, by simp [Medium.tensors], (h _).1 h1⟩
      · exact ⟨m.mu, by simp [Medium.tensors], (h _).1 h1⟩
    · intro A hA hL
      simp only [Medium.tensors, List.mem_cons, List.not_mem_nil, or_false] at hA
      rcases hA with rfl | rfl | rfl | rfl
      · exact hl.1 ((h _).2.2.2 hL)
      · exact hl.2.1 ((h _).2.2.2 hL)
      · exact hl.2.2.1 ((h _).2.2.2 hL)
      · exact hl.2.2.2 ((h _).2.2.2 hL)
  · rintro ⟨A, hA, hG⟩ hl
    simp only [Medium.tensors, List.forall_mem_cons, List.not_mem_nil, false_imp_iff, implies_true, and_true] at hl
    refine ⟨?_, ?_⟩
    · simp only [Medium.tensors, List.mem_cons, List.not_mem_nil, or_false] at hA
      rcases hA with rfl | rfl | rfl | rfl
      · exact .inl ((h _).2.1 hG)
      · exact .inr (.inl ((h _).2.1 hG))
      · exact .inr (.inr (.inl ((h _).2.1 hG)))
      · exact .inr (.inr (.inr ((h _).2.1 hG)))
    · rintro (h1 | h1 | h1 | h1)
      · exact hl.1 ((h _).2.2.1 h1)
      · exact hl.2.1 ((h _).2.2.1 h1)
      · exact hl.2.2.1 ((h _).2.2.1 h1)
      · exact hl.2.2.2 ((h _).2.2.1 h1)

/-- **C135 (bias of time-reversed materials).** For all materials with gain and without loss, and without boundary: the centre is that which the optimization has found, and the bias is at most 0.05, whatever the deviation of the
permittivity is; which is why convergence is not proved for these (see `C36_gain_violates`). -/
theorem C135_gain_bias (m : Medium n N) {tol : ℝ} (h : m.transposedWith ev tol) (k0 : ℝ) (i0 : Fin n) (x0 : Idx N) (alphaR : ℝ) :
    (m.nonMagneticWith ev tol k0 [] i0 x0 alphaR).1.re = alphaR ∧
      0.05 - (m.nonMagneticWith ev tol k0 [] i0 x0 alphaR).1.im = √(largestWith ev (m.deltaEEBeta2 alphaR (m.betaNonMagnetic i0 x0))) / |m.betaNonMagnetic i0 x0| ∧
      (m.nonMagneticWith ev tol k0 [] i0 x0 alphaR).1.im ≤ 0.05 := by
  have him : (m.nonMagneticWith ev tol k0 [] i0 x0 alphaR).1.im = - m.sigmaEEWith ev alphaR (m.betaNonMagnetic i0 x0) + 0.05 := by
    simp only [Medium.nonMagneticWith, if_pos h, increaseBias]
    simp
  have h0 : 0 ≤ m.sigmaEEWith ev alphaR (m.betaNonMagnetic i0 x0) := by
    unfold Medium.sigmaEEWith
    positivity
  refine ⟨?_, ?_, by rw [him]; linarith⟩
  · simp only [Medium.nonMagneticWith, if_pos h, increaseBias_re]
    simp
  · rw [him]
    unfold Medium.sigmaEEWith
    ring

/-! ### Examples -/

/-- Vacuum that amplifies. -/
def amplifying (N : Fin d → ℕ) : Medium 3 N := ⟨fun _ => (1 - I) • 1, fun _ => 0, fun _ => 0, fun _ => 1⟩

theorem amplifying_transposed {eps : ℝ} (heps : 2 * eps ≤ 1) (h : √eps < 0.1) (torch : Bool) (N : Fin d → ℕ) (x : Idx N) : (amplifying N).transposedWith (spectrum eps torch) √eps := by
  refine (C135_transposed (C135_accuracy heps torch) _ _).2 ⟨_, .head _, x, Pi.single 0 1, ?_⟩ fun A hA => ?_
  · simp [amplifying, Fin.sum_univ_three, Pi.single_apply]
    linarith
  · have hs : 0 ≤ √eps := Real.sqrt_nonneg eps
    have hz : ¬ LossAbove √eps (fun _ : Idx N => (0 : Matrix (Fin 3) (Fin 3) ℂ)) := by
      rintro ⟨_, v, hv⟩
      simp only [Matrix.zero_mulVec, dotProduct_zero, zero_im] at hv
      exact absurd hv (not_lt.2 (by positivity))
    have hc : ∀ c : ℂ, c.im ≤ 0 → ¬ LossAbove √eps (fun _ : Idx N => c • (1 : Matrix (Fin 3) (Fin 3) ℂ)) := by
      rintro c hc ⟨_, v, hv⟩
      rw [Matrix.smul_mulVec, Matrix.one_mulVec, dotProduct_smul, star_dot_self, smul_eq_mul, im_mul_ofReal] at hv
      have hp : 0 ≤ ∑ i, ‖v i‖ ^ 2 := by positivity
      nlinarith [mul_nonneg hs hp, mul_nonneg (neg_nonneg.2 hc) hp]
    simp only [Medium.tensors, amplifying, List.mem_cons, List.not_mem_nil, or_false] at hA
    rcases hA with rfl | rfl | rfl | rfl
    · exact hc _ (by simp)
    · exact hz
    · exact hz
    · simpa using hc 1 (by simp)

/-- `C135_gain_bias`, `C135_transposed`, `C135_loss`: amplifying vacuum. -/
example {eps : ℝ} (heps : 2 * eps ≤ 1) (h : √eps < 0.1) (torch : Bool) (N : Fin d → ℕ) (x0 : Idx N) (k0 alphaR : ℝ) :=
  C135_gain_bias (amplifying N) (amplifying_transposed heps h torch N x0) k0 0 x0 alphaR

end Verif.Solver
