import Verif.Model.Bias
import Verif.Spec.Solver
import Mathlib.Analysis.Matrix.PosDef
import Mathlib.LinearAlgebra.Matrix.ToLinearEquiv

/-!
# Largest eigenvalues and quadratic forms
-/

namespace Verif.Solver

open Verif Verif.Fourier Verif.Backend Complex Matrix
open Verif.Spec.Solver (NoGain Within)

variable {d n : ℕ} {N : Fin d → ℕ}

theorem mem_roots_iff (A : Matrix (Fin n) (Fin n) ℂ) (z : ℂ) : z ∈ A.charpoly.roots ↔ ∃ v : Fin n → ℂ, v ≠ 0 ∧ A *ᵥ v = z • v := by
  rw [Polynomial.mem_roots (Matrix.charpoly_monic A).ne_zero, Polynomial.IsRoot, Matrix.eval_charpoly, ← Matrix.exists_mulVec_eq_zero_iff]
  refine exists_congr fun v => and_congr_right fun _ => ?_
  rw [Matrix.sub_mulVec, sub_eq_zero]
  have : (Matrix.scalar (Fin n) z) *ᵥ v = z • v := by
    rw [Matrix.scalar_apply, ← Matrix.smul_one_eq_diagonal, Matrix.smul_mulVec, Matrix.one_mulVec]
  rw [this, eq_comm]

theorem star_dot_self (v : Fin n → ℂ) : star v ⬝ᵥ v = ((∑ i, ‖v i‖ ^ 2 : ℝ) : ℂ) := by
  simp only [dotProduct, Pi.star_apply, RCLike.star_def, ofReal_sum]
  refine Finset.sum_congr rfl fun i _ => ?_
  rw [mul_comm, mul_conj, normSq_eq_norm_sq]

theorem sum_pos_of_ne {v : Fin n → ℂ} (h : v ≠ 0) : 0 < ∑ i, ‖v i‖ ^ 2 := by
  obtain ⟨i, hi⟩ := Function.ne_iff.1 h
  exact Finset.sum_pos' (fun _ _ => sq_nonneg _) ⟨i, Finset.mem_univ _, by have := norm_pos_iff.2 hi; positivity⟩

open scoped ComplexOrder in
/-- A Hermitian matrix of which no eigenvalue is negative has a form that is nowhere negative. -/
theorem form_nonneg {A : Matrix (Fin n) (Fin n) ℂ} (hA : A.IsHermitian) (h : ∀ z ∈ A.charpoly.roots, 0 ≤ z.re) (v : Fin n → ℂ) :
    0 ≤ (star v ⬝ᵥ A *ᵥ v).re := by
  have hp : A.PosSemidef := by
    rw [hA.posSemidef_iff_eigenvalues_nonneg]
    intro j
    have h1 := hA.mulVec_eigenvectorBasis j
    have h2 : ((hA.eigenvalues j : ℝ) : ℂ) ∈ A.charpoly.roots := by
      rw [mem_roots_iff]
      refine ⟨⇑(hA.eigenvectorBasis j), ?_, ?_⟩
      · intro h0
        have := hA.eigenvectorBasis.orthonormal.ne_zero j
        exact this (by ext i; exact congrFun h0 i)
      · rw [h1]; rfl
    exact h _ h2
  exact hp.re_dotProduct_nonneg v

theorem eigenvalue_le (A : Tensor n N) (x : Idx N) {z : ℂ} (hz : z ∈ (A x).charpoly.roots) : ‖z‖ ≤ largestEigenvalue A := by
  refine le_csSup ?_ ⟨x, z, hz, rfl⟩
  have : {r | ∃ x, ∃ z ∈ (A x).charpoly.roots, r = ‖z‖} = ⋃ x, (fun z => ‖z‖) '' {z | z ∈ (A x).charpoly.roots} := by
    ext r
    simp only [Set.mem_ofPred_eq, Set.mem_iUnion, Set.mem_image]
    exact exists_congr fun x => exists_congr fun z => and_congr_right fun _ => eq_comm
  rw [this]
  refine (Set.finite_iUnion fun x => Set.Finite.image _ ?_).bddAbove
  exact (A x).charpoly.roots.finite_toSet

theorem largestEigenvalue_nonneg (A : Tensor n N) : 0 ≤ largestEigenvalue A := by
  refine Real.sSup_nonneg ?_
  rintro r ⟨x, z, -, rfl⟩
  exact norm_nonneg z

/-- The form of a Hermitian matrix is bounded by its largest eigenvalue. -/
theorem form_le (A : Tensor n N) (x : Idx N) (hA : (A x).IsHermitian) (v : Fin n → ℂ) :
    (star v ⬝ᵥ A x *ᵥ v).re ≤ largestEigenvalue A * ∑ i, ‖v i‖ ^ 2 := by
  set c := largestEigenvalue A
  have hH : ((c : ℂ) • (1 : Matrix (Fin n) (Fin n) ℂ) - A x).IsHermitian := by
    refine Matrix.IsHermitian.sub ?_ hA
    rw [Matrix.IsHermitian, Matrix.conjTranspose_smul, Matrix.conjTranspose_one, RCLike.star_def, conj_ofReal]
  have h1 := form_nonneg hH (fun z hz => by
    obtain ⟨w, hw, he⟩ := (mem_roots_iff _ z).1 hz
    have hr : (c : ℂ) - z ∈ (A x).charpoly.roots := by
      refine (mem_roots_iff _ _).2 ⟨w, hw, ?_⟩
      rw [Matrix.sub_mulVec, Matrix.smul_mulVec, Matrix.one_mulVec] at he
      rw [sub_smul, ← he]; abel
    have h2 := (Complex.re_le_norm _).trans (eigenvalue_le A x hr)
    rw [sub_re, ofReal_re] at h2
    linarith) v
  rw [Matrix.sub_mulVec, Matrix.smul_mulVec, Matrix.one_mulVec, dotProduct_sub, dotProduct_smul, star_dot_self, smul_eq_mul, ← ofReal_mul, sub_re,
    ofReal_re] at h1
  linarith

theorem normSq_mulVec (A : Matrix (Fin n) (Fin n) ℂ) (v : Fin n → ℂ) : ((∑ i, ‖(A *ᵥ v) i‖ ^ 2 : ℝ) : ℂ) = star v ⬝ᵥ (Aᴴ * A) *ᵥ v := by
  rw [← star_dot_self, Matrix.star_mulVec, ← Matrix.mulVec_mulVec, ← Matrix.dotProduct_mulVec]

/-- The square root of the largest eigenvalue of `AᴴA` bounds the singular values. -/
theorem within_of_gram (A B : Tensor n N) (h : ∀ x, B x = (A x)ᴴ * A x) : Within A (Real.sqrt (largestEigenvalue B)) := by
  intro x v
  rw [Real.sq_sqrt (largestEigenvalue_nonneg B)]
  have hH : (B x).IsHermitian := by rw [h]; exact Matrix.isHermitian_conjTranspose_mul_self _
  have := form_le B x hH v
  rw [h, ← normSq_mulVec, ofReal_re] at this
  exact this

theorem within_largest (A : Tensor n N) : Within A (largestSingularValue A) := within_of_gram A _ fun _ => rfl

theorem gram_sub (A : Matrix (Fin n) (Fin n) ℂ) (c : ℝ) :
    (A - (c : ℂ) • 1)ᴴ * (A - (c : ℂ) • 1) = Aᴴ * A + (((|c| ^ 2 : ℝ) : ℂ) • 1 - ((c : ℂ) • Aᴴ + (c : ℂ) • A)) := by
  rw [Matrix.conjTranspose_sub, Matrix.conjTranspose_smul, Matrix.conjTranspose_one, RCLike.star_def, conj_ofReal, sq_abs, Matrix.sub_mul, Matrix.mul_sub,
    Matrix.mul_sub, Matrix.mul_smul, Matrix.smul_mul, Matrix.smul_mul, Matrix.mul_smul, Matrix.mul_one, Matrix.one_mul, Matrix.mul_one, smul_smul]
  push_cast
  rw [sq]
  abel

theorem within_mono {A : Tensor n N} {r s : ℝ} (hr : 0 ≤ r) (hrs : r ≤ s) (h : Within A r) : Within A s := by
  intro x v
  refine (h x v).trans (mul_le_mul_of_nonneg_right (pow_le_pow_left₀ hr hrs 2) (Finset.sum_nonneg fun _ _ => sq_nonneg _))

theorem Medium.within_sigmaEE (m : Medium n N) (alphaR : ℝ) {beta : ℝ} (hβ : beta ≠ 0) :
    Within (fun x => m.epsilonPrime x - ((alphaR * beta : ℝ) : ℂ) • 1) (m.sigmaEE alphaR beta * |beta|) := by
  unfold Medium.sigmaEE
  rw [div_mul_cancel₀ _ (abs_ne_zero.2 hβ)]
  refine within_of_gram _ _ fun x => ?_
  rw [gram_sub, Medium.deltaEEBeta2, add_comm]

theorem Medium.within_sigmaHH (m : Medium n N) {beta : ℝ} (hβ : beta ≠ 0) :
    Within (fun x => m.muInv x - (beta : ℂ) • 1) (m.sigmaHH beta * |beta|) := by
  unfold Medium.sigmaHH
  rw [div_mul_cancel₀ _ (abs_ne_zero.2 hβ)]
  refine within_of_gram _ _ fun x => ?_
  rw [gram_sub, Medium.chiHHBeta2]

/-- The form of the anti-Hermitian part. -/
theorem form_gain (A : Matrix (Fin n) (Fin n) ℂ) (v : Fin n → ℂ) :
    star v ⬝ᵥ ((-I / 2) • (A - Aᴴ)) *ᵥ v = ((star v ⬝ᵥ A *ᵥ v).im : ℂ) := by
  rw [Matrix.smul_mulVec, dotProduct_smul, Matrix.sub_mulVec, dotProduct_sub, smul_eq_mul]
  have h2 : star v ⬝ᵥ Aᴴ *ᵥ v = (starRingEnd ℂ) (star v ⬝ᵥ A *ᵥ v) := by
    rw [Matrix.dotProduct_mulVec, ← Matrix.star_mulVec, Matrix.star_dotProduct]
    rfl
  rw [h2, sub_conj]
  have := I_mul_I
  push_cast
  linear_combination (-((star v ⬝ᵥ A *ᵥ v).im : ℂ)) * this

/-- `has_gain` with a tolerance of zero is false exactly for materials without gain. -/
theorem hasGain_iff (A : Tensor n N) : hasGain 0 A ↔ ¬ NoGain A := by
  constructor
  · rintro ⟨x, z, hz, hre⟩ h
    obtain ⟨v, hv, he⟩ := (mem_roots_iff _ z).1 hz
    have h1 := form_gain (A x) v
    rw [he, dotProduct_smul, star_dot_self, smul_eq_mul] at h1
    have h2 := congrArg Complex.re h1
    rw [mul_comm, re_ofReal_mul, ofReal_re] at h2
    have h3 := h x v
    have h4 := sum_pos_of_ne hv
    rw [neg_zero] at hre
    nlinarith
  · intro h
    by_contra hg
    refine h fun x v => ?_
    have hH : ((-I / 2) • (A x - (A x)ᴴ)).IsHermitian := by
      rw [Matrix.IsHermitian, Matrix.conjTranspose_smul, Matrix.conjTranspose_sub, Matrix.conjTranspose_conjTranspose, RCLike.star_def]
      have : (starRingEnd ℂ) (-I / 2) = - (-I / 2) := by
        rw [map_div₀, map_neg, conj_I, map_ofNat]; ring
      rw [this, neg_smul, ← smul_neg, neg_sub]
    have h1 := form_nonneg hH (fun z hz => by
      by_contra hz0
      exact hg ⟨x, z, hz, by rw [neg_zero]; exact not_le.1 hz0⟩) v
    rw [form_gain, ofReal_re] at h1
    exact h1

theorem hasGain_mono {tol : ℝ} (htol : 0 ≤ tol) {A : Tensor n N} (h : hasGain tol A) : hasGain 0 A := by
  obtain ⟨x, z, hz, hre⟩ := h
  exact ⟨x, z, hz, by linarith⟩

end Verif.Solver
