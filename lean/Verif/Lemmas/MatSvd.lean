import Verif.Model.MatConvert
import Mathlib.Analysis.Matrix.Spectrum
import Mathlib.Analysis.Matrix.PosDef
import Mathlib.Analysis.InnerProductSpace.PiL2

/-!
# Singular value decompositions
-/

namespace Verif.Mat

open Matrix

variable {n : ℕ}

/-- What the documentation of `numpy.linalg.svd` says: the matrix is the product of a unitary matrix, the non-negative singular values, and a unitary matrix. -/
structure IsSVD (A : Matrix (Fin n) (Fin n) ℂ) (s : SVD n) : Prop where
  product : A = s.u * diagonal (fun j => (s.sigma j : ℂ)) * s.vh
  u : s.uᴴ * s.u = 1
  vh : s.vh * s.vhᴴ = 1
  sigma : ∀ j, 0 ≤ s.sigma j

theorem orthonormal_matrix (b : OrthonormalBasis (Fin n) ℂ (EuclideanSpace ℂ (Fin n))) :
    (Matrix.of fun i j => (b j).ofLp i)ᴴ * (Matrix.of fun i j => (b j).ofLp i) = 1 := by
  ext i j
  have h := b.inner_eq_ite i j
  rw [EuclideanSpace.inner_eq_star_dotProduct] at h
  rw [Matrix.mul_apply, Matrix.one_apply, ← h]
  simp only [dotProduct, conjTranspose_apply, of_apply, Pi.star_apply]
  exact Finset.sum_congr rfl fun k _ => mul_comm _ _

/-- Every matrix has a singular value decomposition. -/
theorem exists_svd (A : Matrix (Fin n) (Fin n) ℂ) : ∃ s, IsSVD A s := by
  have hH : (Aᴴ * A).IsHermitian := isHermitian_conjTranspose_mul_self A
  set w := hH.eigenvectorBasis with hw
  set l := hH.eigenvalues with hl
  -- the inner products of the images
  have hin : ∀ i j, inner ℂ (WithLp.toLp 2 (A.mulVec (w i).ofLp)) (WithLp.toLp 2 (A.mulVec (w j).ofLp)) = if i = j then (l j : ℂ) else 0 := by
    intro i j
    have h1 : inner ℂ (WithLp.toLp 2 (A.mulVec (w i).ofLp)) (WithLp.toLp 2 (A.mulVec (w j).ofLp)) =
        (l j : ℂ) * inner ℂ (w i) (w j) := by
      rw [EuclideanSpace.inner_eq_star_dotProduct, EuclideanSpace.inner_eq_star_dotProduct]
      change (A.mulVec (w j).ofLp) ⬝ᵥ star (A.mulVec (w i).ofLp) = _
      rw [star_mulVec, dotProduct_comm, ← dotProduct_mulVec, mulVec_mulVec]
      have h2 := hH.mulVec_eigenvectorBasis j
      rw [h2, dotProduct_comm]
      simp only [dotProduct, Pi.smul_apply, Complex.real_smul, Finset.mul_sum, mul_assoc]
      rfl
    rw [h1, w.inner_eq_ite]
    split <;> simp
  have hnorm : ∀ i, (‖(WithLp.toLp 2 (A.mulVec (w i).ofLp) : EuclideanSpace ℂ (Fin n))‖ : ℝ) ^ 2 = l i := by
    intro i
    have h1 := hin i i
    rw [if_pos rfl, inner_self_eq_norm_sq_to_K, ← RCLike.ofReal_pow] at h1
    exact Complex.ofReal_injective h1
  have hnn : ∀ i, 0 ≤ l i := fun i => (hnorm i) ▸ sq_nonneg _
  have hsq : ∀ i, √(l i) ^ 2 = l i := fun i => Real.sq_sqrt (hnn i)
  let v : Fin n → EuclideanSpace ℂ (Fin n) := fun i => ((√(l i))⁻¹ : ℂ) • WithLp.toLp 2 (A.mulVec (w i).ofLp)
  let s : Set (Fin n) := {i | √(l i) ≠ 0}
  have hv : Orthonormal ℂ (s.domRestrict v) := by
    rw [orthonormal_iff_ite]
    rintro ⟨i, hi⟩ ⟨j, hj⟩
    change inner ℂ (v i) (v j) = _
    simp only [v, inner_smul_left, inner_smul_right, hin, Subtype.mk.injEq]
    by_cases hij : i = j
    · subst hij
      rw [if_pos rfl, if_pos rfl]
      have hi' : ((√(l i) : ℝ) : ℂ) ≠ 0 := by exact_mod_cast hi
      have h2 : ((l i : ℝ) : ℂ) = (√(l i) : ℂ) ^ 2 := by rw [← Complex.ofReal_pow, hsq]
      rw [h2, map_inv₀, Complex.conj_ofReal]
      field_simp
    · simp [hij]
  obtain ⟨b, hb⟩ := hv.exists_orthonormalBasis_extension_of_card_eq (by simp)
  have hAw : ∀ j, A.mulVec (w j).ofLp = (√(l j) : ℂ) • (b j).ofLp := by
    intro j
    by_cases hj : √(l j) = 0
    · have h1 : l j = 0 := by rw [← hsq j, hj]; norm_num
      have h2 := hnorm j
      rw [h1, sq_eq_zero_iff, norm_eq_zero] at h2
      rw [hj, Complex.ofReal_zero, zero_smul]
      exact congrArg WithLp.ofLp h2
    · rw [hb j hj]
      have hj' : ((√(l j) : ℝ) : ℂ) ≠ 0 := by exact_mod_cast hj
      simp only [v, WithLp.ofLp_smul, smul_smul]
      rw [mul_inv_cancel₀ hj', one_smul]
  have hW := orthonormal_matrix w
  have hU := orthonormal_matrix b
  set W : Matrix (Fin n) (Fin n) ℂ := Matrix.of fun i j => (w j).ofLp i with hWdef
  set U : Matrix (Fin n) (Fin n) ℂ := Matrix.of fun i j => (b j).ofLp i with hUdef
  refine ⟨⟨U, fun j => √(l j), Wᴴ⟩, ?_, hU, ?_, fun j => Real.sqrt_nonneg _⟩
  · have h1 : A * W = U * diagonal fun j => ((√(l j) : ℝ) : ℂ) := by
      ext i j
      have h2 := congrFun (hAw j) i
      rw [mul_diagonal]
      simp only [Pi.smul_apply, smul_eq_mul] at h2
      rw [mul_comm, hUdef, of_apply, ← h2]
      rfl
    have h3 : W * Wᴴ = 1 := mul_eq_one_comm.1 hW
    simp only
    rw [← h1, Matrix.mul_assoc, h3, Matrix.mul_one]
  · simp only [conjTranspose_conjTranspose]
    exact hW

end Verif.Mat
