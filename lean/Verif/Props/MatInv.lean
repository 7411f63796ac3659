import Verif.Lemmas.MatSvd
import Verif.Spec.MatWaves
import Mathlib.Tactic.Linarith
import Mathlib.Tactic.Positivity
import Mathlib.Tactic.FieldSimp

/-!
# Property C49: `inv` with noise level is the Tikhonov inverse
-/

namespace Verif.Mat

open Matrix Verif.Spec.Mat

variable {n : ℕ}

/-- What `inv` returns with a positive noise level. -/
theorem inv_noise {noise : ℝ} (hn : 0 < noise) (s : SVD n) (A : Matrix (Fin n) (Fin n) ℂ) :
    inv s A noise = .ok (s.vhᴴ * diagonal (fun j => ((s.sigma j / (s.sigma j ^ 2 + noise ^ 2) : ℝ) : ℂ)) * s.uᴴ) := by
  unfold inv
  rw [if_pos hn]
  simp only [sq_abs]
  congr 1
  have h1 : (Matrix.of fun i j => s.u i j * ((s.sigma j / (s.sigma j ^ 2 + noise ^ 2) : ℝ) : ℂ)) =
      s.u * diagonal (fun j => ((s.sigma j / (s.sigma j ^ 2 + noise ^ 2) : ℝ) : ℂ)) := by
    ext i j
    rw [mul_diagonal, of_apply]
  rw [h1]
  have h2 : ∀ B : Matrix (Fin n) (Fin n) ℂ, Bᵀ.map (starRingEnd ℂ) = Bᴴ := fun B => rfl
  rw [h2, conjTranspose_mul, conjTranspose_mul, diagonal_conjTranspose, Matrix.mul_assoc]
  congr 3
  funext j
  simp [Pi.star_apply]

theorem regularized_unit {noise : ℝ} (hn : 0 < noise) {A : Matrix (Fin n) (Fin n) ℂ} {s : SVD n} (hs : IsSVD A s) :
    (Aᴴ * A + ((noise ^ 2 : ℝ) : ℂ) • 1) * (s.vhᴴ * diagonal (fun j => ((s.sigma j ^ 2 + noise ^ 2 : ℝ) : ℂ)⁻¹) * s.vh) = 1 := by
  have hv : s.vhᴴ * s.vh = 1 := mul_eq_one_comm.1 hs.vh
  have hA : Aᴴ * A = s.vhᴴ * diagonal (fun j => ((s.sigma j ^ 2 : ℝ) : ℂ)) * s.vh := by
    rw [hs.product, conjTranspose_mul, conjTranspose_mul, diagonal_conjTranspose]
    have : star (fun j => (s.sigma j : ℂ)) = fun j => (s.sigma j : ℂ) := by funext j; simp
    rw [this]
    have h1 : s.vhᴴ * (diagonal (fun j => (s.sigma j : ℂ)) * s.uᴴ) * (s.u * diagonal (fun j => (s.sigma j : ℂ)) * s.vh) =
        s.vhᴴ * (diagonal (fun j => (s.sigma j : ℂ)) * (s.uᴴ * s.u) * diagonal (fun j => (s.sigma j : ℂ))) * s.vh := by
      simp only [Matrix.mul_assoc]
    rw [h1, hs.u, Matrix.mul_one, diagonal_mul_diagonal]
    congr 3
    funext j
    push_cast
    ring
  have h2 : Aᴴ * A + ((noise ^ 2 : ℝ) : ℂ) • 1 = s.vhᴴ * diagonal (fun j => ((s.sigma j ^ 2 + noise ^ 2 : ℝ) : ℂ)) * s.vh := by
    have h3 : (diagonal (fun j => ((s.sigma j ^ 2 + noise ^ 2 : ℝ) : ℂ)) : Matrix (Fin n) (Fin n) ℂ) =
        diagonal (fun j => ((s.sigma j ^ 2 : ℝ) : ℂ)) + ((noise ^ 2 : ℝ) : ℂ) • 1 := by
      ext i j
      by_cases hij : i = j
      · subst hij; simp
      · simp [hij]
    rw [h3, Matrix.mul_add, Matrix.add_mul, ← hA, mul_smul_comm, smul_mul_assoc, Matrix.mul_one, hv]
  rw [h2]
  have h4 : s.vhᴴ * diagonal (fun j => ((s.sigma j ^ 2 + noise ^ 2 : ℝ) : ℂ)) * s.vh * (s.vhᴴ * diagonal (fun j => ((s.sigma j ^ 2 + noise ^ 2 : ℝ) : ℂ)⁻¹) * s.vh) =
      s.vhᴴ * (diagonal (fun j => ((s.sigma j ^ 2 + noise ^ 2 : ℝ) : ℂ)) * (s.vh * s.vhᴴ) * diagonal (fun j => ((s.sigma j ^ 2 + noise ^ 2 : ℝ) : ℂ)⁻¹)) * s.vh := by
    simp only [Matrix.mul_assoc]
  rw [h4, hs.vh, Matrix.mul_one, diagonal_mul_diagonal]
  have h5 : (fun j => ((s.sigma j ^ 2 + noise ^ 2 : ℝ) : ℂ) * ((s.sigma j ^ 2 + noise ^ 2 : ℝ) : ℂ)⁻¹) = fun _ => 1 := by
    funext j
    have : (s.sigma j ^ 2 + noise ^ 2 : ℝ) ≠ 0 := by positivity
    rw [mul_inv_cancel₀]
    exact_mod_cast this
  rw [h5, diagonal_one, Matrix.mul_one, hv]

theorem inv_noise_normal {noise : ℝ} (hn : 0 < noise) {A : Matrix (Fin n) (Fin n) ℂ} {s : SVD n} (hs : IsSVD A s) :
    (Aᴴ * A + ((noise ^ 2 : ℝ) : ℂ) • 1) * (s.vhᴴ * diagonal (fun j => ((s.sigma j / (s.sigma j ^ 2 + noise ^ 2) : ℝ) : ℂ)) * s.uᴴ) = Aᴴ := by
  have h1 : s.vhᴴ * diagonal (fun j => ((s.sigma j / (s.sigma j ^ 2 + noise ^ 2) : ℝ) : ℂ)) * s.uᴴ =
      (s.vhᴴ * diagonal (fun j => ((s.sigma j ^ 2 + noise ^ 2 : ℝ) : ℂ)⁻¹) * s.vh) * Aᴴ := by
    have h2 : Aᴴ = s.vhᴴ * (diagonal (fun j => (s.sigma j : ℂ)) * s.uᴴ) := by
      conv_lhs => rw [hs.product, conjTranspose_mul, conjTranspose_mul, diagonal_conjTranspose]
      congr 3
      funext j
      simp
    rw [h2]
    have h3 : s.vhᴴ * diagonal (fun j => ((s.sigma j ^ 2 + noise ^ 2 : ℝ) : ℂ)⁻¹) * s.vh * (s.vhᴴ * (diagonal (fun j => (s.sigma j : ℂ)) * s.uᴴ)) =
        s.vhᴴ * (diagonal (fun j => ((s.sigma j ^ 2 + noise ^ 2 : ℝ) : ℂ)⁻¹) * (s.vh * s.vhᴴ) * diagonal (fun j => (s.sigma j : ℂ))) * s.uᴴ := by
      simp only [Matrix.mul_assoc]
    rw [h3, hs.vh, Matrix.mul_one, diagonal_mul_diagonal]
    congr 3
    funext j
    push_cast
    rw [div_eq_inv_mul]
  rw [h1, ← Matrix.mul_assoc, regularized_unit hn hs, Matrix.one_mul]

/-- **C49**: With a positive noise level, `inv` returns the Tikhonov inverse, whatever singular value decomposition NumPy has found. -/
theorem C49_tikhonov {noise : ℝ} (hn : 0 < noise) {A : Matrix (Fin n) (Fin n) ℂ} {s : SVD n} (hs : IsSVD A s) :
    inv s A noise = .ok ((Aᴴ * A + ((noise ^ 2 : ℝ) : ℂ) • 1)⁻¹ * Aᴴ) := by
  rw [inv_noise hn]
  congr 1
  have hu := regularized_unit hn hs
  have hdet : IsUnit (Aᴴ * A + ((noise ^ 2 : ℝ) : ℂ) • 1).det := Matrix.isUnit_det_of_right_inverse hu
  have h2 := inv_noise_normal hn hs
  generalize Aᴴ * A + ((noise ^ 2 : ℝ) : ℂ) • 1 = M at *
  rw [← h2, ← Matrix.mul_assoc, Matrix.nonsing_inv_mul _ hdet, Matrix.one_mul]

/-- **C49**: There always is a singular value decomposition, so that the theorem applies to all matrices. -/
theorem C49_svd (A : Matrix (Fin n) (Fin n) ℂ) : ∃ s, IsSVD A s := exists_svd A

/-- **C49**: Without noise, `inv` returns the inverse from both sides if there is one, and raises otherwise. -/
theorem C49_exact {noise : ℝ} (hn : noise ≤ 0) (A : Matrix (Fin n) (Fin n) ℂ) (s : SVD n) :
    (∃ B, inv s A noise = .ok B ∧ A * B = 1 ∧ B * A = 1) ∨ (inv s A noise = .error .valueError ∧ ¬ ∃ B, A * B = 1) := by
  unfold inv
  rw [if_neg (not_lt.2 hn)]
  split
  · rename_i h
    exact .inl ⟨A⁻¹, rfl, Matrix.mul_nonsing_inv A h, Matrix.nonsing_inv_mul A h⟩
  · rename_i h
    exact .inr ⟨rfl, fun ⟨_, hB⟩ => h (Matrix.isUnit_det_of_right_inverse hB)⟩

/-! ### The minimum -/

theorem power_eq (x : Fin n → ℂ) : ((power x : ℝ) : ℂ) = star x ⬝ᵥ x := by
  simp only [power, dotProduct, Pi.star_apply]
  push_cast
  exact Finset.sum_congr rfl fun i _ => by
    rw [← Complex.conj_mul' (x i)]
    rfl

theorem power_nonneg (x : Fin n → ℂ) : 0 ≤ power x := Finset.sum_nonneg fun _ _ => sq_nonneg _

theorem power_eq_zero {x : Fin n → ℂ} (h : power x = 0) : x = 0 := by
  rw [power, Finset.sum_eq_zero_iff_of_nonneg fun _ _ => sq_nonneg _] at h
  funext i
  have := h i (Finset.mem_univ i)
  simpa using this

/-- The sum that is to be minimized exceeds that of a solution `y` of the normal equations by that of the difference. -/
theorem tikhonov_excess (A : Matrix (Fin n) (Fin n) ℂ) (noise : ℝ) (b x y : Fin n → ℂ)
    (hy : (Aᴴ * A + ((noise ^ 2 : ℝ) : ℂ) • 1).mulVec y = Aᴴ.mulVec b) :
    tikhonov A noise b x = tikhonov A noise b y + (power (A.mulVec (x - y)) + noise ^ 2 * power (x - y)) := by
  have hy' : Aᴴ.mulVec (A.mulVec y - b) + ((noise ^ 2 : ℝ) : ℂ) • y = 0 := by
    rw [add_mulVec, smul_mulVec, one_mulVec, ← mulVec_mulVec] at hy
    rw [mulVec_sub, ← hy]
    abel
  have key : ∀ z : Fin n → ℂ, star (A.mulVec z) ⬝ᵥ (A.mulVec y - b) + ((noise ^ 2 : ℝ) : ℂ) * (star z ⬝ᵥ y) = 0 := by
    intro z
    have h1 : star z ⬝ᵥ (Aᴴ.mulVec (A.mulVec y - b) + ((noise ^ 2 : ℝ) : ℂ) • y) = 0 := by rw [hy', dotProduct_zero]
    rw [dotProduct_add, dotProduct_smul, smul_eq_mul, dotProduct_mulVec, ← star_mulVec] at h1
    exact h1
  have key' : ∀ z : Fin n → ℂ, star (A.mulVec y - b) ⬝ᵥ (A.mulVec z) + ((noise ^ 2 : ℝ) : ℂ) * (star y ⬝ᵥ z) = 0 := by
    intro z
    have h1 := congrArg star (key z)
    rw [star_add, star_mul', star_zero, ← star_dotProduct_star, ← star_dotProduct_star, star_star, star_star] at h1
    simp only [RCLike.star_def, Complex.conj_ofReal] at h1
    exact h1
  have hx : x = y + (x - y) := by abel
  set z := x - y
  have h1 : (fun i => A.mulVec x i - b i) = (A.mulVec y - b) + A.mulVec z := by
    rw [hx, mulVec_add]
    funext i
    simp only [Pi.add_apply, Pi.sub_apply]
    ring
  have h2 : (fun i => A.mulVec y i - b i) = A.mulVec y - b := rfl
  have h3 : ((tikhonov A noise b x : ℝ) : ℂ) = ((tikhonov A noise b y + (power (A.mulVec z) + noise ^ 2 * power z) : ℝ) : ℂ) := by
    unfold tikhonov
    rw [h1, h2]
    push_cast
    simp only [power_eq]
    rw [hx]
    simp only [star_add, add_dotProduct, dotProduct_add]
    have k1 := key z
    have k2 := key' z
    push_cast at k1 k2
    linear_combination k1 + k2
  exact_mod_cast h3

/-- **C49**: What `inv` returns gives, for each right-hand side, the unique solution with the least squared error plus squared noise. -/
theorem C49_minimum {noise : ℝ} (hn : 0 < noise) {A : Matrix (Fin n) (Fin n) ℂ} {s : SVD n} (hs : IsSVD A s) :
    ∃ B, inv s A noise = .ok B ∧ ∀ b x, tikhonov A noise b (B.mulVec b) ≤ tikhonov A noise b x ∧
      (tikhonov A noise b (B.mulVec b) = tikhonov A noise b x → x = B.mulVec b) := by
  refine ⟨_, inv_noise hn s A, fun b x => ?_⟩
  set B := s.vhᴴ * diagonal (fun j => ((s.sigma j / (s.sigma j ^ 2 + noise ^ 2) : ℝ) : ℂ)) * s.uᴴ
  have hB : (Aᴴ * A + ((noise ^ 2 : ℝ) : ℂ) • 1).mulVec (B.mulVec b) = Aᴴ.mulVec b := by
    rw [mulVec_mulVec, inv_noise_normal hn hs]
  have he := tikhonov_excess A noise b x (B.mulVec b) hB
  have h1 := power_nonneg (A.mulVec (x - B.mulVec b))
  have h2 := power_nonneg (x - B.mulVec b)
  have h3 : 0 < noise ^ 2 := by positivity
  refine ⟨by nlinarith [mul_nonneg h3.le h2], fun h => ?_⟩
  have h4 : noise ^ 2 * power (x - B.mulVec b) = 0 := by nlinarith [mul_nonneg h3.le h2]
  have h5 : power (x - B.mulVec b) = 0 := by
    rcases mul_eq_zero.1 h4 with h | h
    · exact absurd h h3.ne'
    · exact h
  exact sub_eq_zero.1 (power_eq_zero h5)

/-- **C49**: The amplification of noise is bounded: the regularized inverse is never larger than `1 / (2 noise)`. -/
theorem C49_bounded {noise : ℝ} (hn : 0 < noise) (sigma : ℝ) : sigma / (sigma ^ 2 + noise ^ 2) ≤ 1 / (2 * noise) := by
  rw [div_le_div_iff₀ (by positivity) (by positivity)]
  nlinarith [sq_nonneg (sigma - noise)]

/-- **C63** does not hold: matrices that are not square cannot be inverted, with or without noise level. -/
theorem C63_violates {rows columns : ℕ} (h : rows ≠ columns) (s : SVD rows) (A : Matrix (Fin rows) (Fin columns) ℂ) (noise : ℝ) :
    invShape s A noise = .error .valueError := by
  unfold invShape
  rw [dif_neg h]
  split <;> rfl

/-- **C49**: For square matrices the shapes do not matter. -/
theorem C49_square (s : SVD n) (A : Matrix (Fin n) (Fin n) ℂ) (noise : ℝ) : invShape s A noise = inv s A noise := by
  unfold invShape
  rw [if_neg (by rintro ⟨-, h⟩; exact h ⟨.inl (by simp), by simp⟩), dif_pos rfl]
  have h : A.submatrix id (Fin.cast rfl) = A := rfl
  rw [h]
  cases inv s A noise <;> rfl

/-- The singular value decomposition of a matrix that is not invertible. -/
example : IsSVD (n := 2) (Matrix.of ![![0, 3], ![0, 0]]) ⟨1, ![3, 0], Matrix.of ![![0, 1], ![1, 0]]⟩ := by
  refine ⟨?_, by simp, ?_, ?_⟩
  · ext i j
    match i, j with
    | 0, 0 | 0, 1 | 1, 0 | 1, 1 => simp [Matrix.mul_apply, diagonal]
  · ext i j
    match i, j with
    | 0, 0 | 0, 1 | 1, 0 | 1, 1 => simp [Matrix.mul_apply, Fin.sum_univ_two]
  · intro j
    match j with
    | 0 | 1 => simp

end Verif.Mat
