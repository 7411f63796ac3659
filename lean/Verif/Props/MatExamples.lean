import Verif.Props.MatTransfer
import Verif.Props.MatCache
import Verif.Props.MatProduct
import Verif.Props.MatOp
import Verif.Props.MatrixField
import Mathlib.Tactic.FinCases

/-!
Concrete cases that meet the hypotheses of the theorems on matrices.
-/

namespace Verif.Mat
open Matrix Verif.Spec.Mat

/-- The transfer matrix of `mirror`, a mirror that reflects 64% of the power. -/
theorem mirror_transfer (d : SVD (2 / 2)) : ∃ T, convert false d mirror 0 = .ok T := (C48_exists (n := 2) rfl le_rfl d mirror).1.2 ⟨_, backward_mirror⟩

/-- Every unitary matrix scatters without losses: the mirror. -/
theorem mirror_power (w : Waves (2 / 2)) (hw : Scatters mirror w) : power w.po + power w.no = power w.pi + power w.ni := by
  have e0 := congrFun hw 0
  have e1 := congrFun hw 1
  have u : ∀ i : Fin (2 / 2), i = ⟨0, by decide⟩ := fun i => Fin.ext (by have := i.2; simp at this; omega)
  have s : ∀ f : Fin (2 / 2) → ℝ, ∑ i, f i = f ⟨0, by decide⟩ := fun f => Fintype.sum_eq_single _ fun i hi => absurd (u i) hi
  simp only [joined, mirror, mulVec, dotProduct, Fin.sum_univ_two] at e0 e1
  simp at e0 e1
  simp only [power, s]
  rw [← Complex.normSq_eq_norm_sq, ← Complex.normSq_eq_norm_sq, ← Complex.normSq_eq_norm_sq, ← Complex.normSq_eq_norm_sq]
  rw [show w.po ⟨0, by decide⟩ = _ from e0, show w.no ⟨0, by decide⟩ = _ from e1]
  simp only [show (⟨0, by decide⟩ : Fin (2 / 2)) = 0 from rfl]
  simp only [Complex.normSq_apply, Complex.add_re, Complex.add_im, Complex.mul_re, Complex.mul_im, Complex.I_re, Complex.I_im]
  norm_num
  ring

/-- `C48_relation`, `C48_unique`, `C48_involution`, and `C48_power` for the mirror. -/
example (d : SVD (2 / 2)) := (mirror_transfer d).imp fun _ h => C48_relation (n := 2) rfl le_rfl h
example (d d' : SVD (2 / 2)) := (mirror_transfer d).imp fun _ h => C48_involution (n := 2) (d' := d') rfl le_rfl h
example (d : SVD (2 / 2)) : ∃ T, convert false d mirror 0 = .ok T ∧ ∀ T', (∀ w, Scatters mirror w ↔ Transfers T' w) ↔ T' = T := by
  obtain ⟨T, h⟩ := mirror_transfer d
  exact ⟨T, h, fun T' => ⟨C48_unique (n := 2) rfl le_rfl h, fun e => e ▸ C48_relation (n := 2) rfl le_rfl h⟩⟩
example (d : SVD (2 / 2)) : ∃ T, convert false d mirror 0 = .ok T ∧ ∀ w, Transfers T w → power w.po - power w.ni = power w.pi - power w.no := by
  obtain ⟨T, h⟩ := mirror_transfer d
  exact ⟨T, h, (C48_power (n := 2) rfl le_rfl h).1 mirror_power⟩

/-- `C48_noise` for a matrix of which the backward transmission is -2, and `C48_odd` for a matrix of three rows. -/
theorem negative_svd : IsSVD (n := 2 / 2) (backward (.of ![![1, 0], ![0, -2]])) ⟨.of fun _ _ => -1, fun _ => 2, 1⟩ := by
  have u : ∀ i : Fin (2 / 2), i = ⟨0, by decide⟩ := fun i => Fin.ext (by have := i.2; simp at this; omega)
  refine ⟨?_, ?_, by simp, fun _ => by norm_num⟩
  · ext i j
    rw [u i, u j]
    show (-2 : ℂ) = _
    simp [Matrix.mul_apply]
  · ext i j
    rw [u i, u j]
    simp [Matrix.mul_apply]
example := C48_noise (n := 2) rfl (noise := 1 / 10) (by norm_num) negative_svd
example (d : SVD 1) := C48_odd (n := 3) rfl true d (Matrix.of ![![1, 2, 3], ![4, 5, 6], ![7, 8, 9]]) (1 / 10)

/-- The singular value decomposition of a matrix that is not invertible. -/
theorem singular_svd : IsSVD (n := 2) (.of ![![0, 3], ![0, 0]]) ⟨1, ![3, 0], .of ![![0, 1], ![1, 0]]⟩ := by
  refine ⟨?_, by simp, ?_, ?_⟩
  · ext i j
    match i, j with
    | 0, 0 | 0, 1 | 1, 0 | 1, 1 => simp [Matrix.mul_apply, diagonal]
  · ext i j
    match i, j with
    | 0, 0 | 0, 1 | 1, 0 | 1, 1 => simp [Matrix.mul_apply, Fin.sum_univ_two]
  · intro j
    match j with
    | 0 | 1 => simp

/-- `C49_tikhonov`, `C49_minimum`, `C49_bounded`, and `C49_exact` for this matrix, which is inverted with a noise level of 1/10 and not without. -/
example := C49_tikhonov (noise := 1 / 10) (by norm_num) singular_svd
example := C49_minimum (noise := 1 / 10) (by norm_num) singular_svd
example := C49_bounded (noise := 1 / 10) (by norm_num) 3
example : inv ⟨1, ![3, 0], .of ![![0, 1], ![1, 0]]⟩ (.of ![![0, 3], ![0, 0]] : Matrix (Fin 2) (Fin 2) ℂ) 0 = .error .valueError := by
  rcases C49_exact le_rfl (.of ![![0, 3], ![0, 0]] : Matrix (Fin 2) (Fin 2) ℂ) ⟨1, ![3, 0], .of ![![0, 1], ![1, 0]]⟩ with ⟨B, -, h, -⟩ | h
  · have := congrFun (congrFun h 1) 1
    simp [Matrix.mul_apply, Fin.sum_univ_two] at this
  · exact h.1

/-- `C112_vacuum`, `C112_scattering`, `C112_resonance`, and `C112_lossless` for two mirrors. -/
example (d : SVD (4 / 2)) := C112_vacuum (n := 4) rfl le_rfl d
example (d1 d2 d : SVD (2 / 2)) : ∃ T1 T2, convert false d1 mirror 0 = .ok T1 ∧ convert false d2 mirror 0 = .ok T2 ∧
    ((∃ S, convert false d (T2 * T1) 0 = .ok S) ↔
      ∀ w1 w2 w : Waves (2 / 2), Stacked w1 w2 w → Scatters mirror w1 → Scatters mirror w2 → w.pi = 0 → w.ni = 0 → w.no = 0 ∧ w1.po = 0 ∧ w1.ni = 0) := by
  obtain ⟨T1, h1⟩ := mirror_transfer d1
  obtain ⟨T2, h2⟩ := mirror_transfer d2
  exact ⟨T1, T2, h1, h2, C112_resonance (n := 2) rfl le_rfl d h1 h2⟩
example (d1 d : SVD (2 / 2)) : ∃ T S, convert false d1 mirror 0 = .ok T ∧ convert false d (1 * T) 0 = .ok S ∧
    (∀ w, Scatters S w ↔ ∃ w1 w2, Stacked w1 w2 w ∧ Scatters mirror w1 ∧ Scatters 1 w2) ∧
    ∀ w, Scatters S w → power w.po + power w.no = power w.pi + power w.ni := by
  obtain ⟨T, h1⟩ := mirror_transfer d1
  have h2 := C112_vacuum (n := 2) rfl le_rfl d
  have h := C48_involution (n := 2) (d' := d) rfl le_rfl h1
  rw [← Matrix.one_mul T] at h
  refine ⟨T, _, h1, h, C112_scattering (n := 2) rfl le_rfl h1 h2 h, C112_lossless (n := 2) rfl le_rfl h1 h2 h mirror_power fun w hw => ?_⟩
  have hw' : joined w.po w.no = joined w.pi w.ni := by
    have := hw
    unfold Scatters at this
    rwa [Matrix.one_mulVec] at this
  have a : w.po = w.pi := by
    funext i
    have := congrFun hw' ⟨i, by have := i.2; omega⟩
    rw [show i = 0 from Fin.ext (by have := i.2; simp at this; omega)] at this ⊢
    simpa [joined] using this
  have b : w.no = w.ni := by
    funext i
    have := congrFun hw' ⟨1 + i, by have := i.2; simp at this; omega⟩
    rw [show i = 0 from Fin.ext (by have := i.2; simp at this; omega)] at this ⊢
    simpa [joined] using this
  rw [a, b]

/-- `C112_inverse` and `C108_adjoint` for a matrix with an array. -/
noncomputable def sampleOperator : LinOp ℂ := .literal ![![1, 2 * Complex.I], ![0, 3]]
theorem sample_consistent : Spec.Mat.Consistent sampleOperator := fun a ha => by cases ha; rfl
theorem sample_linear : sampleOperator.Linear := ⟨.of _, fun _ => rfl⟩
example (s : SVD 2) := C112_inverse sampleOperator sample_consistent sample_linear rfl le_rfl s
example := C108_adjoint sampleOperator sample_consistent fun v i => by
  show ∑ j : Fin 2, (![![1, 2 * Complex.I], ![0, 3]] : Fin 2 → Fin 2 → ℂ) i j * v j = ∑ j : Fin 2, (∑ l : Fin 2, (![![1, 2 * Complex.I], ![0, 3]] : Fin 2 → Fin 2 → ℂ) i l * Spec.Mat.single j 1 l) * v j
  simp [Fin.sum_univ_two, Spec.Mat.single]

/-- `C50_entries`, `C50_blocks`, `C50_rebuild`, and `C50_odd` for matrices of 2 × 2 and 3 × 3. -/
example := C50_entries sampleOperator sample_consistent 1 rfl rfl true false
example := C50_blocks sampleOperator sample_consistent 1 rfl rfl
example := C50_rebuild sampleOperator 1 rfl rfl (fun v w => by
  funext i
  show ∑ j : Fin 2, _ * (v j + w j) = _
  simp only [mul_add, Finset.sum_add_distrib]
  rfl) (fun _ => 1) fun _ => Complex.I
example := C50_odd (LinOp.literal fun (i j : Fin 3) => (10 * i + j : ℚ)) rfl true true

/-- `C51_partial`, `C51_element`, and `C51_many`: the element in the last row and the first column, in two ways, and three slices. -/
example := C51_element sampleOperator sample_consistent rfl (1 : Fin 2) (0 : Fin 2) (-1) 0 (.inr (by decide)) (.inl (by decide))
example := C51_partial sampleOperator sample_consistent rfl (.tuple [.int (-1), .newaxis, .int 0]) (by decide) fun _ _ _ _ h => by simp [slicesOf, Item.keys] at h
example := C51_many sampleOperator [.int 0, .slice none none none, .newaxis, .int 1] (by decide)

/-- `C65_partial` for an array with 3 rows and columns. -/
example := (C65_partial [3, 3] (by decide) 3 3).2 ⟨rfl, rfl⟩

/-- `C47_array`, `C47_array_ignored`, `C47_calls_array`, and `C47_mixin_partial`, for the matrix with rows (1, 2) and (3, 4). -/
example (ops : List (CacheOp ℚ 2)) := C47_array demoOperator_homogeneous ![![1, 2], ![3, 4]] (by decide +kernel) true ops
example (vss : List (List (Vec ℚ 2))) := C47_array_ignored demoOperator demoOperator_homogeneous.1 ![![0, 0], ![0, 0]] vss
example := C47_calls_array demoOperator ![![1, 2], ![3, 4]] 1 (a := 5) (by norm_num)
example := C47_mixin_partial demoOperator demoOperator_homogeneous.1 (Cache.init false) rfl (fun _ => rfl) ![1, 1] [![0, 5]]

end Verif.Mat

namespace Verif.MatrixField
open Matrix

/-- `C28_inv` and `C28_ldivide_partial` for the matrix with rows (1, 2) and (3, 4). -/
example := C28_inv (X := Unit) (ofMatrix_full fun _ => !![1, 2; 3, 4]).rep (by decide) fun _ => by rw [Matrix.det_fin_two_of]; norm_num
example := C28_ldivide_partial (X := Unit) (ofMatrix_full fun _ => !![1, 2; 3, 4]).rep (ofMatrix_full fun _ => !![0, 1; Complex.I, 2]).rep (by decide)
  fun _ => by rw [Matrix.det_fin_two_of]; norm_num

end Verif.MatrixField
