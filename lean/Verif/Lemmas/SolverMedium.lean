import Verif.Lemmas.SolverRun
import Verif.Spec.Solver

/-!
# From the material to the bounds on the operator `χ`
-/

namespace Verif.Solver

open Verif Verif.Fourier Verif.Backend Complex
open Verif.Spec.Solver (NoGain Within)

variable {d n : ℕ} {N : Fin d → ℕ}

/-- The inner product of fields. -/
noncomputable def dot (F G : Field n N) : ℂ := ∑ c, ∑ x, (starRingEnd ℂ) (F c x) * G c x

theorem dot_eq (F G : Field n N) : dot F G = inner ℂ (toE F) (toE G) := (inner_toE F G).symm

theorem dot_add (F G H : Field n N) : dot F (G + H) = dot F G + dot F H := by
  simp only [dot_eq, map_add, inner_add_right]

theorem dot_sub (F G H : Field n N) : dot F (G - H) = dot F G - dot F H := by
  simp only [dot_eq, map_sub, inner_sub_right]

theorem dot_smul (a : ℂ) (F G : Field n N) : dot F (a • G) = a * dot F G := by
  simp only [dot_eq, map_smul, inner_smul_right]

theorem dot_self_im (F : Field n N) : (dot F F).im = 0 := by
  rw [dot_eq]; exact inner_self_im (𝕜 := ℂ) _

theorem dot_conj (F G : Field n N) : (starRingEnd ℂ) (dot F G) = dot G F := by
  rw [dot_eq, dot_eq, inner_conj_symm]

theorem norm_add_le' (F G : Field n N) : Backend.norm (F + G) ≤ Backend.norm F + Backend.norm G := by
  simp only [← norm_toE, map_add]; exact norm_add_le _ _

theorem norm_sub_le' (F G : Field n N) : Backend.norm (F - G) ≤ Backend.norm F + Backend.norm G := by
  simp only [← norm_toE, map_sub]; exact norm_sub_le _ _

theorem norm_smul' (a : ℂ) (F : Field n N) : Backend.norm (a • F) = ‖a‖ * Backend.norm F := by
  simp only [← norm_toE, map_smul]; exact norm_smul _ _

theorem mulField_mulVec (A : Tensor n N) (F : Field n N) (c : Fin n) (x : Idx N) : mulField A F c x = (A x).mulVec (fun j => F j x) c := rfl

theorem norm_mulField_le (A : Tensor n N) {r : ℝ} (hr : 0 ≤ r) (h : Within A r) (F : Field n N) :
    Backend.norm (mulField A F) ≤ r * Backend.norm F := by
  have : Backend.norm (mulField A F) ^ 2 ≤ (r * Backend.norm F) ^ 2 := by
    rw [mul_pow, norm_sq, norm_sq, Finset.sum_comm, Finset.sum_comm (f := fun c x => ‖F c x‖ ^ 2), Finset.mul_sum]
    exact Finset.sum_le_sum fun x _ => h x fun j => F j x
  exact le_of_sq_le_sq this (mul_nonneg hr (norm_nonneg' F))

theorem dot_mulField (A : Tensor n N) (F G : Field n N) :
    dot F (mulField A G) = ∑ x, star (fun j => F j x) ⬝ᵥ (A x).mulVec (fun j => G j x) := by
  unfold dot
  rw [Finset.sum_comm]
  rfl

/-! ### The curl -/

theorem curlFt_adjoint (k : Fin d → Idx N → ℝ) (F G : Fin 3 → Idx N → ℂ) (x : Idx N) :
    ∑ c, (starRingEnd ℂ) (F c x) * curlFt 3 k G c x = ∑ c, (starRingEnd ℂ) (curlFt 3 k F c x) * G c x := by
  have h1 := fun c => congrFun (C24_curl_ft k F x) c
  have h2 := fun c => congrFun (C24_curl_ft k G x) c
  simp only [h1, h2]
  have hr : ∀ c, (starRingEnd ℂ) (Spec.Backend.kVector k x c) = Spec.Backend.kVector k x c := by
    intro c
    unfold Spec.Backend.kVector
    split_ifs
    · exact conj_ofReal _
    · exact map_zero _
  have hv : ∀ F : Fin 3 → Idx N → ℂ, Spec.Backend.vector F x = fun c => F c x := fun F => by
    funext c
    simp [Spec.Backend.vector]
  simp only [hv, cross_apply, Fin.sum_univ_three, Matrix.cons_val_zero, Matrix.cons_val_one, Matrix.cons_val, map_mul, map_sub, conj_I, hr]
  ring

theorem curl_adjoint (k : Fin d → Idx N → ℝ) (F G : Field 3 N) : dot F (curl 3 k G) = dot (curl 3 k F) G := by
  rcases isEmpty_or_nonempty (Idx N) with he | ⟨⟨x0⟩⟩
  · unfold dot; simp
  have hP := prod_ne_zero_of_idx x0
  have hft : ∀ (F : Field 3 N) c, ft (curl 3 k F c) = curlFt 3 k (fun c => ft (F c)) c := by
    intro F c
    unfold curl convolve
    rw [C23_ft_ift]
  unfold dot
  apply mul_left_cancel₀ hP
  rw [Finset.mul_sum, Finset.mul_sum]
  simp_rw [← C23_inner, hft]
  rw [Finset.sum_comm]
  conv_rhs => rw [Finset.sum_comm]
  exact Finset.sum_congr rfl fun x _ => curlFt_adjoint k _ _ x

theorem cross_norm_le (u v : Fin 3 → ℂ) (hu : ∀ c, (starRingEnd ℂ) (u c) = u c) :
    ∑ c, ‖crossProduct u v c‖ ^ 2 ≤ (∑ c, ‖u c‖ ^ 2) * ∑ c, ‖v c‖ ^ 2 := by
  have key : ((∑ c, ‖crossProduct u v c‖ ^ 2 : ℝ) : ℂ) + ((‖∑ c, u c * v c‖ ^ 2 : ℝ) : ℂ) =
      (((∑ c, ‖u c‖ ^ 2) * ∑ c, ‖v c‖ ^ 2 : ℝ) : ℂ) := by
    have e : ∀ z : ℂ, ((‖z‖ ^ 2 : ℝ) : ℂ) = z * (starRingEnd ℂ) z := fun z => by
      rw [mul_conj, normSq_eq_norm_sq]
    rw [ofReal_mul, ofReal_sum, ofReal_sum, ofReal_sum]
    simp only [e, cross_apply, Fin.sum_univ_three, Matrix.cons_val_zero, Matrix.cons_val_one, Matrix.cons_val, map_mul, map_sub, map_add, hu]
    ring
  have h2 : (∑ c, ‖crossProduct u v c‖ ^ 2) + ‖∑ c, u c * v c‖ ^ 2 = (∑ c, ‖u c‖ ^ 2) * ∑ c, ‖v c‖ ^ 2 := by exact_mod_cast key
  nlinarith [sq_nonneg ‖∑ c, u c * v c‖]

theorem norm_curl_le (hd : d ≤ 3) (k : Fin d → Idx N → ℝ) {κ : ℝ} (hκ : 0 ≤ κ) (h : ∀ x, k2 k x ≤ κ ^ 2) (F : Field 3 N) :
    Backend.norm (curl 3 k F) ≤ κ * Backend.norm F := by
  rcases isEmpty_or_nonempty (Idx N) with he | ⟨⟨x0⟩⟩
  · unfold Backend.norm; simp
  have hP : (0 : ℝ) < ∏ a, (N a : ℝ) := by
    refine Finset.prod_pos fun a _ => ?_
    have := (Nat.zero_le _).trans_lt (x0 a).isLt
    exact_mod_cast this
  have hft : ∀ (F : Field 3 N) c, ft (curl 3 k F c) = curlFt 3 k (fun c => ft (F c)) c := by
    intro F c
    unfold curl convolve
    rw [C23_ft_ift]
  have : Backend.norm (curl 3 k F) ^ 2 ≤ (κ * Backend.norm F) ^ 2 := by
    rw [mul_pow, norm_sq, norm_sq]
    apply le_of_mul_le_mul_left _ hP
    rw [mul_left_comm, Finset.mul_sum, Finset.mul_sum]
    simp_rw [← C23_energy, hft]
    rw [Finset.sum_comm, Finset.sum_comm (f := fun c x => ‖ft (F c) x‖ ^ 2), Finset.mul_sum]
    refine Finset.sum_le_sum fun x _ => ?_
    have h1 := fun c => congrFun (C24_curl_ft k (fun c => ft (F c)) x) c
    simp only [h1, norm_mul, norm_I, one_mul]
    have hr : ∀ c, (starRingEnd ℂ) (Spec.Backend.kVector k x c) = Spec.Backend.kVector k x c := by
      intro c
      unfold Spec.Backend.kVector
      split_ifs
      · exact conj_ofReal _
      · exact map_zero _
    refine (cross_norm_le _ _ hr).trans ?_
    refine mul_le_mul_of_nonneg_right ?_ (Finset.sum_nonneg fun c _ => sq_nonneg _)
    refine le_trans (le_of_eq ?_) (h x)
    have hk2 := kVector_k2 k hd x
    have e : ((∑ c, ‖Spec.Backend.kVector k x c‖ ^ 2 : ℝ) : ℂ) = (k2 k x : ℂ) := by
      rw [← hk2, ofReal_sum]
      refine Finset.sum_congr rfl fun c _ => ?_
      rw [← normSq_eq_norm_sq, ← mul_conj, hr, sq]
    exact_mod_cast e
  exact le_of_sq_le_sq this (mul_nonneg hκ (norm_nonneg' F))

/-! ### The deviation of the medium from the reference medium -/

/-- The deviation, in the units of the back end. -/
noncomputable def deviation (k : Fin d → Idx N → ℝ) (alphaR beta : ℝ) : {n : ℕ} → Kind d n → Medium n N → Field n N → Field n N
  | _, .vectorial _, m, F => mulField (fun x => m.epsilonPrime x - ((alphaR * beta : ℝ) : ℂ) • 1) F
      - curl 3 k (mulField (fun x => m.muInv x - (beta : ℂ) • 1) (curl 3 k F))
      + curl 3 k (mulField m.chiEHBeta F) + mulField m.chiHEBeta (curl 3 k F)
  | _, .scalar, m, F => mulField (fun x => m.epsilonPrime x - ((alphaR * beta : ℝ) : ℂ) • 1) F

theorem chiOp_sub (k : Fin d → Idx N → ℝ) (kind : Kind d n) (m : Medium n N) (mag : Bool) {alpha : ℂ} (hα : alpha.im ≠ 0) {beta : ℝ}
    (hβ : beta ≠ 0) (S F0 F : Field n N) (hc : Consistent m mag beta) :
    chiOp k (prepared m mag alpha beta S F0) F - F = factor alpha beta • deviation k alpha.re beta kind m F := by
  have h1 := ofReal_ne hα
  have h2 := ofReal_ne hβ
  have hE : mulField (fun x => m.epsilonPrime x - ((alpha.re * beta : ℝ) : ℂ) • (1 : Matrix (Fin n) (Fin n) ℂ)) F =
      mulField m.epsilonPrime F - ((alpha.re * beta : ℝ) : ℂ) • F := by
    rw [mulField_sub_left m.epsilonPrime (fun _ => ((alpha.re * beta : ℝ) : ℂ) • 1), mulField_smul_left _ (fun _ => 1), mulField_one]
  have hI : (I / (alpha.im : ℂ)) = factor alpha beta * (beta : ℂ) := by unfold factor; field_simp
  have hone : F = (I / (alpha.im : ℂ) * ((alpha.re : ℂ) - alpha)) • F := by
    have : I / (alpha.im : ℂ) * ((alpha.re : ℂ) - alpha) = 1 := by
      have e : alpha = alpha.re + alpha.im * I := (re_add_im alpha).symm
      field_simp
      have : I * ((alpha.re : ℂ) - alpha) = alpha.im := by
        linear_combination (-I) * e - (alpha.im : ℂ) * I_mul_I
      exact this
    rw [this, one_smul]
  rw [chiOp_prepared k kind m mag hα hβ S F0 F hc]
  have hsub : ∀ A : Field n N, A - F = A - (I / (alpha.im : ℂ) * ((alpha.re : ℂ) - alpha)) • F := fun A => by rw [← hone]
  rw [hsub, hI]
  cases kind with
  | scalar =>
    simp only [deviation, waveOp]
    rw [hE]
    push_cast
    module
  | vectorial hd =>
    have hL := curl_isLinear (n := 3) (m := 3) k
    have hM : mulField (fun x => m.muInv x - (beta : ℂ) • (1 : Matrix (Fin 3) (Fin 3) ℂ)) (curl 3 k F) =
        mulField m.muInv (curl 3 k F) - (beta : ℂ) • curl 3 k F := by
      rw [mulField_sub_left m.muInv (fun _ => (beta : ℂ) • 1), mulField_smul_left _ (fun _ => 1), mulField_one]
    simp only [deviation, waveOp, curlCurl]
    rw [hE, hM, hL.map_sub, hL.map_smul]
    push_cast
    module

/-! ### Bounds -/

theorem norm_factor {alpha : ℂ} (hα : 0 < alpha.im) {beta : ℝ} (hβ : 0 < beta) : ‖factor alpha beta‖ = 1 / (alpha.im * beta) := by
  unfold factor
  rw [norm_div, norm_div, norm_I, norm_real, norm_real, Real.norm_of_nonneg hα.le, Real.norm_of_nonneg hβ.le]
  field_simp

theorem bounded_of_deviation {k : Fin d → Idx N → ℝ} (kind : Kind d n) (m : Medium n N) (mag : Bool) {alpha : ℂ} (hα : 0 < alpha.im) {beta : ℝ}
    (hβ : 0 < beta) (S F0 : Field n N) (hc : Consistent m mag beta) {ρ : ℝ}
    (h : ∀ F, Backend.norm (deviation k alpha.re beta kind m F) ≤ ρ * (alpha.im * beta) * Backend.norm F) :
    Bounded k (prepared m mag alpha beta S F0) ρ := by
  intro F
  rw [chiOp_sub k kind m mag hα.ne' hβ.ne' S F0 F hc, norm_smul', norm_factor hα hβ]
  have := h F
  have hp : 0 < alpha.im * beta := mul_pos hα hβ
  rw [div_mul_eq_mul_div, one_mul, div_le_iff₀ hp]
  linarith

theorem passive_of_deviation {k : Fin d → Idx N → ℝ} (kind : Kind d n) (m : Medium n N) (mag : Bool) {alpha : ℂ} (hα : 0 < alpha.im) {beta : ℝ}
    (hβ : 0 < beta) (S F0 : Field n N) (hc : Consistent m mag beta) (h : ∀ F, 0 ≤ (dot F (deviation k alpha.re beta kind m F)).im) :
    Passive k (prepared m mag alpha beta S F0) := by
  intro F
  have e : (∑ c, ∑ x, (starRingEnd ℂ) (F c x) * (chiOp k (prepared m mag alpha beta S F0) F c x - F c x)) =
      dot F (chiOp k (prepared m mag alpha beta S F0) F - F) := rfl
  rw [e, chiOp_sub k kind m mag hα.ne' hβ.ne' S F0 F hc, dot_smul]
  have hf : factor alpha beta = ((1 / (alpha.im * beta) : ℝ) : ℂ) * I := by
    unfold factor; push_cast; field_simp
  rw [hf, mul_assoc, re_ofReal_mul, I_mul_re]
  have := h F
  have hp : 0 < alpha.im * beta := mul_pos hα hβ
  have : 0 ≤ 1 / (alpha.im * beta) * (dot F (deviation k alpha.re beta kind m F)).im := by positivity
  linarith

/-- The largest singular value of the coupling between electric and magnetic fields and of the permeability adds to that of the permittivity. -/
theorem deviation_norm_vectorial (hd : d ≤ 3) (k : Fin d → Idx N → ℝ) {κ : ℝ} (hκ : 0 ≤ κ) (hk2 : ∀ x, k2 k x ≤ κ ^ 2) (m : Medium 3 N)
    {alphaR beta sE sM sEH sHE : ℝ} (h1 : 0 ≤ sE) (h2 : 0 ≤ sM) (h3 : 0 ≤ sEH) (h4 : 0 ≤ sHE)
    (hE : Within (fun x => m.epsilonPrime x - ((alphaR * beta : ℝ) : ℂ) • 1) sE) (hM : Within (fun x => m.muInv x - (beta : ℂ) • 1) sM)
    (hEH : Within m.chiEHBeta sEH) (hHE : Within m.chiHEBeta sHE) (F : Field 3 N) :
    Backend.norm (deviation k alphaR beta (.vectorial hd) m F) ≤ (sE + κ ^ 2 * sM + κ * (sEH + sHE)) * Backend.norm F := by
  have c := norm_curl_le hd k hκ hk2
  have b1 := norm_mulField_le _ h1 hE F
  have b2 : Backend.norm (curl 3 k (mulField (fun x => m.muInv x - (beta : ℂ) • 1) (curl 3 k F))) ≤ κ * (sM * (κ * Backend.norm F)) :=
    (c _).trans (mul_le_mul_of_nonneg_left ((norm_mulField_le _ h2 hM _).trans (mul_le_mul_of_nonneg_left (c F) h2)) hκ)
  have b3 : Backend.norm (curl 3 k (mulField m.chiEHBeta F)) ≤ κ * (sEH * Backend.norm F) :=
    (c _).trans (mul_le_mul_of_nonneg_left (norm_mulField_le _ h3 hEH _) hκ)
  have b4 : Backend.norm (mulField m.chiHEBeta (curl 3 k F)) ≤ sHE * (κ * Backend.norm F) :=
    (norm_mulField_le _ h4 hHE _).trans (mul_le_mul_of_nonneg_left (c F) h4)
  simp only [deviation]
  refine (norm_add_le' _ _).trans ?_
  refine (add_le_add_left ((norm_add_le' _ _).trans (add_le_add_left (norm_sub_le' _ _) _)) _).trans ?_
  linarith

theorem im_dot_real (r : ℝ) (F : Field n N) : (dot F ((r : ℂ) • F)).im = 0 := by
  rw [dot_smul, im_ofReal_mul, dot_self_im, mul_zero]

theorem mulField_sub_real (A : Tensor n N) (r : ℝ) (F : Field n N) : mulField (fun x => A x - (r : ℂ) • 1) F = mulField A F - (r : ℂ) • F := by
  rw [mulField_sub_left A (fun _ => (r : ℂ) • 1), mulField_smul_left _ (fun _ => 1), mulField_one]

/-- The imaginary part of the form of the deviation does not depend on the bias and is the sum of local terms. -/
theorem deviation_im_vectorial (hd : d ≤ 3) (k : Fin d → Idx N → ℝ) (m : Medium 3 N) (alphaR beta : ℝ) (F : Field 3 N) :
    (dot F (deviation k alphaR beta (.vectorial hd) m F)).im = ∑ x,
      (star (fun j => F j x) ⬝ᵥ (m.epsilonPrime x).mulVec (fun j => F j x)
        - star (fun j => curl 3 k F j x) ⬝ᵥ (m.muInv x).mulVec (fun j => curl 3 k F j x)
        + star (fun j => curl 3 k F j x) ⬝ᵥ (m.chiEHBeta x).mulVec (fun j => F j x)
        + star (fun j => F j x) ⬝ᵥ (m.chiHEBeta x).mulVec (fun j => curl 3 k F j x)).im := by
  simp only [deviation]
  rw [mulField_sub_real, mulField_sub_real, dot_add, dot_add, dot_sub, dot_sub, curl_adjoint, curl_adjoint, dot_sub, add_im, add_im, sub_im, sub_im, sub_im,
    im_dot_real, im_dot_real, dot_mulField, dot_mulField, dot_mulField, dot_mulField]
  simp only [sub_zero, im_sum, add_im, sub_im, Finset.sum_add_distrib, Finset.sum_sub_distrib]

theorem deviation_im_scalar (k : Fin d → Idx N → ℝ) (m : Medium 1 N) (alphaR beta : ℝ) (F : Field 1 N) :
    (dot F (deviation k alphaR beta .scalar m F)).im = ∑ x, (star (fun j => F j x) ⬝ᵥ (m.epsilonPrime x).mulVec (fun j => F j x)).im := by
  simp only [deviation]
  rw [mulField_sub_real, dot_sub, sub_im, im_dot_real, sub_zero, dot_mulField, im_sum]

/-- The inverse of a permeability without gain. -/
theorem im_inv (A : Matrix (Fin n) (Fin n) ℂ) (hA : IsUnit A.det) (h : ∀ v : Fin n → ℂ, 0 ≤ (star v ⬝ᵥ A.mulVec v).im) (w : Fin n → ℂ) :
    (star w ⬝ᵥ A⁻¹.mulVec w).im ≤ 0 := by
  have h1 := h (A⁻¹.mulVec w)
  rw [Matrix.mulVec_mulVec, Matrix.mul_nonsing_inv _ hA, Matrix.one_mulVec] at h1
  have h2 : star (A⁻¹.mulVec w) ⬝ᵥ w = star (star w ⬝ᵥ A⁻¹.mulVec w) := Matrix.star_dotProduct _ _
  rw [h2] at h1
  simpa using h1

end Verif.Solver
