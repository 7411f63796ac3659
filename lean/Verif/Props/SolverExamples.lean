import Verif.Props.SolverBias
import Mathlib.Analysis.Real.Pi.Bounds

/-!
# A concrete problem that meets the assumptions of C32–C36

Two sample points along one axis, an absorbing anisotropic permittivity and an isotropic permeability, both different at the two points.
-/

namespace Verif.Solver

open Verif Verif.Fourier Verif.Backend Complex Matrix
open Verif.Spec.Solver (NoGain Within WaveEquation ScalarWaveEquation)

variable {d n : ℕ} {N : Fin d → ℕ}

theorem noGain_diagonal (e : Idx N → Fin n → ℂ) (h : ∀ x i, 0 ≤ (e x i).im) : NoGain fun x => diagonal (e x) := by
  intro x v
  simp only [mulVec_diagonal, dotProduct, Pi.star_apply, RCLike.star_def, im_sum]
  refine Finset.sum_nonneg fun i _ => ?_
  rw [mul_left_comm, ← Complex.normSq_eq_conj_mul_self, mul_comm, im_ofReal_mul]
  exact mul_nonneg (normSq_nonneg _) (h x i)

theorem absorbing_diagonal (e : Idx N → Fin n → ℂ) {δ : ℝ} (h : ∀ x i, δ ≤ (e x i).im) (x : Idx N) (v : Fin n → ℂ) :
    δ * ∑ i, ‖v i‖ ^ 2 ≤ (star v ⬝ᵥ (diagonal (e x)).mulVec v).im := by
  simp only [mulVec_diagonal, dotProduct, Pi.star_apply, RCLike.star_def, im_sum, Finset.mul_sum]
  refine Finset.sum_le_sum fun i _ => ?_
  rw [mul_left_comm, ← Complex.normSq_eq_conj_mul_self, mul_comm (e x i), im_ofReal_mul, Complex.normSq_eq_norm_sq, mul_comm]
  exact mul_le_mul_of_nonneg_left (h x i) (sq_nonneg _)

theorem within_diagonal (e : Idx N → Fin n → ℂ) {r : ℝ} (h : ∀ x i, ‖e x i‖ ≤ r) : Within (fun x => diagonal (e x)) r := by
  intro x v
  simp only [mulVec_diagonal, norm_mul, mul_pow, Finset.mul_sum]
  refine Finset.sum_le_sum fun i _ => ?_
  have h0 := norm_nonneg (e x i)
  have h1 := h x i
  exact mul_le_mul_of_nonneg_right (pow_le_pow_left₀ h0 h1 2) (sq_nonneg _)

/-- Two sample points with a distance of 1. -/
noncomputable def demoGrid : Grid.Obj 1 ℝ where
  shape := fun _ => 2
  step := fun _ => 1
  center := fun _ => 0
  dt := .float
  flat := fun _ => false
  originAtCenter := fun _ => true
  centerAtIndex := fun _ => true
  multidimensional := false
  stepShort := false

/-- The permittivity is `diag(1 + i, 2 + i, 1 + 2i)` at the first point and `diag(1 + i, 2 + i, 1 + i)` at the second, the permeability 1 and 1/2. -/
noncomputable def demoMedium : Medium 3 demoGrid.shape where
  epsilon := fun x => diagonal ![1 + I, 2 + I, if (x 0).val = 0 then 1 + 2 * I else 1 + I]
  xi := fun _ => 0
  zeta := fun _ => 0
  mu := fun x => diagonal fun _ => if (x 0).val = 0 then 1 else 1 / 2

theorem demo_step : ∀ a, demoGrid.step a ≠ 0 := fun _ => one_ne_zero

theorem demo_absorbing (x : Idx demoGrid.shape) (v : Fin 3 → ℂ) : 1 * ∑ i, ‖v i‖ ^ 2 ≤ (star v ⬝ᵥ (demoMedium.epsilon x).mulVec v).im := by
  refine absorbing_diagonal (fun x : Idx demoGrid.shape => ![1 + I, 2 + I, if (x 0).val = 0 then 1 + 2 * I else 1 + I]) (fun x i => ?_) x v
  match i with
  | 0 => simp
  | 1 => simp
  | 2 =>
    simp only [Matrix.cons_val]
    split_ifs <;> norm_num

theorem demo_epsilon : NoGain demoMedium.epsilon := by
  intro x v
  refine le_trans ?_ (demo_absorbing x v)
  exact mul_nonneg zero_le_one (Finset.sum_nonneg fun _ _ => sq_nonneg _)

theorem demo_mu : NoGain demoMedium.mu := by
  refine noGain_diagonal (fun (x : Idx demoGrid.shape) (_ : Fin 3) => if (x 0).val = 0 then 1 else 1 / 2) fun x i => ?_
  split_ifs <;> norm_num

theorem demo_invertible (x : Idx demoGrid.shape) : IsUnit (demoMedium.mu x).det := by
  simp only [demoMedium, det_diagonal]
  rw [isUnit_iff_ne_zero, Finset.prod_ne_zero_iff]
  intro i _
  split_ifs <;> norm_num

theorem demo_magnetic (muScalar : Bool) : demoMedium.isMagnetic muScalar (fun _ => (0 : Fin 2)) = true := by
  have h : ¬ ∀ x, demoMedium.mu x = demoMedium.mu (fun _ => (0 : Fin 2)) := by
    intro h
    have := congrFun (congrFun (h fun _ => (1 : Fin 2)) 0) 0
    simp [demoMedium] at this
  simp only [Medium.isMagnetic, Bool.not_eq_true', decide_eq_false_iff_not]
  rintro ⟨-, -, -, h'⟩
  exact h h'

/-- The assumptions of C34 and C35 hold for this problem. -/
theorem demo_passivity : Passivity demoGrid 1 demoMedium 1 1 18 := by
  refine ⟨fun _ => rfl, fun _ => rfl, demo_epsilon, demo_mu, demo_invertible, 4, 2, 1, by norm_num, by norm_num, by norm_num, fun x => ?_, ?_, ?_, by norm_num⟩
  · have h := kOf_le demoGrid demo_step one_pos x
    refine h.trans (pow_le_pow_left₀ (mul_nonneg zero_le_one (sigmaD_nonneg _ one_pos)) ?_ 2)
    have hp := Real.pi_lt_four
    have hp0 := Real.pi_pos
    simp only [sigmaD, demoGrid, Finset.univ_unique, Finset.sum_singleton, one_mul, div_one]
    rw [Real.sqrt_sq (by positivity)]
    norm_num
    linarith
  · have : (fun x => demoMedium.epsilon x - (((1 : ℝ) * 1 : ℝ) : ℂ) • (1 : Matrix (Fin 3) (Fin 3) ℂ)) = fun x : Idx demoGrid.shape =>
        diagonal ![I, 1 + I, if (x 0).val = 0 then 2 * I else I] := by
      funext x
      simp only [demoMedium, mul_one, ofReal_one, one_smul]
      rw [← diagonal_one, diagonal_sub]
      congr 1
      funext i
      match i with
      | 0 => simp
      | 1 => simp only [Matrix.cons_val]; ring
      | 2 => simp only [Matrix.cons_val]; split_ifs <;> ring
    rw [this]
    refine within_diagonal _ fun x i => ?_
    match i with
    | 0 => simp
    | 1 =>
      simp only [Matrix.cons_val]
      refine (norm_add_le _ _).trans ?_
      norm_num
    | 2 => simp only [Matrix.cons_val]; split_ifs <;> norm_num
  · have : (fun x => (demoMedium.mu x)⁻¹ - ((1 : ℝ) : ℂ) • (1 : Matrix (Fin 3) (Fin 3) ℂ)) = fun x : Idx demoGrid.shape =>
        diagonal fun _ => if (x 0).val = 0 then 0 else 1 := by
      funext x
      have : (demoMedium.mu x)⁻¹ = diagonal fun _ => if (x 0).val = 0 then 1 else 2 := by
        refine Matrix.inv_eq_left_inv ?_
        simp only [demoMedium, diagonal_mul_diagonal]
        rw [← diagonal_one]
        congr 1
        funext i
        split_ifs <;> norm_num
      rw [this, ofReal_one, one_smul, ← diagonal_one, diagonal_sub]
      congr 1
      funext i
      split_ifs <;> norm_num
    rw [this]
    refine within_diagonal _ fun x i => ?_
    split_ifs <;> norm_num

theorem demo_chosen : Chosen demoMedium true 0 (fun _ => (0 : Fin 2)) true 1 :=
  ⟨(demo_magnetic true).symm, fun h => absurd h (by decide), one_ne_zero⟩

/-- C32 for this problem. -/
example (S F : Field 3 demoGrid.shape) :
    (∀ c x, update (.vectorial (by norm_num)) (backendK demoGrid 1) (prepare demoMedium true (1 + 19 * I) 1 S F) c x = 0) ↔
      WaveEquation (kOf demoGrid) 1 demoMedium.epsilon demoMedium.mu S (getE 1 (prepare demoMedium true (1 + 19 * I) 1 S F)) :=
  C32_update_zero_iff (σ := 18) demo_step one_ne_zero (by norm_num) (by simpa using demo_passivity) demo_chosen (fun h => absurd h (by decide))
    (by norm_num) one_pos (by norm_num) S F

/-- C34 for this problem, for a bias that only just bounds the deviation. -/
example (S F : Field 3 demoGrid.shape) :
    Backend.norm (update (.vectorial (by norm_num)) (backendK demoGrid 1) (next (.vectorial (by norm_num)) (backendK demoGrid 1) (prepare demoMedium true (1 + 18 * I) 1 S F))) ≤
      Backend.norm (update (.vectorial (by norm_num)) (backendK demoGrid 1) (prepare demoMedium true (1 + 18 * I) 1 S F)) :=
  C34_update (σ := 18) demo_step one_ne_zero (by norm_num) (by simpa using demo_passivity) demo_chosen (fun h => absurd h (by decide))
    (by norm_num) one_pos (by norm_num) S F

/-- C35 for this problem: all assumptions are met. -/
example (S F : Field 3 demoGrid.shape) :
    ∃ E, WaveEquation (kOf demoGrid) 1 demoMedium.epsilon demoMedium.mu S E ∧
      ConvergesExponentially (.vectorial (by norm_num)) (backendK demoGrid 1) 1 (prepare demoMedium true (1 + 19 * I) 1 S F) E :=
  C35_absorbing (σ := 18) demo_step one_ne_zero (by norm_num) (by simpa using demo_passivity) demo_chosen (fun h => absurd h (by decide))
    (by norm_num) one_pos (by norm_num) one_pos demo_absorbing S F

/-- C33 for this problem: two changes of the bias. -/
example (S F : Field 3 demoGrid.shape) :
    updateOperators (updateOperators (prepare demoMedium true (1 + 19 * I) 1 S F) (2 + 3 * I)) (4 + 5 * I) = prepare demoMedium true (4 + 5 * I) 1 S F := by
  have := C33_change_bias_repeated demoMedium true (alpha := 1 + 19 * I) (by norm_num) [2 + 3 * I, 4 + 5 * I] (by simp) 1 S F
  simpa using this

/-- C35 for the constants that the code selects: this problem has a solution because it absorbs. -/
example (S F : Field 3 demoGrid.shape) (vec : ℝ × ℝ) (hv : vec.2 ≠ 0) (thickness : List ℝ) :
    ∃ E, WaveEquation (kOf demoGrid) 1 demoMedium.epsilon demoMedium.mu S E ∧ ∀ δ : ℝ, 0 < δ → ∃ j0, ∀ i ≥ j0,
      (∃ t, run (.vectorial (by norm_num)) (backendK demoGrid 1) (prepare demoMedium (demoMedium.isMagnetic true (fun _ => (0 : Fin 2)))
        (demoMedium.constantsMagnetic demoGrid.step 1 thickness vec).1 (demoMedium.constantsMagnetic demoGrid.step 1 thickness vec).2 S F) i = .ok t ∧
          Backend.norm (getE 1 t - E) < δ) ∨
      (run (.vectorial (by norm_num)) (backendK demoGrid 1) (prepare demoMedium (demoMedium.isMagnetic true (fun _ => (0 : Fin 2)))
        (demoMedium.constantsMagnetic demoGrid.step 1 thickness vec).1 (demoMedium.constantsMagnetic demoGrid.step 1 thickness vec).2 S F) i = .error .zeroDivision ∧
        ∃ j < i, ∃ t, run (.vectorial (by norm_num)) (backendK demoGrid 1) (prepare demoMedium (demoMedium.isMagnetic true (fun _ => (0 : Fin 2)))
        (demoMedium.constantsMagnetic demoGrid.step 1 thickness vec).1 (demoMedium.constantsMagnetic demoGrid.step 1 thickness vec).2 S F) j = .ok t ∧
          getE 1 t = E) := by
  obtain ⟨E0, hE0, -⟩ := C35_absorbing (σ := 18) demo_step one_ne_zero (by norm_num : 1 ≤ 3) (alpha := 1 + 19 * I) (by simpa using demo_passivity) demo_chosen
    (fun h => absurd h (by decide)) (by norm_num) one_pos (by norm_num) one_pos demo_absorbing S F
  exact C35_constructed_magnetic demo_step one_pos (by norm_num) (fun _ => rfl) (fun _ => rfl) demo_epsilon demo_mu demo_invertible thickness
    (fun _ => (0 : Fin 2)) hv (demo_magnetic true) S F E0 hE0

end Verif.Solver
