import Verif.Props.ProblemContinuous
import Verif.Props.ProblemMore
import Verif.Props.ProblemNegative
import Verif.Props.ScatteringAccuracy

/-!
Further concrete cases that meet the hypotheses of the theorems on the arguments of the constructor.
-/

namespace Verif.Problem

open Verif Verif.Fourier Verif.Backend Verif.Solver Verif.Construct Verif.Continuous Complex Matrix
open Verif.Assign (Arr toMatrixField full CanBroadcast broadcast InShape)
open Verif.Spec.Solver (NoGain Within WaveEquation ScalarWaveEquation)

/-! ### A permeability of 2 in scalar form -/

theorem demo_scalarForm (v : Bool) : ScalarForm 1 (demoArgs v).mu := ⟨by simp [demoArgs], by simp [demoArgs]⟩
theorem demo_uniform (n : ℕ) [NeZero n] (x y : Idx demoGrid.shape) : ‖(demoMedium n).mu x 0 0 - (demoMedium n).mu y 0 0‖ ≤ 1e-8 + 1e-5 * ‖(demoMedium n).mu y 0 0‖ := by
  rw [show (demoMedium n).mu x = (demoMedium n).mu y from rfl, sub_self, norm_zero]
  positivity
theorem demo_beta (x : Idx demoGrid.shape) : ((demoMedium 3).mu x)⁻¹ 0 0 = ((2⁻¹ : ℝ) : ℂ) := by
  change ((2 : ℂ) • (1 : Matrix (Fin 3) (Fin 3) ℂ))⁻¹ 0 0 = _
  rw [smul_one_inv two_ne_zero]
  simp
theorem demo_beta_pos (x : Idx demoGrid.shape) : 0 < (((demoMedium 3).mu x)⁻¹ 0 0).re := by
  rw [demo_beta, ofReal_re]
  norm_num

theorem tensor_unit (x : Idx demoGrid.shape) : IsUnit ((demoMedium 3).mu x).det := by
  change IsUnit ((2 : ℂ) • (1 : Matrix (Fin 3) (Fin 3) ℂ)).det
  rw [Matrix.det_smul, Matrix.det_one]
  simp
theorem tensor_no_source (E : Solver.Field 3 demoGrid.shape) (h : WaveEquation (kOf demoGrid) 1 (demoMedium 3).epsilon (demoMedium 3).mu 0 E) : E = 0 :=
  absorbing_unique tensor_unit (demo_noGain 3).2 one_ne_zero one_pos (demo_absorbs_one 3) E h

/-- `C86_absorbing`; the equation without source only has the solution 0: `C86_unique`, and there is a solution: `C86_dielectric`. -/
example (co : Const) (o : Optimum) : ∃ s, (demoArgs true).start co 1e-8 o = .ok ⟨3, s⟩ := by
  obtain ⟨-, E, -, -, hE, -⟩ := C86_absorbing (demo_describes true 3 co) rfl (by decide) demo_step one_pos (fun _ => rfl) (fun _ => rfl) (demo_noGain 3).1 (demo_noGain 3).2 o 1e-8
    (by norm_num) (demo_scalarForm true) (fun x => demo_uniform 3 _ _) (demo_beta_pos _) (demo_absorbs 3)
  obtain ⟨s, -, h, -⟩ := C86_dielectric (demo_describes true 3 co) rfl (by decide) demo_step one_pos (fun _ => rfl) (fun _ => rfl) (demo_noGain 3).1 (demo_noGain 3).2 o 1e-8
    (by norm_num) (demo_scalarForm true) (fun x => demo_uniform 3 _ _) (demo_beta_pos _) E hE
  exact ⟨s, h⟩
theorem demo_no_source (x : Idx demoGrid.shape) (E : Solver.Field 3 demoGrid.shape)
    (h : WaveEquation (kOf demoGrid) 1 (demoMedium 3).epsilon (fun _ => ((((demoMedium 3).mu x)⁻¹ 0 0).re : ℂ)⁻¹ • 1) 0 E) : E = 0 := by
  rw [demo_beta, ofReal_re] at h
  have e : ((2⁻¹ : ℝ) : ℂ)⁻¹ = ((2 : ℝ) : ℂ) := by push_cast; rw [inv_inv]
  rw [e] at h
  exact tensor_no_source E (by convert h using 2; push_cast; rfl)
example (co : Const) (o : Optimum) := C86_unique (demo_describes true 3 co) rfl (by decide) demo_step one_pos (fun _ => rfl) (fun _ => rfl) (demo_noGain 3).1 (demo_noGain 3).2 o 1e-8
  (by norm_num) (demo_scalarForm true) (fun x => demo_uniform 3 _ _) (demo_beta_pos _) (demo_no_source _)

/-- `C86_scalar_unique`, `C90_called_scalar`, and `C123_called_scalar` for scalar calculations. -/
theorem demo_loss (x : Idx demoGrid.shape) : 0 < ((demoMedium 1).epsilon x 0 0).im := by
  change 0 < (((if (x 0).val = 0 then 1 + I else 2 + I : ℂ) • (1 : Matrix (Fin 1) (Fin 1) ℂ) + (if (x 0).val = 0 then 0 else I : ℂ) • 1) 0 0).im
  split_ifs <;> simp
theorem demo_mu_im (x : Idx demoGrid.shape) : 0 ≤ ((demoMedium 1).mu x 0 0).im := by
  change 0 ≤ (((2 : ℂ) • (1 : Matrix (Fin 1) (Fin 1) ℂ)) 0 0).im
  simp
theorem demo_mu_re (x : Idx demoGrid.shape) : 0 < (((demoMedium 1).mu x 0 0)⁻¹).re := by
  change 0 < ((((2 : ℂ) • (1 : Matrix (Fin 1) (Fin 1) ℂ)) 0 0)⁻¹).re
  simp
example (co : Const) (o : Optimum) := C90_called_scalar (quiet_describes false 1 co) rfl demo_step one_pos (fun _ => rfl) (fun _ => rfl) demo_loss o 1e-8
  (fun h => one_ne_zero (congrFun (congrFun h 0) fun _ => (0 : Fin 2))) demo_mu_im (by norm_num) (fun x => demo_uniform 1 _ _) (demo_mu_re _)
example (co : Const) (o : Optimum) := C123_called_scalar (demo_describes false 1 co) rfl (by decide) demo_step one_pos (fun _ => rfl) (fun _ => rfl) o (tol := 1e-8) (by norm_num) (r := 2) (by norm_num)
  (fun _ => by push_cast; rfl) demo_loss

/-! ### A permeability of 2 in the form of a tensor, which is treated as magnetic -/

/-- The arguments of `demoArgs` with the permeability in the form of a 3 × 3 matrix. -/
noncomputable def tensorArgs : Args 1 := { quietArgs true with mu := ⟨[3, 3, 1], fun i => if i.getD 0 0 = i.getD 1 0 then 2 else 0⟩ }
theorem tensor_form : TensorForm 1 3 tensorArgs.mu := rfl
theorem tensor_fits : Fits 3 demoGrid.shape tensorArgs.mu := by
  unfold Fits
  change Refines [1, 3, 3] ((List.ofFn fun _ : Fin 1 => 2).reverse ++ [3, 3])
  simp [Refines]
theorem tensor_value (x : Idx demoGrid.shape) : (2 : ℂ) • (1 : Matrix (Fin 3) (Fin 3) ℂ) = tensorMeaning tensorArgs.mu (fun b => (x b : ℕ)) 3 := by
  have e : (List.ofFn fun b : Fin 1 => (x b : ℕ)) = [(x 0 : ℕ)] := by simp
  ext i j
  unfold tensorMeaning
  rw [e]
  fin_cases i <;> fin_cases j <;> simp [bval, bidxRev, tensorArgs]
theorem tensor_describes (co : Const) : Describes co 3 tensorArgs (demoMedium 3) (fun _ _ => 1) 0 :=
  { quiet_describes true 3 co with mu := .tensor tensor_form tensor_fits tensor_value }

/-- `C87_identity`, `C86_magnetic`, `C86_magnetic_unique`, `C90_called_magnetic`, and `C102_matrix_called_magnetic`. -/
theorem tensor_magnetic (co : Const) : foundMagnetic (toMatrixField 1 tensorArgs.xi) (toMatrixField 1 tensorArgs.zeta) (toMatrixField 1 tensorArgs.mu) = true :=
  C87_identity (tensor_describes co) tensor_form (r := 2) (by norm_num) fun _ => by push_cast; rfl
example (co : Const) (o : Optimum) (ho : o.vec.2 ≠ 0) := C86_magnetic (tensor_describes co) rfl (by decide) demo_step one_pos (fun _ => rfl) (fun _ => rfl) (demo_noGain 3).1 (demo_noGain 3).2 o 1e-8
  (tensor_magnetic co) tensor_unit ho (demo_absorbs 3)
example (co : Const) (o : Optimum) (ho : o.vec.2 ≠ 0) := C86_magnetic_unique (tensor_describes co) rfl (by decide) demo_step one_pos (fun _ => rfl) (fun _ => rfl) (demo_noGain 3).1 (demo_noGain 3).2 o 1e-8
  (tensor_magnetic co) tensor_unit ho tensor_no_source
example (co : Const) (o : Optimum) (ho : o.vec.2 ≠ 0) := C90_called_magnetic (tensor_describes co) rfl (by decide) demo_step one_pos (fun _ => rfl) (fun _ => rfl) (demo_noGain 3).1 (demo_noGain 3).2 o 1e-8
  (demo_absorbs 3) (fun h => one_ne_zero (congrFun (congrFun h 0) fun _ => (0 : Fin 2))) (tensor_magnetic co) tensor_unit ho
example (co : Const) (o : Optimum) (ho : o.vec.2 ≠ 0) (c mu0 modeTol : ℝ) (sources detectors : Fin 2 → Fin (demoGrid.shape 0)) :=
  C102_matrix_called_magnetic (tensor_describes co) rfl (by decide) demo_step one_pos (fun _ => rfl) (fun _ => rfl) (demo_noGain 3).1 (demo_noGain 3).2 o 1e-8
    tensor_no_source c mu0 modeTol sources detectors (tensor_magnetic co) tensor_unit ho

/-- `C86_magnetic_boundary` for an absorbing magnetic boundary at the second point. -/
example (co : Const) (o : Optimum) := C86_magnetic_boundary (co := co) (p := { tensorArgs with magnetic := some ⟨[2], fun i => if i = [0] then 0 else I⟩ }) rfl rfl tensor_form tensor_fits tensor_value
  ⟨by simp, two_fits 3 _, fun x => (demo_value _ x).symm⟩ 1e-8 o

/-! ### Currents and refractive indices -/

/-- `C86_current` and `C86_current_read` for a current density of 1 at all points. -/
noncomputable def currentArgs : Args 1 := { demoArgs true with source := ⟨some true, some ⟨[], fun _ => 1⟩, none⟩ }
theorem current_describes (co : Const) : Describes co 3 currentArgs (demoMedium 3) (fun _ _ => -I * ((1 * co.c : ℝ) : ℂ) * (co.mu0 : ℂ)) (fun _ _ => 3) :=
  { demo_describes true 3 co with
    source := fun a => .inr ((constant_field (1 * Args.currentFactor co currentArgs)).1 a)
    sourceValue := fun c x => by
      refine Eq.symm (((constant_field (1 * Args.currentFactor co currentArgs)).2 _).trans ?_)
      rw [one_mul]
      rfl }
example (co : Const) := C86_current (current_describes co) rfl rfl
example (co : Const) (o : Optimum) (hc : co.c ≠ 0) (hm : co.mu0 ≠ 0) := C86_current_read (current_describes co) rfl rfl 1e-8 o one_ne_zero hc hm

/-- `C86_index`, `C86_index_tensor`, and `C86_index_default` for a refractive index of 1 + i, in scalar form and as a tensor, and for the default one. -/
noncomputable def indexArgs : Args 1 := { demoArgs true with epsilon := none, index := some ⟨[], fun _ => 1 + I⟩ }
example (co : Const) (o : Optimum) := C86_index (n := 3) (co := co) (p := indexArgs) (demo_describes true 3 co).nonempty rfl rfl (constant_means 3 (1 + I)) ⟨by simp, by simp⟩ (fun x => by simp) 1e-8 o
example (co : Const) (o : Optimum) := C86_index_tensor (n := 3) (co := co) (p := { indexArgs with index := some tensorArgs.mu }) (by decide) rfl rfl tensor_form tensor_fits tensor_value 1e-8 o
example (co : Const) (o : Optimum) := C86_index_default (n := 3) (co := co) (p := { indexArgs with index := none }) rfl rfl 1e-8 o

/-- `C122_form_partial`: a refractive index of 2 in both forms. -/
example (co : Const) (o : Optimum) := C122_form_partial (co := co) (p := indexArgs) (nu := fun _ => 2) (demo_describes true 3 co).nonempty rfl (fun _ => by simp) (constant_means 3 2) ⟨by simp, by simp⟩ tensor_form tensor_fits
  tensor_value 1e-8 o

/-- `C123_converges`, `C123_unique`, and `C123_scalar_unique`. -/
example (co : Const) (o : Optimum) : ∃ s F, (demoArgs true).start co 1e-8 o = .ok ⟨3, s⟩ ∧ ∀ F', SolvesAtSamples demoGrid 1 (demoMedium 3).epsilon (2 : ℝ) (fun _ _ => 1) F' ↔ F' = F := by
  obtain ⟨s, F, h, hF, -, -⟩ := C123_called (demo_describes true 3 co) rfl (by decide) demo_step one_pos (fun _ => rfl) (fun _ => rfl) (demo_noGain 3).1 o (tol := 1e-8) (by norm_num)
    ⟨by simp [demoArgs], by simp [demoArgs]⟩ (r := 2) (by norm_num) (fun _ => by push_cast; rfl) (demo_absorbs 3)
  exact ⟨s, F, h, fun F' => ⟨fun h' => C123_unique (by decide) demo_step one_ne_zero (demo_absorbs 3) two_ne_zero hF h', fun e => e ▸ hF⟩⟩

/-- `C99_scalar_closed_form`, `C99_called_scalar_transparent`, and `C99_plane_wave` for a uniform material that absorbs, the field of which is known. -/
theorem uniform_square (q : Idx demoGrid.shape) : square (kOf demoGrid) q ≠ ((1 : ℝ) : ℂ) ^ 2 * (1 + I) * ((2 : ℝ) : ℂ) := no_resonance (kOf demoGrid) one_ne_zero (by simp) two_ne_zero q
example (S E : Idx demoGrid.shape → ℂ) := C99_scalar_closed_form (kOf demoGrid) 1 (mu := ((2 : ℝ) : ℂ)) (by norm_num) uniform_square S E
example (co : Const) (o : Optimum) := C99_called_scalar_transparent (uniform_describes false 1 co) rfl demo_step one_pos (fun _ => rfl) (fun _ => rfl) o (tol := 1e-8) (by norm_num) (r := 2)
  (by norm_num) (fun _ => by push_cast; rfl) (by simp) uniform_square fun _ => rfl

end Verif.Problem
