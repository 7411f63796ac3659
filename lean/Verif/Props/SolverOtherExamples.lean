import Verif.Props.SolverMovedExamples
import Verif.Props.SolverTotals
import Verif.Props.SolverTolerance
import Verif.Props.SolverSymmetry
import Verif.Props.SolverEnergy
import Verif.Props.SolverPolarized
import Verif.Props.SolverBias
import Verif.Props.SolverRounding
import Verif.Props.SolverDetfield

/-!
# Concrete calculations that meet the assumptions of C36, C37, C75, C78, C79, C87, C102, C116 and C120
-/

namespace Verif.Solver

open Verif Verif.Fourier Verif.Backend Complex Matrix
open Verif.Spec.Solver (WaveEquation ScalarWaveEquation Within)

/-- `C116_flux`: any state. -/
example (s : State 3 boxGrid.shape) := C116_flux boxGrid boxGrid_step (k0 := 2) two_ne_zero le_rfl demoConst 0 boxOrigin s

/-- `C87_residual`: any field, with permeabilities that are exactly 2. -/
example (E : Field 3 demoGrid.shape) := C87_residual demoGrid demo_step (k0 := 2) two_pos (by norm_num) demoMedium.epsilon (fun _ => (2 : ℂ) • 1) (beta := 1 / 2) (r := 0) (by norm_num) le_rfl
  (by
    have : (fun _ : Idx demoGrid.shape => ((2 : ℂ) • (1 : Matrix (Fin 3) (Fin 3) ℂ))⁻¹ - (((1 / 2 : ℝ) : ℝ) : ℂ) • 1) = fun _ => diagonal fun _ => 0 := by
      funext x
      rw [show ((2 : ℂ) • (1 : Matrix (Fin 3) (Fin 3) ℂ))⁻¹ = (2 : ℂ)⁻¹ • 1 from Matrix.inv_eq_left_inv (by simp)]
      simp
    rw [this]
    exact within_diagonal _ fun _ _ => by simp) _ E (fun _ _ => rfl)

/-- `C78_superposition`: before the first iteration. -/
example (S S' F F' : Field 3 demoGrid.shape) := C78_superposition (.vectorial (by norm_num)) (backendK demoGrid 2) (s := prepare demoMedium true (1 + I) 1 0 0)
  (by rw [prepare_eq _ _ (by norm_num)]; simp [prepared]) 2 I F F' S S' 0 rfl rfl rfl rfl rfl rfl

/-- `C79_run`: a field along the third axis in an absorbing material on two samples along the first axis. -/
example (S F : Field 1 demoGrid.shape) := C79_run demoGrid demo_step (k0 := 2) two_ne_zero (by norm_num) 2 (fun h => absurd h (by norm_num)) scalarDemo (fun _ => rfl)
  (fun _ => by simp [scalarDemo]) (alpha := 1 + I) (by norm_num) 1 S F

/-- `C75_solver`: any field, in the material `demoMedium`. -/
example (F : Field 3 demoGrid.shape) := C75_solver demoConst demoGrid demo_step (k0 := 1) one_ne_zero (by norm_num [demoConst, Const.omega, angularFrequency]) (by norm_num) demoMedium (fun _ => rfl) (fun _ => rfl) demo_chosen
  demo_permeability (alpha := 1 + 19 * I) (by norm_num) (fun x => by
    simp only [demoMedium, diagonal_conjTranspose]
    congr 1
    funext i
    simp only [Pi.star_apply]
    split_ifs <;> simp) (demoSource demoMedium F) F (demo_preconditioned demoMedium F)

/-- `C36_bias`: in the material `plainDemo`, with two absorbing layers. -/
example := C36_bias plainDemo (tol := 1e-8) (not_transposed _ (by norm_num) demo_epsilon (fun _ => rfl) (fun _ => rfl) plainDemo_mu) 2 [1, 2] 0 demoOrigin (by
  rw [Medium.betaNonMagnetic, Medium.muInv, plainDemo_inv]
  norm_num) 1

/-- `C74_solver_partial`: the exact solutions for any two sources. -/
example (S S' : Field 3 boxGrid.shape) : ∃ F F', Spec.Physics.reaction S' (getE 2 (prepare (absorber boxGrid.shape) false (1 + 2 * I) 1 S F)) =
    Spec.Physics.reaction S (getE 2 (prepare (absorber boxGrid.shape) false (1 + 2 * I) 1 S' F')) := by
  have key : ∀ S : Field 3 boxGrid.shape, ∃ F, Preconditioned (.vectorial le_rfl) (backendK boxGrid 2) (prepare (absorber boxGrid.shape) false (1 + 2 * I) 1 S F) := fun S => by
    obtain ⟨E, hE, -⟩ := C35_absorbing (muScalar := true) boxGrid_step two_ne_zero le_rfl (absorber_passivity boxGrid boxGrid_step two_pos) (absorber_chosen boxOrigin)
      (absorber_permeability boxOrigin) (by simp) one_pos (by simp) one_pos absorber_absorbs S 0
    refine ⟨((2 : ℝ) : ℂ) ^ 2 • E, (C32_wave_equation boxGrid boxGrid_step two_ne_zero le_rfl (absorber boxGrid.shape) (fun _ => rfl) (fun _ => rfl) (absorber_chosen boxOrigin)
      (absorber_permeability boxOrigin) (by norm_num) S _).2 ?_⟩
    rwa [show getE 2 (prepare (absorber boxGrid.shape) false (1 + 2 * I) 1 S (((2 : ℝ) : ℂ) ^ 2 • E)) = E from ?_]
    funext c x
    rw [getE, prepare_eq _ _ (by norm_num)]
    simp [prepared]
  obtain ⟨F, hF⟩ := key S
  obtain ⟨F', hF'⟩ := key S'
  exact ⟨F, F', C74_solver_partial boxGrid boxGrid_step boxGrid_odd two_ne_zero le_rfl (absorber boxGrid.shape) (fun _ => rfl) (fun _ => rfl) (absorber_chosen boxOrigin)
    (absorber_permeability boxOrigin) (by norm_num) (by norm_num) (fun _ => diagonal_transpose _) (fun _ => transpose_one) S S' F F' hF hF'⟩

end Verif.Solver
