import Verif.Props.SolverFieldsExamples
import Verif.Props.SolverCoupled
import Verif.Props.SolverCover
import Verif.Props.SolverDetfield
import Verif.Props.SolverEnergy
import Verif.Props.SolverLive
import Verif.Props.SolverPermeability
import Verif.Props.SolverRate
import Verif.Props.SolverScalarMedia
import Verif.Props.SolverStop
import Verif.Props.SolverTolerance
import Verif.Props.SolverKernel
import Verif.Props.SolverSymmetry
import Verif.Props.Continuous

/-!
# More concrete cases that meet the assumptions of the theorems about the solver

Each is an application of the named theorem to the problems of `SolverExamples` and `SolverFieldsExamples`: two sample points, absorbing anisotropic and magnetic materials or a chiral medium.
-/

namespace Verif.Solver

open Verif Verif.Fourier Verif.Backend Complex Matrix
open Verif.Spec.Solver (NoGain Within WaveEquation ScalarWaveEquation)

/-- The first of the two points. -/
def demoOrigin : Idx demoGrid.shape := fun _ => (0 : Fin 2)

theorem demo_unique (E : Field 3 demoGrid.shape) (hE : WaveEquation (kOf demoGrid) 1 demoMedium.epsilon demoMedium.mu 0 E) : E = 0 :=
  absorbing_unique demo_invertible demo_mu one_ne_zero one_pos demo_absorbing E hE

theorem demo_passivity' : Passivity demoGrid 1 demoMedium (1 + 19 * I : ℂ).re 1 18 := by simpa using demo_passivity

theorem demo_permeability : RealPermeability demoMedium true demoOrigin := fun h => absurd h (by decide)

/-- `C34_error`: the distance to the exact solution `F`, for any state to start from. -/
example (F : Field 3 demoGrid.shape) := C34_error (σ := 18) demo_step one_ne_zero (by norm_num) demo_passivity' demo_chosen demo_permeability (by norm_num) one_pos (by norm_num)
  (demoSource demoMedium F) 0 _ (demo_wave F) ⊤

/-- `C35_unique`, `C35_uniform` and `C35_converges`. -/
example := C35_unique (σ := 18) demo_step one_ne_zero (by norm_num) demo_passivity' demo_chosen demo_permeability (by norm_num) one_pos (by norm_num) demo_unique

example := C35_uniform (σ := 18) demo_step one_ne_zero (by norm_num) demo_passivity' demo_chosen demo_permeability (by norm_num) one_pos (by norm_num) demo_unique

example (F : Field 3 demoGrid.shape) := C35_converges (σ := 18) demo_step one_ne_zero (by norm_num) demo_passivity' demo_chosen demo_permeability (by norm_num) one_pos (by norm_num)
  (demoSource demoMedium F) 0 _ (demo_wave F)

/-- `C36_bias_magnetic`: a boundary of thickness 2. -/
example := C36_bias_magnetic demoMedium demoGrid.step 1 [2] (1, 1) one_ne_zero

/-- `C89_equation` and `C89_uniform`: a chiral medium, and a uniform one. -/
example := C89_equation demo_step one_pos (by norm_num) (m := chiral) (fun x => by simp [chiral]) (alpha := 1 + 19 * I) (by norm_num) (beta := 1) one_ne_zero

example := C89_uniform demo_step one_ne_zero (m := ⟨demoMedium.epsilon, fun _ => I • 1, fun _ => (-I) • 1, fun _ => (2 : ℂ) • 1⟩) (xi := I) (zeta := -I) (mu := 2) two_ne_zero (fun _ => rfl) (fun _ => rfl)
  (fun _ => rfl)

/-- A scalar problem: permittivity `1 + i` and 2. -/
noncomputable def scalarDemo : Medium 1 demoGrid.shape := ⟨fun x => diagonal fun _ => if (x 0).val = 0 then 1 + I else 2 + I, fun _ => 0, fun _ => 0, fun _ => 1⟩

theorem scalarDemo_passivity : ScalarPassivity demoGrid scalarDemo (1 + 3 * I : ℂ).re 1 2 := by
  refine ⟨fun x => ?_, fun x => ?_⟩
  · simp only [scalarDemo, diagonal_apply_eq]
    split_ifs <;> norm_num
  · simp only [scalarDemo, diagonal_apply_eq]
    split_ifs
    · norm_num
    · rw [show (2 + I - ((1 + 3 * I : ℂ).re * 1 : ℝ) : ℂ) = 1 + I by norm_num; ring]
      exact (norm_add_le (1 : ℂ) I).trans (by norm_num)

theorem scalarDemo_chosen : Chosen scalarDemo true 0 demoOrigin false 1 := by
  refine ⟨?_, fun _ => ?_, one_ne_zero⟩
  · simp [Medium.isMagnetic, scalarDemo]
  · simp [Medium.betaNonMagnetic, Medium.muInv, scalarDemo]

theorem scalarDemo_permeability : RealPermeability scalarDemo false demoOrigin := fun _ => ⟨1, one_ne_zero, by simp [scalarDemo]⟩

/-- `C34_scalar_update`. -/
example := C34_scalar_update (k0 := 1) demo_step one_ne_zero scalarDemo_passivity scalarDemo_chosen scalarDemo_permeability (by norm_num) one_pos (by norm_num)

/-- `C100_progress` and `C100_executions`: the first state of any source and field. -/
example (S F : Field 3 demoGrid.shape) := C100_progress (.vectorial (by norm_num)) (backendK demoGrid 1) (s := prepare demoMedium true (1 + 19 * I) 1 S F) (show (1 + 19 * I : ℂ).im ≠ 0 by norm_num) (WithTop.coe_lt_top _)

example (S F : Field 3 demoGrid.shape) := C100_executions (.vectorial (by norm_num)) (backendK demoGrid 1) (s := prepare demoMedium true (1 + 19 * I) 1 S F) (show (1 + 19 * I : ℂ).im ≠ 0 by norm_num) (WithTop.coe_lt_top _).le
  (i := 0) rfl

/-- `C75_passive` and `C75_bound`: power is absorbed, and the field is not larger than the source. -/
example (F : Field 3 demoGrid.shape) : (Spec.Physics.overlap (getE 1 (demoSolved demoMedium F)) (demoSource demoMedium F)).im ≤ 0 := C75_passive demo_epsilon demo_mu demo_invertible (demo_wave F)

example (F : Field 3 demoGrid.shape) : 1 ^ 2 * 1 * Backend.norm (getE 1 (demoSolved demoMedium F)) ≤ Backend.norm (demoSource demoMedium F) :=
  C75_bound one_ne_zero demo_absorbing demo_mu demo_invertible (demo_wave F)

/-- `C90_rate`, `C90_ends`, `C90_raises`, `C117_ends` and `C117_returns`: runs that converge at a rate, for any exact solution different from 0. -/
example : ∃ q : ℝ, ∀ S : Field 3 demoGrid.shape, S ≠ 0 → ∃ E, E ≠ 0 ∧ ConvergesAtRate (.vectorial (by norm_num)) (backendK demoGrid 1) 1 (prepare demoMedium true (1 + 19 * I) 1 S 0) E q ∧
    getE 1 (prepare demoMedium true (1 + 19 * I) 1 S 0) = 0 ∧ ((0 : ℝ) : WithTop ℝ) < (prepare demoMedium true (1 + 19 * I) 1 S 0).prevNorm := by
  obtain ⟨q, hq⟩ := C35_uniform (σ := 18) demo_step one_ne_zero (show 1 ≤ 3 by norm_num) demo_passivity' demo_chosen demo_permeability (by norm_num) one_pos (by norm_num) demo_unique
  refine ⟨q, fun S hS => ?_⟩
  obtain ⟨E, hE, hc⟩ := hq S 0
  refine ⟨E, ?_, hc, ?_, WithTop.coe_lt_top _⟩
  · rintro rfl
    apply hS
    funext c x
    have h0 := (Problem.waveEquation_linear demoGrid 1 demoMedium.epsilon demoMedium.mu).1 0 0 S S 0 0 hE hE c x
    rw [smul_zero, add_zero, hE c x] at h0
    simpa using h0
  · funext c x
    rw [getE_prepare]
    simp

theorem scalarDemo_epsilon (x : Idx demoGrid.shape) : scalarDemo.scalarEpsilon x = if (x 0).val = 0 then 1 + I else 2 + I := by
  simp [Medium.scalarEpsilon, scalarDemo]

theorem scalarDemo_absorbs (x : Idx demoGrid.shape) : 0 < (scalarDemo.scalarEpsilon x).im := by
  rw [scalarDemo_epsilon]
  split_ifs <;> norm_num

theorem scalarDemo_bound (x : Idx demoGrid.shape) : ‖scalarDemo.scalarEpsilon x - ((1 + 3 * I : ℂ).re * (1 : ℝ) : ℝ)‖ ≤ 2 := by
  have := scalarDemo_passivity.bound x
  simp only [scalarDemo, diagonal_apply_eq] at this
  rw [scalarDemo_epsilon]
  exact this

theorem scalarDemo_unique (E : Idx demoGrid.shape → ℂ) (hE : ScalarWaveEquation (kOf demoGrid) 1 scalarDemo.scalarEpsilon ((1 : ℝ) : ℂ)⁻¹ 0 E) : E = 0 :=
  scalar_absorbing demoGrid one_ne_zero scalarDemo.scalarEpsilon 1 scalarDemo_absorbs E hE

/-- `C88_rate`, `C88_unique`, `C88_absorbing`, `C88_converges` (with the solution that `C88_unique` gives) and `C88_ignored` (permeability 5). -/
example := C88_rate (k0 := 1) demo_step one_ne_zero demoOrigin (mag := false) (fun x => (scalarDemo_absorbs x).le) scalarDemo_bound (by norm_num) one_pos (by norm_num) scalarDemo_unique

example := C88_unique (k0 := 1) demo_step one_ne_zero demoOrigin (mag := false) (fun x => (scalarDemo_absorbs x).le) scalarDemo_bound (by norm_num) one_pos (by norm_num) scalarDemo_unique

example (S F : Field 1 demoGrid.shape) :=
  (C88_absorbing (k0 := 1) demo_step one_ne_zero demoOrigin (mag := false) scalarDemo_absorbs scalarDemo_bound (by norm_num) one_pos (by norm_num) S F).elim fun _ hE =>
    C88_converges (k0 := 1) demo_step one_ne_zero demoOrigin (mag := false) (fun x => (scalarDemo_absorbs x).le) scalarDemo_bound (by norm_num) one_pos (by norm_num) S F _ hE.1

example := C88_ignored demoGrid demo_step one_ne_zero scalarDemo (fun _ => rfl) (fun _ => (5 : ℂ) • 1) false true (alpha := 1 + 3 * I) (by norm_num) (beta := 1) one_ne_zero

theorem scalarDemo_unique' (E : Idx demoGrid.shape → ℂ) (hE : ScalarWaveEquation (kOf demoGrid) 1 (fun x => scalarDemo.epsilon x 0 0) (scalarDemo.mu demoOrigin 0 0) 0 E) : E = 0 := by
  refine scalarDemo_unique E ?_
  have h1 : scalarDemo.scalarEpsilon = fun x => scalarDemo.epsilon x 0 0 := by
    funext x
    simp [Medium.scalarEpsilon, scalarDemo]
  rw [h1]
  simpa [scalarDemo] using hE

/-- `C35_scalar` and `C34_scalar_error`. -/
example := C35_scalar (k0 := 1) demo_step one_ne_zero scalarDemo_passivity scalarDemo_chosen scalarDemo_permeability (by norm_num) one_pos (by norm_num) scalarDemo_unique'

example (S F : Field 1 demoGrid.shape) : ∃ E, Backend.norm (getE 1 (next .scalar (backendK demoGrid 1) (prepare scalarDemo false (1 + 3 * I) 1 S F)) - E) ≤
    Backend.norm (getE 1 (prepare scalarDemo false (1 + 3 * I) 1 S F) - E) := by
  obtain ⟨E, hE, -⟩ := C35_scalar (k0 := 1) demo_step one_ne_zero scalarDemo_passivity scalarDemo_chosen scalarDemo_permeability (by norm_num) one_pos (by norm_num) scalarDemo_unique' S F
  exact ⟨E, C34_scalar_error (k0 := 1) demo_step one_ne_zero scalarDemo_passivity scalarDemo_chosen scalarDemo_permeability (by norm_num) one_pos (by norm_num) S F E hE⟩

/-- `C32_scalar`, `C32_scalar_uniform_permeability` and `C32_uniform_permeability`. -/
example := C32_scalar demoGrid demo_step one_ne_zero scalarDemo scalarDemo_chosen scalarDemo_permeability (alpha := 1 + 3 * I) (by norm_num)

example := C32_scalar_uniform_permeability demoGrid demo_step one_ne_zero scalarDemo scalarDemo_chosen (alpha := 1 + 3 * I) (by norm_num)

/-- The permittivity of `demoMedium` with a permeability of 2 everywhere. -/
noncomputable def plainDemo : Medium 3 demoGrid.shape := ⟨demoMedium.epsilon, fun _ => 0, fun _ => 0, fun _ => (2 : ℂ) • 1⟩

theorem plainDemo_inv (x : Idx demoGrid.shape) : (plainDemo.mu x)⁻¹ = (2 : ℂ)⁻¹ • 1 := Matrix.inv_eq_left_inv (by simp [plainDemo])

theorem plainDemo_chosen : Chosen plainDemo true 0 demoOrigin false (1 / 2) := by
  refine ⟨?_, fun _ => ?_, by norm_num⟩
  · simp [Medium.isMagnetic, plainDemo]
  · rw [Medium.betaNonMagnetic, Medium.muInv, plainDemo_inv]
    simp

example := C32_uniform_permeability demoGrid demo_step one_ne_zero (by norm_num) plainDemo plainDemo_chosen (alpha := 1 + 19 * I) (by norm_num)

theorem plainDemo_mu : NoGain plainDemo.mu := by
  have : plainDemo.mu = fun _ => diagonal fun _ => (2 : ℂ) := by
    funext x
    simp [plainDemo, Matrix.smul_one_eq_diagonal]
  rw [this]
  exact noGain_diagonal _ fun _ _ => by norm_num

/-- `C87_rate` and `C87_absorbing`; `C87_tolerance`: permeabilities within `1e-8` of 3. -/
example := C87_absorbing demo_step one_pos (by norm_num) (m := plainDemo) (fun _ => rfl) (fun _ => rfl) demo_epsilon plainDemo_mu (tol := 1e-8) (by norm_num) [2] demoOrigin
  (by rw [plainDemo_inv]; norm_num) 1 one_pos demo_absorbing

example := C87_tolerance (n := 3) (N := demoGrid.shape) (v := fun x => if (x 0).val = 0 then 3 else 3 + 1e-8) (v0 := 3) (by norm_num) (fun x => by split_ifs <;> norm_num)

/-- `C42_assign_partial` and `C46_assign_partial`: without boundary, another permittivity or a refractive index of 3. -/
example (F : Field 3 demoGrid.shape) (epsilon : Tensor 3 demoGrid.shape) := C42_assign_partial (demo_represents demoMedium F) (demo_uniform _) demo_invertible (fun _ => 0) 0 demoOrigin true (alpha := 2 + 3 * I)
  (by norm_num) (beta := 1) one_ne_zero epsilon fun _ => rfl

example (F : Field 3 demoGrid.shape) := C46_assign_partial (demo_represents demoMedium F) (demo_uniform _) demo_invertible 0 demoOrigin true (alpha := 2 + 3 * I)
  (by norm_num) (beta := 1) one_ne_zero (fun _ => 3) fun _ => by norm_num

/-- `C43_faraday`, `C43_ampere`, `C45_divergence_partial` and `C45_force`: any state. -/
example := C43_faraday demoGrid demo_step (k0 := 1) one_ne_zero (co := demoConst) one_ne_zero

example := C43_ampere demoGrid demo_step (k0 := 1) one_ne_zero (co := demoConst) one_ne_zero 0 demoOrigin

example := C45_divergence_partial demoGrid demo_step (k0 := 1) one_ne_zero (by norm_num) demoConst 0 demoOrigin

example := C45_force demoGrid demo_step (k0 := 1) one_ne_zero (by norm_num) demoConst 0 demoOrigin

/-- A uniform coupling with the permittivity of `demoMedium`. -/
noncomputable def coupledDemo : Medium 3 demoGrid.shape := ⟨demoMedium.epsilon, fun _ => I • 1, fun _ => (-I) • 1, fun _ => (2 : ℂ) • 1⟩

/-- `C44_uniform_partial`. -/
example (F : Field 3 demoGrid.shape) := C44_uniform_partial demoGrid demo_step (k0 := 1) one_ne_zero (by norm_num) demoConst_one (demo_represents coupledDemo F) (demo_preconditioned coupledDemo F) 0 demoOrigin
  (xi := I) (zeta := -I) (mu := 2) two_ne_zero (fun _ => rfl) (fun _ => rfl) fun _ => rfl

/-- `C31_consistent` and `C31_wavelength`: a wavelength of 2; `C33_change_bias`, `C33_source`, `C41_field`, `C41_source`, `C41_source_constructed`, `C41_current` and `C41_relation`. -/
example : (FreqArgs.k0 ⟨1, none, some 2⟩ 3) = 2 * Real.pi / wavelength (FreqArgs.k0 ⟨1, none, some 2⟩ 3) :=
  (C31_consistent ⟨1, none, some 2⟩ (c := 3) (by norm_num) (by simp [FreqArgs.k0, Real.pi_ne_zero])).2

example : wavelength (FreqArgs.k0 ⟨1, none, some 2⟩ 3) = 2 := C31_wavelength 1 2 two_ne_zero 3

example (S F : Field 3 demoGrid.shape) : getSource (updateOperators (prepare demoMedium true (1 + 19 * I) 1 S F) (2 + 3 * I)) = S := by
  rw [C33_source _ (by norm_num), C41_source_constructed demoMedium true (by norm_num) one_ne_zero S F]

example (S F : Field 3 demoGrid.shape) := C33_solutions (backendK_origin demoGrid demo_step one_ne_zero) (.vectorial (by norm_num)) demoMedium true (alpha := 1 + 19 * I) (alpha' := 2 + 3 * I) (by norm_num) (by norm_num)
  (beta := 1) one_ne_zero S F (.inl rfl)

example (s : State 3 demoGrid.shape) (E : Field 3 demoGrid.shape) : getE 2 (setE 2 s E) = E := C41_field two_ne_zero s E

example (F S : Field 3 demoGrid.shape) : getSource (setSource (demoSolved demoMedium F) S) = S := C41_source _ (show (1 + 19 * I : ℂ).im ≠ 0 by norm_num) (show (1 : ℝ) ≠ 0 from one_ne_zero) S

example (F J : Field 3 demoGrid.shape) : getJ demoConst 2 (setJ demoConst 2 (demoSolved demoMedium F) J) = J :=
  (C41_current (co := demoConst) one_ne_zero one_ne_zero two_ne_zero _ (show (1 + 19 * I : ℂ).im ≠ 0 by norm_num) (show (1 : ℝ) ≠ 0 from one_ne_zero) J).1

example := C41_relation (n := 3) (N := demoGrid.shape) (co := demoConst) one_ne_zero one_ne_zero (k0 := 2) two_ne_zero

/-- `C38_first_partial`: an exact solution. -/
example (F : Field 3 demoGrid.shape) (h : update (.vectorial (by norm_num)) (backendK demoGrid 1) (demoSolved demoMedium F) = 0) :=
  C38_first_partial (.vectorial (by norm_num)) (backendK demoGrid 1) (s := demoSolved demoMedium F) (WithTop.coe_lt_top _) h

/-- `C40_value`: an update of norm 3 and a field that is not 0. -/
example (s : State 1 demoGrid.shape) : (relativeResidue { s with residue := none, prevNorm := ((3 : ℝ) : WithTop ℝ), field := fun _ _ => 1 }).1 =
    .ok ((3 / Backend.norm (fun _ _ => 1 : Field 1 demoGrid.shape) : ℝ) : WithTop ℝ) :=
  C40_value rfl rfl (by norm_num) fun h => one_ne_zero (congrFun (congrFun h 0) demoOrigin)

/-- `C39_limit`: at most 7 iterations. -/
example (S F : Field 3 demoGrid.shape) (t : State 3 demoGrid.shape) : solve (.vectorial (by norm_num)) (backendK demoGrid 1) .none 1e-3 ((7 : ℕ) : ℝ) (prepare demoMedium true (1 + 19 * I) 1 S F) 7 ≠ .running () t :=
  C39_limit 1e-3 7 _ (WithTop.coe_lt_top _).le 7 le_rfl (by norm_num) t

/-- `C76_run`, `C76_fields`, `C76_choice`: moved by one sample; `C77_run`, `C77_bias`, `scaledGrid_eq`: three times as large; `C78_run`: a source `i` times that of another. -/
example := C76_run (N := demoGrid.shape) (fun _ => by norm_num [demoGrid]) (.vectorial (by norm_num)) (backendK demoGrid 1) demoMedium true (1 + 19 * I) 1

example := C76_fields (N := demoGrid.shape) (n := 3) (fun _ => by norm_num [demoGrid]) demoConst 1 (backendK demoGrid 1)

example := C76_choice (N := demoGrid.shape) (fun _ => by norm_num [demoGrid]) demoMedium true 0 demoOrigin fun _ => 1

example := C77_run demoGrid demo_step (k0 := 1) (c := 3) one_ne_zero (by norm_num) (.vectorial (by norm_num))

example := C77_bias (k0 := 1) (c := 3) (by norm_num) [2, 5] (1 + I)

example := scaledGrid_eq demoGrid (fun _ => by norm_num [demoGrid]) 3

example := C78_run I_ne_zero (.vectorial (by norm_num)) (backendK demoGrid 1) demoMedium true (alpha := 1 + 19 * I) (by norm_num) 1

/-- `C80_minimal`: boundaries of thickness 2 and 5. -/
example := C80_minimal (k0 := 1) one_pos (thickness := [2, 5]) (by simp) (1 + I)

end Verif.Solver

namespace Verif.Continuous

open Verif Verif.Fourier Verif.Backend Verif.Spec.Continuous Complex
open Verif.Solver (demoGrid demo_step demoConst demoOrigin State getE getB getH getD getJ backendK)

/-- `C123_curl`, `C123_divergence` and `C123_backend`: any field on two samples has an interpolant. -/
example (G : Fin 3 → Idx demoGrid.shape → ℂ) : ∃ F, (∀ c, Interpolates demoGrid (F c) (G c)) ∧ (∀ c, Interpolates demoGrid (Spec.Continuous.curl F c) (Spec.Solver.curl (kOf demoGrid) G c)) ∧
    Interpolates demoGrid (Spec.Continuous.divergence F) (Spec.Solver.divergence (kOf demoGrid) G) := by
  choose F hF _ using fun c => C123_interpolation (show 1 ≤ 3 by norm_num) demo_step (G c)
  exact ⟨F, hF, C123_curl (by norm_num) demo_step hF, C123_divergence (by norm_num) demo_step hF⟩

/-- `C123_faraday`, `C123_gauss`, `C123_ampere` and `C123_charge`: any state. -/
example (t : State 3 demoGrid.shape) : ∃ E B, (∀ c, Interpolates demoGrid (E c) (getE 1 t c)) ∧ (∀ c r, Spec.Continuous.curl E c r = I * demoConst.omega 1 * B c r) ∧ ∀ r, Spec.Continuous.divergence B r = 0 := by
  choose E hE _ using fun c => C123_interpolation (show 1 ≤ 3 by norm_num) demo_step (getE 1 t c)
  choose B hB _ using fun c => C123_interpolation (show 1 ≤ 3 by norm_num) demo_step (getB demoConst 1 (backendK demoGrid 1) t c)
  exact ⟨E, B, hE, C123_faraday (by norm_num) demo_step one_ne_zero (co := demoConst) one_ne_zero t hE hB, C123_gauss (by norm_num) demo_step one_ne_zero (co := demoConst) one_ne_zero t hB⟩

example (t : State 3 demoGrid.shape) : ∃ H D j, (∀ c r, Spec.Continuous.curl H c r = -I * demoConst.omega 1 * D c r - j c r) ∧
    ∀ r, Spec.Continuous.divergence j r = -I * demoConst.omega 1 * Spec.Continuous.divergence D r := by
  choose H hH _ using fun c => C123_interpolation (show 1 ≤ 3 by norm_num) demo_step (getH demoConst 1 (backendK demoGrid 1) 0 demoOrigin t c)
  choose D hD _ using fun c => C123_interpolation (show 1 ≤ 3 by norm_num) demo_step (getD demoConst 1 (backendK demoGrid 1) 0 demoOrigin t c)
  choose j hj _ using fun c => C123_interpolation (show 1 ≤ 3 by norm_num) demo_step (getJ demoConst 1 t c)
  exact ⟨H, D, j, C123_ampere (by norm_num) demo_step one_ne_zero (co := demoConst) one_ne_zero 0 demoOrigin t hH hD hj,
    C123_charge (by norm_num) demo_step one_ne_zero (co := demoConst) one_ne_zero 0 demoOrigin t hD hj⟩

/-- `C123_wave_uniform` and `C123_wave_everywhere`: permeability 2. -/
example (k0 : ℝ) (epsilon : Idx demoGrid.shape → Matrix (Fin 3) (Fin 3) ℂ) (E S : Fin 3 → Idx demoGrid.shape → ℂ) : ∃ F, (∀ c, Interpolates demoGrid (F c) (E c)) ∧
    (Spec.Solver.WaveEquation (kOf demoGrid) k0 epsilon (fun _ => (2 : ℂ) • 1) S E ↔
      ∀ c x r, AtSample demoGrid x r → (2 : ℂ)⁻¹ * Spec.Continuous.curl (Spec.Continuous.curl F) c r - (k0 : ℂ) ^ 2 * (epsilon x).mulVec (fun c => F c r) c = S c x) := by
  choose F hF _ using fun c => C123_interpolation (show 1 ≤ 3 by norm_num) demo_step (E c)
  exact ⟨F, hF, C123_wave_uniform (by norm_num) demo_step k0 epsilon two_ne_zero hF⟩

example (k0 : ℝ) (E S : Fin 3 → Idx demoGrid.shape → ℂ) : ∃ F P : Fin 3 → Point → ℂ, (∀ c, Interpolates demoGrid (F c) (E c)) ∧ (∀ c, Interpolates demoGrid (P c) (S c)) ∧
    (Spec.Solver.WaveEquation (kOf demoGrid) k0 (fun _ => (1 + I) • 1) (fun _ => (2 : ℂ) • 1) S E ↔
      ∀ c r, (2 : ℂ)⁻¹ * Spec.Continuous.curl (Spec.Continuous.curl F) c r - (k0 : ℂ) ^ 2 * ((1 + I) * F c r) = P c r) := by
  choose F hF _ using fun c => C123_interpolation (show 1 ≤ 3 by norm_num) demo_step (E c)
  choose P hP _ using fun c => C123_interpolation (show 1 ≤ 3 by norm_num) demo_step (S c)
  exact ⟨F, P, hF, hP, C123_wave_everywhere (by norm_num) demo_step k0 (1 + I) two_ne_zero hF hP⟩

end Verif.Continuous
