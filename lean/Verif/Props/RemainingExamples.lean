import Verif.Props.BalanceViolates
import Verif.Props.ProblemNegative
import Verif.Props.RefinementRateSolve
import Verif.Props.ScatteringExamples
import Verif.Props.ScatteringAccuracy
import Verif.Props.EigenProblem
import Verif.Props.BeamArgs
import Verif.Props.BeamExamples
import Verif.Props.ProblemMoreExamples
import Verif.Props.UtilityExamples
import Verif.Props.SolverNegative

/-!
# Concrete cases of theorems on balances, negative materials, refinement, scattering and eigenvalues
-/

namespace Verif.Balance

open Verif Verif.Fourier Verif.Backend Verif.Solver Verif.Continuous Complex Matrix
open Verif.Spec.Continuous Verif.Spec.Balance

/-- The waves of `slowWaves` in vacuum and their magnetic field. -/
theorem slow_magnetic (S : Field 3 pentaGrid.shape) {co : Const} (hc : co.c ≠ 0) (hmu0 : co.mu0 ≠ 0) (x0 : Idx pentaGrid.shape) :
    ∃ H : Fin 3 → Point → ℂ, (∀ c, Interpolates pentaGrid (H c) (getH co 1 (backendK pentaGrid 1) 0 x0 (slowState S) c)) ∧ ∀ c, H c ∈ HalfBand pentaGrid.shape pentaGrid.step := by
  choose H hH _ using fun c => C123_interpolation (by norm_num) penta_step (getH co 1 (backendK pentaGrid 1) 0 x0 (slowState S) c)
  exact ⟨H, hH, halfBand_H (by norm_num) penta_step one_ne_zero hc 0 x0 (slowState S) (slowWaves_interpolates S) hH hmu0 (represents_prepare _ _ (by simp) one_ne_zero _ _) (vacuum_uniform _ _)
    (fun _ => rfl) (fun _ => rfl) slowWaves_half⟩

/-- The hypotheses of `C125_divS_partial`, `C125_balance_partial`, `C126_f_partial` and `C126_magnetic_partial` are met by these waves, for all sources. -/
example (S : Field 3 pentaGrid.shape) {co : Const} (hc : co.c ≠ 0) (hmu0 : co.mu0 ≠ 0) (x0 : Idx pentaGrid.shape) : ∃ v w, getDivS co 1 (backendK pentaGrid 1) 0 x0 (slowState S) = .ok v ∧
    getForce co 1 (backendK pentaGrid 1) 0 x0 (slowState S) = .ok w := by
  obtain ⟨H, hH, hH2⟩ := slow_magnetic S hc hmu0 x0
  obtain ⟨v, hv, -⟩ := C125_divS_partial (co := co) (by norm_num) penta_step one_ne_zero 0 x0 (slowState S) (slowWaves_interpolates S) hH slowWaves_half hH2
  obtain ⟨v', hv', -⟩ := C125_balance_partial (by norm_num) penta_step one_ne_zero hc 0 x0 (slowState S) (slowWaves_interpolates S) hH slowWaves_half hH2
  obtain ⟨w, hw, -⟩ := C126_f_partial (co := co) (by norm_num) penta_step one_ne_zero 0 x0 (slowState S) (slowWaves_interpolates S) hH slowWaves_half hH2
  obtain ⟨w', hw', -⟩ := C126_magnetic_partial (by norm_num) penta_step one_ne_zero hc 0 x0 (slowState S) (slowWaves_interpolates S) hH slowWaves_half hH2
  exact ⟨v, w, hv, hw⟩

/-- The hypotheses of `C126_lorentz` are met by these waves, for all sources. -/
example (S : Field 3 pentaGrid.shape) {co : Const} (hc : co.c ≠ 0) (hmu0 : co.mu0 ≠ 0) (x0 : Idx pentaGrid.shape) (c : Fin 3) (r : Point) : ∃ H D B j : Fin 3 → Point → ℂ,
    Spec.Continuous.divergence (fun i r => (stress co.epsilon0 co.mu0 slowWaves H i c r : ℂ)) r =
      (lorentz (fun r => co.epsilon0 * Spec.Continuous.divergence slowWaves r) slowWaves (fun c r => -j c r - I * co.omega 1 * (D c r - co.epsilon0 * slowWaves c r)) B c r : ℂ) := by
  obtain ⟨H, hH, -⟩ := slow_magnetic S hc hmu0 x0
  choose D hD _ using fun c => C123_interpolation (by norm_num) penta_step (getD co 1 (backendK pentaGrid 1) 0 x0 (slowState S) c)
  choose B hB _ using fun c => C123_interpolation (by norm_num) penta_step (getB co 1 (backendK pentaGrid 1) (slowState S) c)
  choose j hj _ using fun c => C123_interpolation (by norm_num) penta_step (getJ co 1 (slowState S) c)
  exact ⟨H, D, B, j, C126_lorentz (by norm_num) penta_step one_ne_zero hc 0 x0 (slowState S) (slowWaves_interpolates S) hH hD hB hj hmu0 (represents_prepare _ _ (by simp) one_ne_zero _ _)
    (vacuum_uniform _ _) (fun _ => rfl) (fun _ => rfl) c r⟩

end Verif.Balance

namespace Verif.Continuous

open Verif Verif.Fourier Verif.Backend Verif.Solver Verif.Balance Complex Matrix
open Verif.Spec.Continuous
open Verif.Spec.Solver (WaveEquation)

/-- The hypotheses of `C123_wave` are met, for all fields and materials on a grid. -/
example (k0 : ℝ) (epsilon mu : Idx pentaGrid.shape → Matrix (Fin 3) (Fin 3) ℂ) (E S : Fin 3 → Idx pentaGrid.shape → ℂ) : ∃ F G : Fin 3 → Point → ℂ, (∀ c, Interpolates pentaGrid (F c) (E c)) ∧
    (WaveEquation (kOf pentaGrid) k0 epsilon mu S E ↔ ∀ c x r, AtSample pentaGrid x r → Spec.Continuous.curl G c r - (k0 : ℂ) ^ 2 * (epsilon x).mulVec (fun c => F c r) c = S c x) := by
  choose F hF _ using fun c => C123_interpolation (g := pentaGrid) (by norm_num) penta_step (E c)
  choose G hG _ using fun c => C123_interpolation (g := pentaGrid) (by norm_num) penta_step fun x => (mu x)⁻¹.mulVec (fun c => Spec.Solver.curl (kOf pentaGrid) E c x) c
  refine ⟨F, G, hF, C123_wave (by norm_num) penta_step k0 epsilon mu hF (fun c => (hG c).1) fun c x r hr => ?_⟩
  refine ((hG c).2 x r hr).trans ?_
  rw [show (fun c => Spec.Continuous.curl F c r) = fun c => Spec.Solver.curl (kOf pentaGrid) E c x from funext fun c' => (C123_curl (by norm_num) penta_step hF c').2 x r hr]

end Verif.Continuous

namespace Verif.Refinement

open Verif Verif.Fourier Verif.Backend Verif.Solver Verif.Balance Complex Matrix
open Verif.Spec.Continuous Verif.Spec.Refinement
open Verif.Spec.Solver (WaveEquation ScalarWaveEquation)

/-- A wave along the first axis that five samples resolve. -/
noncomputable def penta : Fin 3 → Point → ℂ := fun c r => (if c = 1 then 1 else 0) * wave (harmonic (d := 1) (fun _ => 5) fun _ => 1) r
theorem penta_series (c : Fin 3) : HasSeries (d := 1) (fun _ => 5) (penta c) (Pi.single (fun _ => 1) (if c = 1 then 1 else 0)) := hasSeries_single _ _ _
theorem penta_period (a : Fin 1) : (pentaGrid.shape a : ℝ) * pentaGrid.step a = 5 := by
  show ((5 : ℕ) : ℝ) * 1 = 5
  norm_num
theorem penta_positive (a : Fin 1) : 0 < pentaGrid.shape a := Nat.succ_pos 4
noncomputable def pentaSource (c : Fin 3) (r : Point) : ℂ := ((2 : ℝ) : ℂ)⁻¹ * Spec.Continuous.curl (Spec.Continuous.curl penta) c r - ((1 : ℝ) : ℂ) ^ 2 * (demoEpsilon r).mulVec (fun j => penta j r) c

/-- The hypotheses of `C128_curl` are met. -/
example {s : Fin 3 → Idx pentaGrid.shape → ℂ} (hsf : ∀ c, SampledFrom pentaGrid (penta c) (s c)) (c : Fin 3) {x : Idx pentaGrid.shape} {r : Point} (hr : AtSample pentaGrid x r) :=
  C128_curl (by decide) penta_step penta_positive penta_period penta_series hsf c hr

/-- The hypotheses of `C128_exact` are met: the grid resolves the field. -/
example {e : Tensor 3 pentaGrid.shape} {s E' : Solver.Field 3 pentaGrid.shape} (he : SampledFrom pentaGrid demoEpsilon e) (hsf : ∀ c, SampledFrom pentaGrid (pentaSource c) (s c))
    (hE' : WaveEquation (kOf pentaGrid) 1 e (fun _ => ((2 : ℝ) : ℂ) • 1) s E') :=
  C128_exact (by decide) penta_step penta_positive penta_period one_pos one_pos demoEpsilon_absorbs two_pos (S := pentaSource) (E := penta) (fun _ _ => rfl) penta_series (fun c j hj => by
    refine Pi.single_eq_of_ne (fun h => hj fun a => ?_) _
    rw [h]
    show -((5 : ℕ) : ℤ) ≤ 2 * 1 ∧ 2 * 1 < ((5 : ℕ) : ℤ)
    norm_num) he hsf hE'

end Verif.Refinement

namespace Verif.Bound

open Verif Verif.Grid Verif.Spec.Grid Verif.Spec.Bound

/-- Five samples at 0, 1, 2, 3, 4. -/
noncomputable def fiveGrid : Obj 1 ℝ :=
  { shape := fun _ => 5, step := fun _ => 1, center := fun _ => 2, dt := .float, flat := fun _ => false
    originAtCenter := fun _ => true, centerAtIndex := fun _ => true, multidimensional := true, stepShort := false }

/-- Boundaries with a thickness of 2. -/
noncomputable def thickBound : Absorbing 1 ℝ := linear fiveGrid (fun _ _ => 2) fun _ _ => 1
theorem thickBound_plain : Plain thickBound.grid := ⟨rfl, fun _ => rfl, fun _ => Nat.succ_pos 4⟩
theorem thickBound_on : OnGrid thickBound.grid fun _ => 0 := fun a => ⟨0, Nat.succ_pos 4, by simp [axisOf, Axis.first, thickBound, linear, fiveGrid, firstSample, centerPos]⟩

end Verif.Bound

namespace Verif.Problem

open Verif Verif.Fourier Verif.Backend Verif.Solver Verif.Construct Verif.Refinement Complex Matrix
open Verif.Assign (toMatrixField)
open Verif.Spec.Continuous (Point)
open Verif.Spec.Solver (NoGain Within WaveEquation ScalarWaveEquation rateOf iterationsRounded)
open Verif.Spec.Refinement

/-- The hypotheses of `C122_describes` are met: a refractive index of -1 + i. -/
example (co : Const) (o : Optimum) := C122_describes (p := negativeArgs) (v := ⟨[], fun _ => -1 + I⟩) rfl rfl (negative_describes co) rfl ⟨by simp, by simp⟩
  ⟨fun _ => (0 : Fin 2), by
    show (((-1 + I : ℂ) • (1 : Matrix (Fin 3) (Fin 3) ℂ)) 0 0).re < 0
    simp⟩ 1e-8 o

/-- The hypotheses of `C122_index` are met: a refractive index of -1 + i. -/
example (co : Const) (o : Optimum) := C122_index (p := negativeArgs) (v := ⟨[], fun _ => -1 + I⟩) rfl rfl (negative_describes co) rfl ⟨by simp, by simp⟩ rfl (show 1 ≤ 3 by decide) demo_step one_pos
  (fun _ => rfl) (fun _ => rfl) o (tol := 1e-8) (by norm_num) ⟨by simp [negativeArgs], by simp [negativeArgs]⟩ (r := 1) one_pos (fun _ => rfl) (nu := -1 + I) (by simp) (by simp) (fun _ => rfl)

/-- The hypotheses of `C122_waves`, and with it those of `C122_iterations`, are met: permeability -1 and permittivity i. -/
example (co : Const) (o : Optimum) := C122_waves (co := co) (p := { demoArgs true with epsilon := some ⟨[], fun _ => I⟩, mu := ⟨[], fun _ => ((-1 : ℝ) : ℂ)⟩, electric := none })
  (m := ⟨fun _ => I • 1, fun _ => 0, fun _ => 0, fun _ => ((-1 : ℝ) : ℂ) • 1⟩) (S := fun _ _ => 1) (E0 := fun _ _ => 3)
  ⟨(demo_describes true 3 co).nonempty, ⟨_, _, rfl, constant_means 3 I, .inl ⟨rfl, rfl⟩⟩, rfl, (demo_describes true 3 co).xi, (demo_describes true 3 co).zeta, constant_means 3 _,
    (demo_describes true 3 co).source, (demo_describes true 3 co).sourceValue, (demo_describes true 3 co).initial, (demo_describes true 3 co).initialValue⟩
  rfl (by decide) demo_step one_pos (fun _ => rfl) (fun _ => rfl) o (tol := 1e-8) (by norm_num) ⟨by simp, by simp⟩ (r := 1) one_pos (fun _ => rfl) (epsilon := I) (by simp) (fun _ => rfl)

/-- The uniform problem without an initial field. -/
noncomputable def quietUniform : Args 1 := { uniformArgs true with initial := ⟨[], fun _ => 0⟩ }
theorem quietUniform_samples (co : Const) : Samples co quietUniform (uniformMedium 3) (fun _ _ => 1) 0 (fun _ => 2) 1 (fun _ => (1 + I) • 1) 2 fun _ _ => 1 :=
  { uniform_samples co with
    describes := { uniform_describes true 3 co with
      initial := fun a => .inr ((constant_field 0).1 a)
      initialValue := fun _ _ => ((constant_field 0).2 _).symm } }
theorem uniform_within (o : Optimum) : Within (fun x => (uniformMedium 3).epsilon x - ((o.alphaR * 2⁻¹ : ℝ) : ℂ) • 1) ‖(1 + I : ℂ) - ((o.alphaR * 2⁻¹ : ℝ) : ℂ)‖ := fun x v => by
  show ∑ i, ‖(((1 + I : ℂ) • (1 : Matrix (Fin 3) (Fin 3) ℂ)) - ((o.alphaR * 2⁻¹ : ℝ) : ℂ) • 1).mulVec v i‖ ^ 2 ≤ _
  rw [← sub_smul, Matrix.smul_mulVec, Matrix.one_mulVec]
  simp only [Pi.smul_apply, smul_eq_mul, norm_mul, mul_pow, ← Finset.mul_sum]
  exact le_rfl

/-- The hypotheses of `C128_called_solve` are met: a uniform material and any solution. -/
example (co : Const) (o : Optimum) {E : Fin 3 → Point → ℂ} (hE : WaveEquationInSpace 1 (fun _ => (1 + I) • 1) (2 : ℝ) (fun _ _ => 1) E) {a : Fin 3 → (Fin 1 → ℤ) → ℂ} (ha : ∀ c, HasSeries (fun _ => 2) (E c) (a c))
    {F : Solver.Field 3 demoGrid.shape} (hF : ∀ c, SampledFrom demoGrid (E c) (F c)) :=
  C128_called_solve (δ := 1) (by decide) (fun _ => two_ne_zero) one_pos one_pos (fun r v => by
    rw [Matrix.smul_mulVec, Matrix.one_mulVec, dotProduct_smul, star_dot_self, smul_eq_mul, im_mul_ofReal]
    simp) two_pos hE ha (quietUniform_samples co) (fun h => one_ne_zero (congrFun (congrFun h 0) fun _ => (0 : Fin 2))) o (tol := 1e-8) (by norm_num) (norm_nonneg _) (uniform_within o) hF

/-- The hypotheses of `C86_boundary` are met: the boundary at the first sample, and a material without gain. -/
example : ∃ kappa, Bound.extinction Bound.thickBound (fun _ => 0) = .ok kappa ∧ NoGain fun x => (demoMedium 3).epsilon x + Bound.susceptibility 2 kappa • (1 : Matrix (Fin 3) (Fin 3) ℂ) := by
  obtain ⟨kappa, h, -⟩ := Bound.extinction_spec Bound.thickBound_plain Bound.thickBound_on
  exact ⟨kappa, h, C86_boundary Bound.thickBound_plain 2 _ (demo_noGain 3).1 (fun _ => Bound.susceptibility 2 kappa) fun _ => ⟨_, kappa, Bound.thickBound_on, h, rfl⟩⟩

/-- The permeability of the demonstration in the form in which it is calculated. -/
theorem demo_calculated : (fun _ : Idx demoGrid.shape => ((((demoMedium 3).mu (fun _ => (0 : Fin 2) : Idx demoGrid.shape))⁻¹ 0 0).re : ℂ)⁻¹ • (1 : Matrix (Fin 3) (Fin 3) ℂ)) = (demoMedium 3).mu := by
  funext x
  show ((((2 : ℂ) • (1 : Matrix (Fin 3) (Fin 3) ℂ))⁻¹ 0 0).re : ℂ)⁻¹ • _ = (2 : ℂ) • _
  rw [smul_one_inv two_ne_zero, Matrix.smul_apply, Matrix.one_apply_eq, smul_eq_mul, mul_one, show (2 : ℂ)⁻¹ = (((2 : ℝ)⁻¹ : ℝ) : ℂ) by push_cast; rfl, ofReal_re, ofReal_inv, inv_inv]
  rfl

/-- The hypotheses of `C135_rate` are met in double precision, for a permeability of 2. -/
example (torch : Bool) (alphaR : ℝ) := C135_rate (m := demoMedium 3) demo_step one_pos (show 1 ≤ 3 by decide) (fun _ => rfl) (fun _ => rfl) (demo_noGain 3).1 (demo_noGain 3).2 [] (fun _ => (0 : Fin 2))
  (by positivity) (C135_accuracy (eps := 2⁻¹ ^ 52) double_precision.1 torch) (tol := 1e-8) (by norm_num)
  ((Real.sqrt_lt' (mul_pos (by norm_num) (demo_beta_pos _))).2 (demo_condition _)) alphaR fun E hE => tensor_no_source E (by rw [demo_calculated] at hE; exact hE)

/-- A permeability that is 2 at the first point and 3 at the second. -/
noncomputable def steppedArgs : Args 1 := { quietArgs false with mu := ⟨[2], fun i => if i = [0] then 2 else 3⟩ }
noncomputable def steppedMedium : Medium 1 demoGrid.shape := { demoMedium 1 with mu := fun x => (if (x 0).val = 0 then 2 else 3 : ℂ) • 1 }
theorem stepped_describes (co : Const) : Describes co 1 steppedArgs steppedMedium (fun _ _ => 1) 0 :=
  { quiet_describes false 1 co with
    mu := .scalar ⟨by simp [steppedArgs], by simp [steppedArgs]⟩ (two_fits 1 _) fun x => by
      refine Eq.symm ((congrArg (· • (1 : Matrix (Fin 1) (Fin 1) ℂ)) (demo_value _ x)).trans ?_)
      simp [steppedMedium] }
theorem stepped_magnetic (co : Const) : foundMagnetic (toMatrixField 1 steppedArgs.xi) (toMatrixField 1 steppedArgs.zeta) (toMatrixField 1 steppedArgs.mu) = true := by
  rw [← Bool.not_eq_false, C87_decision (stepped_describes co) ⟨by simp [steppedArgs], by simp [steppedArgs]⟩]
  rintro ⟨-, -, h⟩
  have h1 := h fun _ => (1 : Fin 2)
  have h2 : steppedMedium.mu (fun _ => (1 : Fin 2)) 0 0 = 3 := by
    show ((if (1 : Fin 2).val = 0 then 2 else 3 : ℂ) • (1 : Matrix (Fin 1) (Fin 1) ℂ)) 0 0 = 3
    simp
  have h3 : steppedMedium.mu (first (stepped_describes co).nonempty) 0 0 = 2 := by
    show ((if (0 : Fin 2).val = 0 then 2 else 3 : ℂ) • (1 : Matrix (Fin 1) (Fin 1) ℂ)) 0 0 = 2
    simp
  have h4 : ‖(3 : ℂ) - 2‖ ≤ 1e-8 + 1e-5 * ‖(2 : ℂ)‖ := by
    rw [← h2, ← h3]
    exact h1
  norm_num at h4

/-- The hypotheses of `C86_scalar_magnetic` are met. -/
example (co : Const) (o : Optimum) (ho : o.vec.2 ≠ 0) := C86_scalar_magnetic (stepped_describes co) rfl demo_step one_pos (fun _ => rfl) (fun _ => rfl) demo_loss o 1e-8 (stepped_magnetic co) ho

/-- The hypotheses of `C102_called_magnetic` are met. -/
example (co : Const) (o : Optimum) (ho : o.vec.2 ≠ 0) := C102_called_magnetic (tensor_describes co) rfl (by decide) demo_step one_pos (fun _ => rfl) (fun _ => rfl) (demo_noGain 3).1 (demo_noGain 3).2 o 1e-8
  (tensor_magnetic co) tensor_unit ho tensor_no_source

/-- The hypotheses of `C102_superposition` are met, and those of `C102_accuracy`, from which `C102_called_magnetic` follows. -/
example (co : Const) (o : Optimum) (ho : o.vec.2 ≠ 0) : ∃ (s : State 3 demoGrid.shape) (C : ℝ), tensorArgs.start co 1e-8 o = .ok ⟨3, s⟩ ∧ 0 ≤ C := by
  obtain ⟨s, h, hacc⟩ := C102_called_magnetic (tensor_describes co) rfl (by decide) demo_step one_pos (fun _ => rfl) (fun _ => rfl) (demo_noGain 3).1 (demo_noGain 3).2 o 1e-8
    (tensor_magnetic co) tensor_unit ho tensor_no_source
  obtain ⟨C, hC, -⟩ := C102_superposition hacc (waveEquation_linear _ _ _ _).1 ((waveEquation_linear _ _ _ _).2 tensor_no_source)
  exact ⟨s, C, h, hC⟩

end Verif.Problem

namespace Verif.Beam

open Verif Verif.Fourier Verif.Backend Verif.Spec.Modes Complex

/-- The hypotheses of `C103_period` are met: a plane wave along the axis. -/
example : current (propagate pair_shape (⟨waveFt 1, 0⟩ : Section pair scalar) (Chosen.wavelength ⟨1e7, 1⟩).re none) = current (⟨waveFt 1, 0⟩ : Section pair scalar) :=
  C103_period pair_proper pair_shape (l := ⟨1e7, none, 1, some 1⟩) (ch := ⟨1e7, 1⟩) rfl (by
    show (1e7 : ℂ) = ((1e7 : ℝ) : ℂ)
    norm_num) (by
    show (1 : ℂ) = ((1 : ℝ) : ℂ)
    norm_num) _ fun c q h => by
    have h0 : along q = 0 := by
      by_contra hn
      exact h (if_neg hn)
    have hq : q = at' 0 := by
      funext a
      match a with
      | 0 => exact Subsingleton.elim (α := Fin 1) _ _
      | 1 => exact Subsingleton.elim (α := Fin 1) _ _
      | 2 => exact h0
    rw [hq]
    exact funext kappa_zero

end Verif.Beam

namespace Verif.Scattering

open Verif.Fourier Verif.Spec.Modes Complex Verif.Mat Verif.Spec.Mat

theorem current_significant {c mu0 : ℝ} (hc : c ≠ 0) (hmu : mu0 ≠ 0) (side : Fin 2) : demo0.Significant (demo0.currents (P := scalar) c mu0 (fun _ _ _ => 1) side) side := by
  right
  intro h
  rw [corrected_zero] at h
  have hn := count_zero demo0
  have h1 := h ⟨0, by rw [hn]; norm_num⟩ (0 : Fin 1)
  unfold Setup.currents at h1
  rw [if_pos rfl, sourceAmplitude_eq demo0 c mu0 hc hmu (by norm_num [demo0])] at h1
  have hcos : demo0.transverseCos (demo0.mode ⟨0, by rw [hn]; norm_num⟩) = 1 := by
    unfold Setup.transverseCos
    simp
  rw [hcos] at h1
  have hpi := Real.pi_gt_three
  simp [demo0, abs_of_pos Real.pi_pos] at h1
  norm_num at h1
  linarith

/-- The hypotheses of `C68_partial` are met: amplitudes 1 from both sides. -/
example {c mu0 : ℝ} (hc : c ≠ 0) (hmu : mu0 ≠ 0) := C68_partial demo0 demo0_regular scalar (.inl rfl) c mu0 hc hmu (by norm_num [demo0]) demoPlanes demoPlanes_ne (fun _ _ _ => 1)
  (current_significant hc hmu)

/-- The hypotheses of `ofGrid_position` and `ofGrid_transverse` are met by a grid of two axes. -/
example (k0 tol : ℝ) (g : Grid.Obj 2 ℝ) (i : Fin (({ g with originAtCenter := fun _ => true } : Grid.Obj 2 ℝ).shape 0)) := ofGrid_position (d := 1) { g with originAtCenter := fun _ => true } k0 tol rfl i
example (k0 tol : ℝ) (g : Grid.Obj 2 ℝ) (x : Idx (Setup.ofGrid (d := 1) { g with originAtCenter := fun _ => true } k0 tol).shape) :=
  ofGrid_transverse (d := 1) { g with originAtCenter := fun _ => true } k0 tol 0 rfl x

end Verif.Scattering
