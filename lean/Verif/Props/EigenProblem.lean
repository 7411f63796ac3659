import Verif.Model.EigenProblem
import Verif.Props.EigenBias
import Verif.Props.ProblemMoreExamples

/-!
# C135: convergence with the eigenvalues as they are calculated, from the arguments of the constructor
-/

namespace Verif.Problem

open Verif Verif.Fourier Verif.Backend Verif.Solver Verif.Construct Complex Matrix
open Verif.Assign (Arr toMatrixField full CanBroadcast broadcast InShape C30_broadcast_partial)
open Verif.Spec.Solver (NoGain Within WaveEquation ScalarWaveEquation Close)

variable {d n : ℕ} {eps : ℝ}

/-- **C135 (constructor).** The constructor makes the problem that its arguments describe, with the constants that follow from the calculated eigenvalues. -/
theorem C135_construct [NeZero n] {co : Const} {p : Args d} {m : Medium n p.grid.shape} {S E : Solver.Field n p.grid.shape} (h : Describes co n p m S E)
    (eps : ℝ) (torch : Bool) (o : Optimum) :
    p.constructComputed co n eps torch o = .ok (if foundMagnetic (toMatrixField d p.xi) (toMatrixField d p.zeta) (toMatrixField d p.mu) then
        prepare m true (m.magneticWith (spectrum eps torch) p.grid.step (p.frequency.k0 co.c) p.thickness o.vec).1
          (m.magneticWith (spectrum eps torch) p.grid.step (p.frequency.k0 co.c) p.thickness o.vec).2 S (fun c x => E c x * ((p.frequency.k0 co.c ^ 2 : ℝ) : ℂ))
      else prepare m false (m.nonMagneticWith (spectrum eps torch) √eps (p.frequency.k0 co.c) p.thickness 0 (first h.nonempty) o.alphaR).1
          (m.nonMagneticWith (spectrum eps torch) √eps (p.frequency.k0 co.c) p.thickness 0 (first h.nonempty) o.alphaR).2 S
          (fun c x => E c x * ((p.frequency.k0 co.c ^ 2 : ℝ) : ℂ))) := by
  obtain ⟨e, M, he, hM, hel⟩ := h.epsilon
  have hbounded : ∃ e', p.bounded n = .ok (e', p.mu) ∧ Means n p.grid.shape e' m.epsilon := by
    unfold Args.bounded Args.materials
    rw [he, h.magnetic]
    rcases hel with ⟨h1, h2⟩ | ⟨chi, X, h1, h2, h3⟩
    · exact ⟨e, by rw [h1]; rfl, by rw [h2]; exact hM⟩
    · obtain ⟨e', h4, h5⟩ := withElectric_means hM h2
      refine ⟨e', ?_, by rw [h3]; exact h5⟩
      rw [h1]
      change ((withElectric d n e chi >>= fun epsilon => pure (epsilon, p.mu)) : Except PyErr (Arr ℂ × Arr ℂ)) = _
      rw [h4]
      rfl
  obtain ⟨e', hb, he'⟩ := hbounded
  have hmedium : p.medium n = .ok (m, foundMagnetic (toMatrixField d p.xi) (toMatrixField d p.zeta) (toMatrixField d p.mu)) := by
    unfold Args.medium
    rw [hb]
    change ((toTensor n p.grid.shape (toMatrixField d e') >>= fun epsilon => toTensor n p.grid.shape (toMatrixField d p.xi) >>= fun xi =>
      toTensor n p.grid.shape (toMatrixField d p.zeta) >>= fun zeta => toTensor n p.grid.shape (toMatrixField d p.mu) >>= fun mu =>
      pure ((⟨epsilon, xi, zeta, mu⟩ : Medium n p.grid.shape), foundMagnetic (toMatrixField d p.xi) (toMatrixField d p.zeta) (toMatrixField d p.mu))) :
      Except PyErr _) = _
    rw [he'.toTensor, h.xi.toTensor, h.zeta.toTensor, h.mu.toTensor]
    rfl
  set k0 := p.frequency.k0 co.c with hk0
  have hcan : CanBroadcast (toMatrixField d (⟨p.initial.shape, fun i => p.initial.val i * ((k0 ^ 2 : ℝ) : ℂ)⟩ : Arr ℂ)) (full n p.grid.shape) := by
    rw [toMatrixField_scaled]
    exact h.initial
  obtain ⟨v, hv, hv'⟩ := C30_broadcast_partial n p.grid.shape _ hcan
  have hF : (toField v : Solver.Field n p.grid.shape) = fun c x => E c x * ((k0 ^ 2 : ℝ) : ℂ) := by
    funext c x
    unfold toField
    rw [hv' _ (inShape_cons c x), h.initialValue, toMatrixField_scaled]
    rfl
  have hsrc : addedSource n p.grid.shape (toMatrixField d (p.source.resolve (List.ofFn p.grid.shape) (p.currentFactor co)).2) =
      .ok (broadcast (toMatrixField d (p.source.resolve (List.ofFn p.grid.shape) (p.currentFactor co)).2)) := by
    unfold addedSource
    exact if_pos h.source
  have hS : (toField (broadcast (toMatrixField d (p.source.resolve (List.ofFn p.grid.shape) (p.currentFactor co)).2)) : Solver.Field n p.grid.shape) = S := by
    funext c x
    exact (h.sourceValue c x).symm
  unfold Args.constructComputed
  rw [dif_pos h.nonempty]
  dsimp only
  rw [← hk0, hv]
  change (p.medium n >>= _) = _
  rw [hmedium]
  dsimp only [Bind.bind, Except.bind]
  rw [hsrc]
  dsimp only
  rw [hS, hF]
  cases foundMagnetic (toMatrixField d p.xi) (toMatrixField d p.zeta) (toMatrixField d p.mu) <;> rfl

section Vectorial
variable {co : Const} {p : Args d} {m : Medium 3 p.grid.shape} {S E0 : Solver.Field 3 p.grid.shape} (h : Describes co 3 p m S E0)
  (hvec : p.source.isVectorial (List.ofFn p.grid.shape) (p.currentFactor co) = true) (hd : d ≤ 3) (hs : ∀ a, p.grid.step a ≠ 0) (hk0 : 0 < p.frequency.k0 co.c)
  (hxi : ∀ x, m.xi x = 0) (hzeta : ∀ x, m.zeta x = 0) (hgainM : NoGain m.mu) (heps : 2 * eps ≤ 1) (torch : Bool) (o : Optimum)
include h hvec hs hk0 hxi hzeta hgainM heps

/-- **C135 (vectorial, as called).** For all arguments that describe a problem without coupling, with a little absorption everywhere and with a permeability in scalar form that is nearly uniform: if four times the
square root of the precision is less than the square of 0.05 times the inverse permeability, the constructor succeeds with the eigenvalues as it calculates them, the iteration starts with the initial
field, there is exactly one solution of the wave equation with the permeability at the first point, and the error decreases exponentially. -/
theorem C135_called (form : ScalarForm d p.mu)
    (hmu : ∀ x, ‖m.mu x 0 0 - m.mu (first h.nonempty) 0 0‖ ≤ 1e-8 + 1e-5 * ‖m.mu (first h.nonempty) 0 0‖)
    (hβ : 0 < ((m.mu (first h.nonempty))⁻¹ 0 0).re) (hprec : 4 * √eps < (0.05 * ((m.mu (first h.nonempty))⁻¹ 0 0).re) ^ 2) (habs : Absorbs m.epsilon) :
    ∃ s E, p.startComputed co eps torch o = .ok ⟨3, s⟩ ∧ getE (p.frequency.k0 co.c) s = E0 ∧
      WaveEquation (kOf p.grid) (p.frequency.k0 co.c) m.epsilon (fun _ => (((m.mu (first h.nonempty))⁻¹ 0 0).re : ℂ)⁻¹ • 1) S E ∧
      (∀ E', WaveEquation (kOf p.grid) (p.frequency.k0 co.c) m.epsilon (fun _ => (((m.mu (first h.nonempty))⁻¹ 0 0).re : ℂ)⁻¹ • 1) S E' → E' = E) ∧
      ConvergesExponentially (.vectorial hd) (backendK p.grid (p.frequency.k0 co.c)) (p.frequency.k0 co.c) s E := by
  have hc := C135_construct h eps torch o
  rw [not_magnetic h hxi hzeta form hmu, if_neg (by decide)] at hc
  obtain ⟨δ, hδ, habs⟩ := habs
  obtain ⟨E, hE, huniq, hconv⟩ := C135_absorbing hs hk0 hd hxi hzeta hgainM (Real.sqrt_nonneg eps) p.thickness (first h.nonempty) heps torch hβ hprec o.alphaR hδ habs S
    (fun c x => E0 c x * ((p.frequency.k0 co.c ^ 2 : ℝ) : ℂ))
  refine ⟨_, E, ?_, getE_initial hk0.ne' _ _ _ _ _ _, hE, huniq, hconv⟩
  unfold Args.startComputed Args.vectorial
  rw [if_pos hvec, hc]
  rfl

/-- **C135 (vectorial, magnetic, as called).** The same for materials that are found to be magnetic, without coupling and gain, if the error is small enough for the largest wavenumber of the grid and
for the inverse permeability that the optimization has chosen. -/
theorem C135_called_magnetic (hgain : NoGain m.epsilon) (hmag : foundMagnetic (toMatrixField d p.xi) (toMatrixField d p.zeta) (toMatrixField d p.mu) = true)
    (hinv : ∀ x, IsUnit (m.mu x).det) (hprec : (1 + sigmaD p.grid.step (p.frequency.k0 co.c)) ^ 2 * √(4 * √eps) < 0.05 * o.vec.2 ^ 2)
    (hu : ∀ E, WaveEquation (kOf p.grid) (p.frequency.k0 co.c) m.epsilon m.mu 0 E → E = 0) :
    ∃ s E, p.startComputed co eps torch o = .ok ⟨3, s⟩ ∧ getE (p.frequency.k0 co.c) s = E0 ∧ WaveEquation (kOf p.grid) (p.frequency.k0 co.c) m.epsilon m.mu S E ∧
      ConvergesExponentially (.vectorial hd) (backendK p.grid (p.frequency.k0 co.c)) (p.frequency.k0 co.c) s E := by
  have hc := C135_construct h eps torch o
  rw [hmag, if_pos rfl] at hc
  obtain ⟨q, hq⟩ := C135_magnetic hs hk0 hd hxi hzeta hgain hgainM p.thickness (first h.nonempty) (by positivity) (C135_accuracy heps torch) hinv hprec hu
  obtain ⟨E, hE, hconv⟩ := hq S (fun c x => E0 c x * ((p.frequency.k0 co.c ^ 2 : ℝ) : ℂ))
  refine ⟨_, E, ?_, getE_initial hk0.ne' _ _ _ _ _ _, hE, q, hconv⟩
  unfold Args.startComputed Args.vectorial
  rw [if_pos hvec, hc]
  rfl

end Vectorial

/-- **C135 (scalar, as called).** Scalar calculations are not affected by the precision of the eigenvalues. -/
theorem C135_called_scalar {co : Const} {p : Args d} {m : Medium 1 p.grid.shape} {S E0 : Solver.Field 1 p.grid.shape} (h : Describes co 1 p m S E0)
    (hvec : p.source.isVectorial (List.ofFn p.grid.shape) (p.currentFactor co) = false) (hs : ∀ a, p.grid.step a ≠ 0) (hk0 : 0 < p.frequency.k0 co.c)
    (hxi : ∀ x, m.xi x = 0) (hzeta : ∀ x, m.zeta x = 0) (hgainM : ∀ x, 0 ≤ (m.mu x 0 0).im) (eps : ℝ) (torch : Bool) (o : Optimum)
    (hmag : foundMagnetic (toMatrixField d p.xi) (toMatrixField d p.zeta) (toMatrixField d p.mu) = false)
    (hβ : 0 < ((m.mu (first h.nonempty))⁻¹ 0 0).re) (habs : ∀ x, 0 < (m.epsilon x 0 0).im) :
    ∃ s E, p.startComputed co eps torch o = .ok ⟨1, s⟩ ∧ getE (p.frequency.k0 co.c) s = E0 ∧
      ScalarWaveEquation (kOf p.grid) (p.frequency.k0 co.c) (fun x => m.epsilon x 0 0) (((m.mu (first h.nonempty))⁻¹ 0 0).re : ℂ)⁻¹ (S 0) (E 0) ∧
      ConvergesExponentially .scalar (backendK p.grid (p.frequency.k0 co.c)) (p.frequency.k0 co.c) s E := by
  have hc := C135_construct h eps torch o
  rw [hmag, if_neg (by decide)] at hc
  obtain ⟨E, hE, hconv⟩ := C135_scalar (eps := eps) hs hk0 hxi hzeta (noGain_one hgainM) (Real.sqrt_nonneg eps) p.thickness (first h.nonempty) torch false hβ o.alphaR habs S
    (fun c x => E0 c x * ((p.frequency.k0 co.c ^ 2 : ℝ) : ℂ))
  refine ⟨_, E, ?_, getE_initial hk0.ne' _ _ _ _ _ _, hE, hconv⟩
  unfold Args.startComputed Args.vectorial
  rw [if_neg (by rw [hvec]; decide), hc]
  rfl

/-! ### Concrete cases -/

/-- Double precision meets the conditions for a permeability of 2, in one dimension, for either back end. -/
theorem double_precision : 2 * (2 : ℝ)⁻¹ ^ 52 ≤ 1 ∧ √((2 : ℝ)⁻¹ ^ 52) = 2⁻¹ ^ 26 := by
  refine ⟨by norm_num, ?_⟩
  rw [show (2 : ℝ)⁻¹ ^ 52 = (2⁻¹ ^ 26) ^ 2 by rw [← pow_mul]]
  exact Real.sqrt_sq (by positivity)

theorem demo_condition (x : Idx demoGrid.shape) : 4 * √((2 : ℝ)⁻¹ ^ 52) < (0.05 * (((demoMedium 3).mu x)⁻¹ 0 0).re) ^ 2 := by
  rw [double_precision.2, demo_beta, ofReal_re]
  norm_num

/-- `C135_called`, `C135_absorbing` and `C135_construct` for the arguments of `C86_uniform`. -/
example (co : Const) (torch : Bool) (o : Optimum) := C135_called (demo_describes true 3 co) rfl (by decide) demo_step one_pos (fun _ => rfl) (fun _ => rfl) (demo_noGain 3).2
  (eps := 2⁻¹ ^ 52) double_precision.1 torch o (demo_scalarForm true) (fun _ => demo_uniform 3 _ _) (demo_beta_pos _)
  (demo_condition _) (demo_absorbs 3)

theorem demo_beta_one (x : Idx demoGrid.shape) : 0 < (((demoMedium 1).mu x)⁻¹ 0 0).re := by
  change 0 < (((2 : ℂ) • (1 : Matrix (Fin 1) (Fin 1) ℂ))⁻¹ 0 0).re
  rw [smul_one_inv two_ne_zero]
  simp
theorem demo_not_magnetic (co : Const) : foundMagnetic (toMatrixField 1 (demoArgs false).xi) (toMatrixField 1 (demoArgs false).zeta) (toMatrixField 1 (demoArgs false).mu) = false :=
  not_magnetic (demo_describes false 3 co) (fun _ => rfl) (fun _ => rfl) (demo_scalarForm false) fun _ => demo_uniform 3 _ _

/-- `C135_called_scalar` and `C135_scalar`, for any precision. -/
example (co : Const) (eps : ℝ) (torch : Bool) (o : Optimum) := C135_called_scalar (demo_describes false 1 co) rfl demo_step one_pos (fun _ => rfl) (fun _ => rfl) demo_mu_im eps torch o
  (demo_not_magnetic co) (demo_beta_one _) demo_loss

/-- `C135_called_magnetic`, `C135_magnetic` and `C135_bias_magnetic` for a permeability of 2 that is given as a matrix. -/
theorem demo_margin : (1 + sigmaD demoGrid.step 1) ^ 2 * √(4 * √((2 : ℝ)⁻¹ ^ 52)) < 0.05 * 1 ^ 2 := by
  have h1 : sigmaD demoGrid.step 1 = Real.pi := by
    unfold sigmaD
    rw [Fin.sum_univ_one, Real.sqrt_sq_eq_abs, show demoGrid.step 0 = 1 from rfl, div_one]
    norm_num [abs_of_pos Real.pi_pos]
  have h2 : √(4 * √((2 : ℝ)⁻¹ ^ 52)) = 2 * 2⁻¹ ^ 13 := by
    rw [double_precision.2, show (4 : ℝ) * 2⁻¹ ^ 26 = (2 * 2⁻¹ ^ 13) ^ 2 by norm_num]
    exact Real.sqrt_sq (by positivity)
  rw [h1, h2]
  have h3 := Real.pi_lt_four
  have h4 := Real.pi_pos
  have : (1 + Real.pi) ^ 2 ≤ 5 ^ 2 := pow_le_pow_left₀ (by positivity) (by linarith) 2
  norm_num at this ⊢
  linarith
example (co : Const) (torch : Bool) (o : Optimum) (ho : o.vec.2 = 1) := C135_called_magnetic (tensor_describes co) rfl (by decide) demo_step one_pos (fun _ => rfl) (fun _ => rfl) (demo_noGain 3).2
  (eps := 2⁻¹ ^ 52) double_precision.1 torch o (demo_noGain 3).1 (tensor_magnetic co) tensor_unit (by rw [ho]; exact demo_margin) tensor_no_source

/-- `C135_accuracy`, `C135_values` and `C135_number` for single precision, and a Hermitian matrix that is not diagonal; `C135_largest` and `C135_gain` for a uniform material of it. -/
example (torch : Bool) := C135_accuracy (eps := 2⁻¹ ^ 23) (by norm_num) torch
example := C135_values (eps := 2⁻¹ ^ 23) (by norm_num) !![1, I, 0; -I, 1, 0; 0, 0, 5]
example (torch : Bool) := C135_number (eps := 2⁻¹ ^ 23) (by norm_num) torch 7
theorem demo_hermitian : (!![1, I, 0; -I, 1, 0; 0, 0, 5] : Matrix (Fin 3) (Fin 3) ℂ).IsHermitian := by
  ext i j
  fin_cases i <;> fin_cases j <;> simp
example (torch : Bool) := C135_largest (N := demoGrid.shape) (by positivity) (C135_accuracy (eps := 2⁻¹ ^ 23) (by norm_num) torch) (fun _ => !![1, I, 0; -I, 1, 0; 0, 0, 5]) fun _ => demo_hermitian
example (torch : Bool) := C135_gain (N := demoGrid.shape) (C135_accuracy (eps := 2⁻¹ ^ 52) double_precision.1 torch) (√(2⁻¹ ^ 52)) fun _ => (1 - I) • (1 : Matrix (Fin 3) (Fin 3) ℂ)

/-- Single precision is sufficient for a permeability of 1 (condition of `C135_bias`), and not for a permeability of 2. -/
example : 4 * √((2 : ℝ)⁻¹ ^ 23) < (0.05 * 1) ^ 2 ∧ (0.05 * 2⁻¹) ^ 2 < 4 * √((2 : ℝ)⁻¹ ^ 23) := by
  constructor
  · have : √((2 : ℝ)⁻¹ ^ 23) < 0.0006 := by
      rw [Real.sqrt_lt' (by norm_num)]
      norm_num
    norm_num at this ⊢
    linarith
  · have : 0.0003 < √((2 : ℝ)⁻¹ ^ 23) := Real.lt_sqrt_of_sq_lt (by norm_num)
    norm_num at this ⊢
    linarith
example (torch : Bool) (thickness : List ℝ) (alphaR : ℝ) (h : ¬ (demoMedium 3).transposedWith (spectrum (2⁻¹ ^ 52) torch) 0) :=
  C135_bias (by positivity) (C135_accuracy (eps := 2⁻¹ ^ 52) double_precision.1 torch) (demoMedium 3) h 1 thickness 0 (fun _ => (0 : Fin 2)) ((Real.sqrt_lt' (mul_pos (by norm_num) (abs_pos.2 (demo_beta_pos _).ne'))).2
    (by rw [mul_pow, sq_abs, ← mul_pow]; exact demo_condition _)) alphaR

end Verif.Problem
