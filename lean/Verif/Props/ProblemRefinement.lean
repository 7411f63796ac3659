import Verif.Props.Refinement
import Verif.Props.ProblemStability

/-!
# C128: convergence to the exact solution, from the arguments of the constructor
-/

namespace Verif.Problem

open Verif Verif.Fourier Verif.Backend Verif.Solver Verif.Construct Verif.Refinement Complex Matrix
open Verif.Spec.Solver (NoGain Within WaveEquation ScalarWaveEquation rateOf iterationsRounded)
open Verif.Spec.Continuous (Point)
open Verif.Spec.Refinement

variable {d n : ℕ}

theorem noGain_real {N : Fin d → ℕ} {mu : Tensor 3 N} {r : ℝ} (hmu : ∀ x, mu x = (r : ℂ) • 1) : NoGain mu := fun x v => by
  rw [hmu, Matrix.smul_mulVec, Matrix.one_mulVec, dotProduct_smul, star_dot_self, smul_eq_mul, im_mul_ofReal, ofReal_im, zero_mul]

theorem sampled_absorbs (hd : d ≤ 3) {g : Grid.Obj d ℝ} {epsilon : Point → Matrix (Fin 3) (Fin 3) ℂ} {δ : ℝ} (habs : AbsorbsInSpace epsilon δ) {e : Tensor 3 g.shape} (he : SampledFrom g epsilon e)
    (x : Idx g.shape) (v : Fin 3 → ℂ) : δ * ∑ i, ‖v i‖ ^ 2 ≤ (star v ⬝ᵥ (e x).mulVec v).im := by
  obtain ⟨ρ, hρ⟩ := Continuous.exists_atSample hd g x
  rw [he x ρ hρ]
  exact habs ρ v

/-- The arguments are samples of a problem in space: a material with the permittivity `epsilon`, the uniform permeability `r` and no coupling, and the source `S`. -/
structure Samples (co : Const) (p : Args d) (m : Medium 3 p.grid.shape) (s E0 : Solver.Field 3 p.grid.shape) (period : Fin d → ℝ) (k0 : ℝ) (epsilon : Point → Matrix (Fin 3) (Fin 3) ℂ) (r : ℝ)
    (S : Fin 3 → Point → ℂ) : Prop where
  describes : Describes co 3 p m s E0
  vectorial : p.source.isVectorial (List.ofFn p.grid.shape) (p.currentFactor co) = true
  form : ScalarForm d p.mu
  wavenumber : p.frequency.k0 co.c = k0
  period : ∀ b, p.grid.shape b * p.grid.step b = period b
  epsilon : SampledFrom p.grid epsilon m.epsilon
  mu : ∀ x, m.mu x = (r : ℂ) • 1
  xi : ∀ x, m.xi x = 0
  zeta : ∀ x, m.zeta x = 0
  source : ∀ c, SampledFrom p.grid (S c) (s c)

section
variable (hd : d ≤ 3) {period : Fin d → ℝ} (hper : ∀ b, period b ≠ 0) {k0 : ℝ} (hk0 : 0 < k0) {epsilon : Point → Matrix (Fin 3) (Fin 3) ℂ} {δ : ℝ} (hδ : 0 < δ) (habs : AbsorbsInSpace epsilon δ)
  {r : ℝ} (hr : 0 < r) {S E : Fin 3 → Point → ℂ} (hE : WaveEquationInSpace k0 epsilon r S E) {a : Fin 3 → (Fin d → ℤ) → ℂ} (ha : ∀ c, HasSeries period (E c) (a c))
include hper hk0 hδ habs hr hE ha

/-- **C128 (as called).** If the arguments are samples of a problem in space with a little absorption, then the constructor succeeds, and the iteration converges to a field that differs from the exact solution by at
most the terms that the grid cannot resolve. -/
theorem C128_called {co : Const} {p : Args d} {m : Medium 3 p.grid.shape} {s E0 : Solver.Field 3 p.grid.shape} (h : Samples co p m s E0 period k0 epsilon r S) (o : Optimum) {tol : ℝ} (htol : 0 ≤ tol)
    {F : Solver.Field 3 p.grid.shape} (hF : ∀ c, SampledFrom p.grid (E c) (F c)) :
    ∃ t E', p.start co tol o = .ok ⟨3, t⟩ ∧ ConvergesTo (.vectorial hd) (backendK p.grid k0) k0 t E' ∧
      rms (E' - F) ≤ 2 * Real.sqrt 3 / (r * k0 ^ 2 * δ) * ∑ c, remainder p.grid.shape period (a c) := by
  have hs : ∀ b, p.grid.step b ≠ 0 := fun b h0 => hper b (by rw [← h.period b, h0, mul_zero])
  have hab := sampled_absorbs hd habs h.epsilon
  have hgain : NoGain m.epsilon := fun x v => le_trans (mul_nonneg hδ.le (Finset.sum_nonneg fun i _ => sq_nonneg _)) (hab x v)
  obtain ⟨t, E', h1, -, h3, h4⟩ := C86_uniform h.describes h.vectorial hd hs (by rw [h.wavenumber]; exact hk0) h.xi h.zeta hgain (noGain_real h.mu) o tol htol h.form hr h.mu ⟨δ, hδ, hab⟩
  rw [h.wavenumber] at h3 h4
  rw [show m.mu = fun _ => (r : ℂ) • 1 from funext h.mu] at h3
  exact ⟨t, E', h1, h4.tendsto, C128_error hd hs h.describes.nonempty h.period hk0 hδ habs hr hE ha h.epsilon h.source h3 hF⟩

/-- **C128 (as called, limit).** For every error there is a number of samples and, for all arguments with at least that many samples of the same problem in space, a number of iterations, after which the
electric field differs less from the exact solution. -/
theorem C128_called_limit {η : ℝ} (hη : 0 < η) : ∃ M : ℕ, ∀ (co : Const) (p : Args d) (m : Medium 3 p.grid.shape) (s E0 : Solver.Field 3 p.grid.shape),
    Samples co p m s E0 period k0 epsilon r S → (∀ b, M ≤ p.grid.shape b) → ∀ (o : Optimum) (tol : ℝ), 0 ≤ tol → ∀ F : Solver.Field 3 p.grid.shape, (∀ c, SampledFrom p.grid (E c) (F c)) →
      ∃ t, p.start co tol o = .ok ⟨3, t⟩ ∧ ∃ j0, ∀ i ≥ j0, (∃ u, run (.vectorial hd) (backendK p.grid k0) t i = .ok u ∧ rms (getE k0 u - F) < η) ∨
        (run (.vectorial hd) (backendK p.grid k0) t i = .error .zeroDivision ∧ ∃ j < i, ∃ u, run (.vectorial hd) (backendK p.grid k0) t j = .ok u ∧ rms (getE k0 u - F) < η) := by
  have hη2 : 0 < η / 2 := by linarith
  obtain ⟨M, hM⟩ := C128_limit hd hk0 hδ habs hr hE ha hη2
  refine ⟨M, fun co p m s E0 h hMp o tol htol F hF => ?_⟩
  have hs : ∀ b, p.grid.step b ≠ 0 := fun b h0 => hper b (by rw [← h.period b, h0, mul_zero])
  have hab := sampled_absorbs hd habs h.epsilon
  have hgain : NoGain m.epsilon := fun x v => le_trans (mul_nonneg hδ.le (Finset.sum_nonneg fun i _ => sq_nonneg _)) (hab x v)
  obtain ⟨t, E', h1, -, h3, h4⟩ := C86_uniform h.describes h.vectorial hd hs (by rw [h.wavenumber]; exact hk0) h.xi h.zeta hgain (noGain_real h.mu) o tol htol h.form hr h.mu ⟨δ, hδ, hab⟩
  rw [h.wavenumber] at h3 h4
  rw [show m.mu = fun _ => (r : ℂ) • 1 from funext h.mu] at h3
  have h5 := hM p.grid hs h.describes.nonempty hMp h.period m.epsilon s E' F h.epsilon h.source h3 hF
  have hP : 0 < Real.sqrt (∏ b, (p.grid.shape b : ℝ)) := Real.sqrt_pos.2 (Finset.prod_pos fun b _ => by exact_mod_cast h.describes.nonempty b)
  obtain ⟨j0, hj⟩ := h4.tendsto (η / 2 * Real.sqrt (∏ b, (p.grid.shape b : ℝ))) (by positivity)
  refine ⟨t, h1, j0, fun i hi => ?_⟩
  rcases hj i hi with ⟨u, h6, h7⟩ | ⟨h6, j, hji, u, h7, h8⟩
  · refine .inl ⟨u, h6, (rms_triangle (getE k0 u) E' F).trans_lt ?_⟩
    have h8 : rms (E' - getE k0 u) < η / 2 := by
      rw [rms_norm, norm_rev, div_lt_iff₀ hP]
      exact h7
    linarith
  · exact .inr ⟨h6, j, hji, u, h7, by rw [h8]; linarith⟩

/-- **C128 (as called, all errors).** `solve`, with its stopping criterion `rtol` and with rounding errors, returns a field whose difference with the exact solution in space is at most the sum of the error of the
iteration, that of rounding, and that of the sampling. -/
theorem C128_called_solve {co : Const} {p : Args d} {m : Medium 3 p.grid.shape} {s : Solver.Field 3 p.grid.shape} (h : Samples co p m s 0 period k0 epsilon r S) (hS : s ≠ 0) (o : Optimum) {tol : ℝ}
    (htol : 0 ≤ tol) {c : ℝ} (hc0 : 0 ≤ c) (hw : Within (fun x => m.epsilon x - ((o.alphaR * r⁻¹ : ℝ) : ℂ) • 1) c) {F : Solver.Field 3 p.grid.shape} (hF : ∀ c, SampledFrom p.grid (E c) (F c)) :
    ∃ (t : State 3 p.grid.shape) (E' : Solver.Field 3 p.grid.shape) (c' : ℝ), p.start co tol o = .ok ⟨3, t⟩ ∧ 0 ≤ c' ∧ c' ≤ c ∧ c' + 0.05 * r⁻¹ ≤ t.alpha.im * r⁻¹ ∧
      ∀ rtol : ℝ, 0 < rtol → ∀ (maxiter : WithTop ℝ) (u : ℝ) (ro : ℕ → Rounding 3 p.grid.shape), (∀ i, (ro i).Within (u * (k0 ^ 2 * Backend.norm E'))) →
        18 * u * (1 - rateOf (t.alpha.im * r⁻¹) c' δ + rtol) ≤ rtol * (1 - rateOf (t.alpha.im * r⁻¹) c' δ) ^ 2 → ∀ i : ℕ, iterationsRounded (t.alpha.im * r⁻¹) c' δ rtol ≤ i →
        ∃ t', solveRounded (.vectorial hd) (backendK p.grid k0) ro rtol maxiter t i = .done () t' ∧
          (maxiter ≤ ((t'.iteration : ℝ) : WithTop ℝ) ∨ rms (getE k0 t' - F) ≤
            (rateOf (t.alpha.im * r⁻¹) c' δ * rtol * (rms (getE k0 t') + u * rms E') + 2 * u * rms E') / (1 - rateOf (t.alpha.im * r⁻¹) c' δ) +
              2 * Real.sqrt 3 / (r * k0 ^ 2 * δ) * ∑ c, remainder p.grid.shape period (a c)) := by
  have hs : ∀ b, p.grid.step b ≠ 0 := fun b h0 => hper b (by rw [← h.period b, h0, mul_zero])
  have hab := sampled_absorbs hd habs h.epsilon
  have hgain : NoGain m.epsilon := fun x v => le_trans (mul_nonneg hδ.le (Finset.sum_nonneg fun i _ => sq_nonneg _)) (hab x v)
  obtain ⟨t, E', c', h1, h2, h3, h4, h5, h6⟩ := C120_called h.describes h.vectorial hd hs (by rw [h.wavenumber]; exact hk0) h.xi h.zeta hgain (noGain_real h.mu) o tol htol h.form hr h.mu hδ hab hS hc0 hw
  rw [h.wavenumber] at h2 h6
  rw [show m.mu = fun _ => (r : ℂ) • 1 from funext h.mu] at h2
  have h7 := C128_error hd hs h.describes.nonempty h.period hk0 hδ habs hr hE ha h.epsilon h.source h2 hF
  refine ⟨t, E', c', h1, h3, h4, h5, fun rtol hrt maxiter u ro hro hu i hi => ?_⟩
  obtain ⟨t', ht, hor⟩ := h6 rtol hrt maxiter u ro hro hu i hi
  refine ⟨t', ht, hor.imp id fun hb => (rms_triangle (getE k0 t') E' F).trans (add_le_add ?_ h7)⟩
  rw [rms_norm, rms_norm, rms_norm, norm_rev]
  refine (div_le_div_of_nonneg_right hb (Real.sqrt_nonneg _)).trans (le_of_eq ?_)
  ring

end

/-! ### Cases -/

theorem uniform_samples (co : Const) : Samples co (uniformArgs true) (uniformMedium 3) (fun _ _ => 1) (fun _ _ => 3) (fun _ => 2) 1 (fun _ => (1 + I) • 1) 2 fun _ _ => 1 where
  describes := uniform_describes true 3 co
  vectorial := rfl
  form := ⟨by simp [uniformArgs, demoArgs], by simp [uniformArgs, demoArgs]⟩
  wavenumber := rfl
  period := fun _ => mul_one _
  epsilon := fun _ _ _ => rfl
  mu := fun _ => by
    push_cast
    rfl
  xi := fun _ => rfl
  zeta := fun _ => rfl
  source := fun _ _ _ _ => rfl

/-- The hypotheses of `C128_called` and `C128_called_limit` are met: a uniform material and source, with the exact solution `-1 / (1 + i)`. -/
example (co : Const) (o : Optimum) : ∃ t E', (uniformArgs true).start co 1e-8 o = .ok ⟨3, t⟩ ∧ ConvergesTo (.vectorial (show 1 ≤ 3 by decide)) (backendK demoGrid 1) 1 t E' ∧
    rms (E' - fun _ _ => -(1 + I)⁻¹) ≤ 2 * Real.sqrt 3 / (2 * 1 ^ 2 * 1) * ∑ _c : Fin 3, remainder demoGrid.shape (fun _ => 2) (Pi.single 0 (-(1 + I)⁻¹)) := by
  have h1 : (1 + I : ℂ) ≠ 0 := fun h => by simpa using congrArg Complex.im h
  have h2 : ∀ r, Spec.Continuous.wave (harmonic (d := 1) (fun _ => 2) 0) r = 1 := fun r => by
    have : harmonic (d := 1) (fun _ => 2) 0 = 0 := by
      funext c
      unfold harmonic
      split_ifs <;> simp
    rw [this]
    simp [Spec.Continuous.wave]
  refine C128_called (epsilon := fun _ => (1 + I) • 1) (S := fun _ _ => 1) (E := fun _ _ => -(1 + I)⁻¹) (a := fun _ => Pi.single 0 (-(1 + I)⁻¹)) (by decide) (fun _ => two_ne_zero) one_pos one_pos
    (fun r v => ?_) two_pos (fun c r => ?_) (fun c => ?_) (uniform_samples co) o (by norm_num) fun _ _ _ _ => rfl
  · rw [Matrix.smul_mulVec, Matrix.one_mulVec, dotProduct_smul, star_dot_self, smul_eq_mul, im_mul_ofReal]
    simp
  · have h0 : ∀ c r z, Spec.Continuous.partialDeriv c (fun _ => z) r = 0 := fun c r z => deriv_const _ _
    rw [curl_curl fun _ c c' r t => by simp only [h0]; exact differentiableAt_const _]
    have h3 : ∀ c, Spec.Continuous.partialDeriv c (fun _ => -(1 + I)⁻¹) = fun _ => 0 := fun c => funext fun r => h0 c r _
    simp only [h3, h0, sub_self, Finset.sum_const_zero, mul_zero, zero_sub]
    rw [Matrix.smul_mulVec, Matrix.one_mulVec, Pi.smul_apply, smul_eq_mul]
    push_cast
    field_simp
  · have := hasSeries_single (d := 1) (fun _ => 2) 0 (-(1 + I)⁻¹)
    simpa only [h2, mul_one] using this

end Verif.Problem
