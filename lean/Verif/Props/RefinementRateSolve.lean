import Verif.Props.RefinementRate
import Verif.Props.ProblemRefinement
import Verif.Props.ProblemRefinementCoupled

/-!
# C128 and C132: the difference with the exact solution, for `solve`, for magnetic materials and for scalar fields, from the arguments of the constructor
-/

namespace Verif.Problem

open Verif Verif.Fourier Verif.Backend Verif.Solver Verif.Construct Verif.Refinement Verif.Existence Verif.Spec.Existence Complex Matrix
open Verif.Spec.Continuous (Point)
open Verif.Spec.Solver (NoGain Within WaveEquation ScalarWaveEquation rateOf iterationsRounded)
open Verif.Spec.Refinement

variable {d : ℕ}

/-- **C132 (as called, all errors).** `solve`, with its stopping criterion `rtol` and with rounding errors, returns a field whose difference with the exact solution of a smooth problem in space is at most the sum of the
error of the iteration, that of rounding, and a constant times the `n`-th power of the distance between the samples. -/
theorem C132_called_solve {n : ℕ} (hd : d ≤ 3) {period : Fin d → ℝ} (hper : ∀ b, period b ≠ 0) {k0 : ℝ} (hk0 : 0 < k0) {δ : ℝ} (hδ : 0 < δ) {epsilon : Point → Matrix (Fin 3) (Fin 3) ℂ}
    (hsm : ∀ c c', SmoothTo (n + 5) period fun r => epsilon r c c') (habs : AbsorbsInSpace epsilon δ) {r : ℝ} (hr : 0 < r) {S : Fin 3 → Point → ℂ}
    (hS : ∀ c, SmoothTo (n + 5) period (S c)) {E : Fin 3 → Point → ℂ} (hE : WaveEquationInSpace k0 epsilon r S E) (ha : ∀ c, ∃ a, HasSeries period (E c) a) :
    ∃ C, ∀ (co : Const) (p : Args d) (m : Medium 3 p.grid.shape) (s : Solver.Field 3 p.grid.shape), Samples co p m s 0 period k0 epsilon r S → s ≠ 0 → ∀ h, 0 ≤ h → (∀ b, |p.grid.step b| ≤ h) →
      ∀ (o : Optimum) (tol : ℝ), 0 ≤ tol → ∀ c : ℝ, 0 ≤ c → Within (fun x => m.epsilon x - ((o.alphaR * r⁻¹ : ℝ) : ℂ) • 1) c → ∀ F : Solver.Field 3 p.grid.shape, (∀ c, SampledFrom p.grid (E c) (F c)) →
        ∃ (t : State 3 p.grid.shape) (E' : Solver.Field 3 p.grid.shape) (c' : ℝ), p.start co tol o = .ok ⟨3, t⟩ ∧ 0 ≤ c' ∧ c' ≤ c ∧ c' + 0.05 * r⁻¹ ≤ t.alpha.im * r⁻¹ ∧
          ∀ rtol : ℝ, 0 < rtol → ∀ (maxiter : WithTop ℝ) (u : ℝ) (ro : ℕ → Rounding 3 p.grid.shape), (∀ i, (ro i).Within (u * (k0 ^ 2 * Backend.norm E'))) →
            18 * u * (1 - rateOf (t.alpha.im * r⁻¹) c' δ + rtol) ≤ rtol * (1 - rateOf (t.alpha.im * r⁻¹) c' δ) ^ 2 → ∀ i : ℕ, iterationsRounded (t.alpha.im * r⁻¹) c' δ rtol ≤ i →
            ∃ t', solveRounded (.vectorial hd) (backendK p.grid k0) ro rtol maxiter t i = .done () t' ∧
              (maxiter ≤ ((t'.iteration : ℝ) : WithTop ℝ) ∨ rms (getE k0 t' - F) ≤
                (rateOf (t.alpha.im * r⁻¹) c' δ * rtol * (rms (getE k0 t') + u * rms E') + 2 * u * rms E') / (1 - rateOf (t.alpha.im * r⁻¹) c' δ) + C * h ^ n) := by
  obtain ⟨C, hC⟩ := C132_rate hd hper hk0 hδ hsm habs hr hS hE ha
  refine ⟨C, fun co p m s h hs0 η hη0 hη o tol htol c hc0 hw F hF => ?_⟩
  have hs : ∀ b, p.grid.step b ≠ 0 := fun b h0 => hper b (by rw [← h.period b, h0, mul_zero])
  have hab := sampled_absorbs hd habs h.epsilon
  have hgain : NoGain m.epsilon := fun x v => le_trans (mul_nonneg hδ.le (Finset.sum_nonneg fun i _ => sq_nonneg _)) (hab x v)
  obtain ⟨t, E', c', h1, h2, h3, h4, h5, h6⟩ := C120_called h.describes h.vectorial hd hs (by rw [h.wavenumber]; exact hk0) h.xi h.zeta hgain (noGain_real h.mu) o tol htol h.form hr h.mu hδ hab hs0 hc0 hw
  rw [h.wavenumber] at h2 h6
  rw [show m.mu = fun _ => (r : ℂ) • 1 from funext h.mu] at h2
  have h7 := hC p.grid hs h.describes.nonempty h.period η hη0 hη m.epsilon s E' F h.epsilon h.source h2 hF
  refine ⟨t, E', c', h1, h3, h4, h5, fun rtol hrt maxiter u ro hro hu i hi => ?_⟩
  obtain ⟨t', ht, hor⟩ := h6 rtol hrt maxiter u ro hro hu i hi
  refine ⟨t', ht, hor.imp id fun hb => (rms_triangle (getE k0 t') E' F).trans (add_le_add ?_ h7)⟩
  rw [rms_norm, rms_norm, rms_norm, norm_rev]
  refine (div_le_div_of_nonneg_right hb (Real.sqrt_nonneg _)).trans (le_of_eq ?_)
  ring

/-- **C132 (as called, coupled).** If the arguments are samples of a smooth material that is found to be magnetic, and if the material with the exchanged coupling is a sample of one in space that absorbs both fields a
little, then the constructor succeeds and the iteration converges to a field that differs from the exact one for the latter by at most a constant times the `n`-th power of the distance between the samples. -/
theorem C132_called_coupled {n : ℕ} (hd : d ≤ 3) {period : Fin d → ℝ} (hper : ∀ b, period b ≠ 0) {k0 : ℝ} (hk0 : 0 < k0) {δ : ℝ} (hδ : 0 < δ) {epsilon xi zeta mu : Point → Matrix (Fin 3) (Fin 3) ℂ}
    (hse : ∀ c c', SmoothTo (n + 5) period fun r => epsilon r c c') (hsx : ∀ c c', SmoothTo (n + 5) period fun r => xi r c c') (hsz : ∀ c c', SmoothTo (n + 5) period fun r => zeta r c c')
    (hsm : ∀ c c', SmoothTo (n + 5) period fun r => mu r c c') (habs : AbsorbsBothInSpace epsilon xi zeta mu δ) {S : Fin 3 → Point → ℂ} (hS : ∀ c, SmoothTo (n + 5) period (S c))
    {E H : Fin 3 → Point → ℂ} (hE : CoupledInSpace k0 epsilon xi zeta mu S E H) (ha : ∀ c, ∃ a, HasFirstSeries period (E c) a) (hb : ∀ c, ∃ b, HasFirstSeries period (H c) b) :
    ∃ C, ∀ (co : Const) (p : Args d) (m : Medium 3 p.grid.shape) (s E0 : Solver.Field 3 p.grid.shape) (o : Optimum), CalledMagnetic co p m s E0 o →
      SamplesMedium p.grid m.exchanged epsilon xi zeta mu → p.frequency.k0 co.c = k0 → (∀ b, p.grid.shape b * p.grid.step b = period b) → (∀ c, SampledFrom p.grid (S c) (s c)) →
        ∀ h, 0 ≤ h → (∀ b, |p.grid.step b| ≤ h) → ∀ (tol : ℝ) (F : Solver.Field 3 p.grid.shape), (∀ c, SampledFrom p.grid (E c) (F c)) →
          ∃ t E', p.start co tol o = .ok ⟨3, t⟩ ∧ ConvergesTo (.vectorial hd) (backendK p.grid k0) k0 t E' ∧ rms (E' - F) ≤ C * h ^ n := by
  obtain ⟨C, hC⟩ := C132_coupled_rate hd hper hk0 hδ hse hsx hsz hsm habs hS hE ha hb
  refine ⟨C, fun co p m s E0 o h hm hw hL hsf η hη0 hη tol F hF => ?_⟩
  have hs : ∀ b, p.grid.step b ≠ 0 := fun b h0 => hper b (by rw [← hL b, h0, mul_zero])
  have hab := exchanged_absorbs hd habs hm
  have hinv : ∀ x, IsUnit (m.mu x).det := fun x => absorbs_invertible hδ (hab x)
  obtain ⟨t, E', h1, -, ⟨H', h3⟩, -, h4⟩ := C86_coupled h.describes h.vectorial hs (by rw [hw]; exact hk0) hd o tol h.found hinv h.optimum ⟨δ, hδ, fun x e f =>
    (mul_le_mul_of_nonneg_left (le_add_of_nonneg_right (Finset.sum_nonneg fun i _ => sq_nonneg _)) hδ.le).trans (hab x e f)⟩
  rw [hw] at h3 h4
  choose b hb' using hb
  choose G hG using fun c => sampled_of_extruded hd p.grid (hasFirst_extruded (hb' c))
  exact ⟨t, E', h1, h4.tendsto, (hC p.grid hs h.describes.nonempty hL η hη0 hη _ _ _ _ s E' H' F G hm.epsilon hm.xi hm.zeta hm.mu hsf h3 hF hG).1⟩

/-- The arguments are samples of a scalar problem in space: a material with the permittivity `epsilon`, the uniform permeability `r` and no coupling, and the source `S`. -/
structure SamplesScalar (co : Const) (p : Args d) (m : Medium 1 p.grid.shape) (s E0 : Solver.Field 1 p.grid.shape) (period : Fin d → ℝ) (k0 : ℝ) (epsilon : Point → ℂ) (r : ℝ) (S : Point → ℂ) : Prop where
  describes : Describes co 1 p m s E0
  scalar : p.source.isVectorial (List.ofFn p.grid.shape) (p.currentFactor co) = false
  wavenumber : p.frequency.k0 co.c = k0
  period : ∀ b, p.grid.shape b * p.grid.step b = period b
  epsilon : SampledFrom p.grid epsilon fun x => m.epsilon x 0 0
  mu : ∀ x, m.mu x 0 0 = r
  xi : ∀ x, m.xi x = 0
  zeta : ∀ x, m.zeta x = 0
  source : SampledFrom p.grid S (s 0)

/-- The iteration converges to the solution on the grid. -/
theorem scalar_converges (hd : d ≤ 3) {period : Fin d → ℝ} (hper : ∀ b, period b ≠ 0) {k0 : ℝ} (hk0 : 0 < k0) {δ : ℝ} (hδ : 0 < δ) {epsilon : Point → ℂ} (habs : ∀ r, δ ≤ (epsilon r).im) {r : ℝ} (hr : 0 < r)
    {S : Point → ℂ} {co : Const} {p : Args d} {m : Medium 1 p.grid.shape} {s E0 : Solver.Field 1 p.grid.shape} (h : SamplesScalar co p m s E0 period k0 epsilon r S) (o : Optimum) {tol : ℝ} (htol : 0 ≤ tol) :
    (∀ b, p.grid.step b ≠ 0) ∧ ∃ t E', p.start co tol o = .ok ⟨1, t⟩ ∧ ConvergesTo .scalar (backendK p.grid k0) k0 t E' ∧ ScalarWaveEquation (kOf p.grid) k0 (fun x => m.epsilon x 0 0) r (s 0) (E' 0) := by
  have hs : ∀ b, p.grid.step b ≠ 0 := fun b h0 => hper b (by rw [← h.period b, h0, mul_zero])
  have hab : ∀ x, 0 < (m.epsilon x 0 0).im := fun x => by
    obtain ⟨ρ, hρ⟩ := Continuous.exists_atSample hd p.grid x
    rw [show m.epsilon x 0 0 = epsilon ρ from h.epsilon x ρ hρ]
    exact hδ.trans_le (habs ρ)
  have hm : ((m.mu (first h.describes.nonempty) 0 0)⁻¹).re = r⁻¹ := by rw [h.mu, ← ofReal_inv, ofReal_re]
  obtain ⟨t, E', h1, -, h3, h4⟩ := C86_scalar h.describes h.scalar hs (by rw [h.wavenumber]; exact hk0) h.xi h.zeta hab o tol (fun x => by rw [h.mu, ofReal_im]) htol
    (fun x => by rw [h.mu, h.mu, sub_self, norm_zero]; positivity) (by rw [hm]; exact inv_pos.2 hr)
  rw [hm, h.wavenumber, ofReal_inv, inv_inv] at h3
  rw [h.wavenumber] at h4
  exact ⟨hs, t, E', h1, h4.tendsto, h3⟩

theorem rms_scalar {N : Fin d → ℕ} (A B : Solver.Field 1 N) : rms (A - B) = rms fun _ : Fin 1 => A 0 - B 0 := by
  congr 1
  funext c
  rw [Subsingleton.elim c 0]
  rfl

/-- **C128 (as called, scalar).** If the arguments are samples of a scalar problem in space with a little absorption, then the constructor succeeds, and the iteration converges to a field that differs from the exact
solution by at most the terms that the grid cannot resolve. -/
theorem C128_called_scalar (hd : d ≤ 3) {period : Fin d → ℝ} (hper : ∀ b, period b ≠ 0) {k0 : ℝ} (hk0 : 0 < k0) {δ : ℝ} (hδ : 0 < δ) {epsilon : Point → ℂ} (habs : ∀ r, δ ≤ (epsilon r).im) {r : ℝ} (hr : 0 < r)
    {S E : Point → ℂ} (hE : ScalarWaveEquationInSpace k0 epsilon r S E) {a : (Fin d → ℤ) → ℂ} (ha : HasSeries period E a) {co : Const} {p : Args d} {m : Medium 1 p.grid.shape}
    {s E0 : Solver.Field 1 p.grid.shape} (h : SamplesScalar co p m s E0 period k0 epsilon r S) (o : Optimum) {tol : ℝ} (htol : 0 ≤ tol) {F : Solver.Field 1 p.grid.shape} (hF : SampledFrom p.grid E (F 0)) :
    ∃ t E', p.start co tol o = .ok ⟨1, t⟩ ∧ ConvergesTo .scalar (backendK p.grid k0) k0 t E' ∧ rms (E' - F) ≤ 2 / (r * k0 ^ 2 * δ) * remainder p.grid.shape period a := by
  obtain ⟨hs, t, E', h1, h2, h3⟩ := scalar_converges hd hper hk0 hδ habs hr h o htol
  refine ⟨t, E', h1, h2, ?_⟩
  rw [rms_scalar]
  exact C128_scalar_error hd hs h.describes.nonempty h.period hk0 hδ habs hr hE ha h.epsilon h.source h3 hF

/-- **C128 (as called, scalar, limit).** For every error there is a number of samples and, for all arguments with at least that many samples of the same scalar problem in space, a number of iterations, after which the
field differs less from the exact solution. -/
theorem C128_called_scalar_limit (hd : d ≤ 3) {period : Fin d → ℝ} (hper : ∀ b, period b ≠ 0) {k0 : ℝ} (hk0 : 0 < k0) {δ : ℝ} (hδ : 0 < δ) {epsilon : Point → ℂ} (habs : ∀ r, δ ≤ (epsilon r).im) {r : ℝ}
    (hr : 0 < r) {S E : Point → ℂ} (hE : ScalarWaveEquationInSpace k0 epsilon r S E) {a : (Fin d → ℤ) → ℂ} (ha : HasSeries period E a) {η : ℝ} (hη : 0 < η) :
    ∃ M : ℕ, ∀ (co : Const) (p : Args d) (m : Medium 1 p.grid.shape) (s E0 : Solver.Field 1 p.grid.shape), SamplesScalar co p m s E0 period k0 epsilon r S → (∀ b, M ≤ p.grid.shape b) →
      ∀ (o : Optimum) (tol : ℝ), 0 ≤ tol → ∀ F : Solver.Field 1 p.grid.shape, SampledFrom p.grid E (F 0) →
        ∃ t, p.start co tol o = .ok ⟨1, t⟩ ∧ ∃ j0, ∀ i ≥ j0, (∃ u, run .scalar (backendK p.grid k0) t i = .ok u ∧ rms (getE k0 u - F) < η) ∨
          (run .scalar (backendK p.grid k0) t i = .error .zeroDivision ∧ ∃ j < i, ∃ u, run .scalar (backendK p.grid k0) t j = .ok u ∧ rms (getE k0 u - F) < η) := by
  have hη2 : 0 < η / 2 := by linarith
  obtain ⟨M, hM⟩ := C128_scalar_limit hd hk0 hδ habs hr hE ha hη2
  refine ⟨M, fun co p m s E0 h hMp o tol htol F hF => ?_⟩
  obtain ⟨hs, t, E', h1, h4, h3⟩ := scalar_converges hd hper hk0 hδ habs hr h o htol
  have h5 := hM p.grid hs h.describes.nonempty hMp h.period _ (s 0) (E' 0) (F 0) h.epsilon h.source h3 hF
  rw [← rms_scalar] at h5
  have hP : 0 < Real.sqrt (∏ b, (p.grid.shape b : ℝ)) := Real.sqrt_pos.2 (Finset.prod_pos fun b _ => by exact_mod_cast h.describes.nonempty b)
  obtain ⟨j0, hj⟩ := h4 (η / 2 * Real.sqrt (∏ b, (p.grid.shape b : ℝ))) (by positivity)
  refine ⟨t, h1, j0, fun i hi => ?_⟩
  rcases hj i hi with ⟨u, h6, h7⟩ | ⟨h6, j, hji, u, h7, h8⟩
  · refine .inl ⟨u, h6, (rms_triangle (getE k0 u) E' F).trans_lt ?_⟩
    have h8 : rms (E' - getE k0 u) < η / 2 := by
      rw [rms_norm, norm_rev, div_lt_iff₀ hP]
      exact h7
    linarith
  · exact .inr ⟨h6, j, hji, u, h7, by rw [h8]; linarith⟩

/-- **C132 (as called, scalar).** If the arguments are samples of a smooth scalar problem in space, then the constructor succeeds and the iteration converges to a field that differs from the exact one by at most a
constant times the `n`-th power of the distance between the samples. -/
theorem C132_called_scalar {n : ℕ} (hd : d ≤ 3) {period : Fin d → ℝ} (hper : ∀ b, period b ≠ 0) {k0 : ℝ} (hk0 : 0 < k0) {δ : ℝ} (hδ : 0 < δ) {epsilon : Point → ℂ} (hsm : SmoothTo (n + 5) period epsilon)
    (habs : ∀ r, δ ≤ (epsilon r).im) {r : ℝ} (hr : 0 < r) {S : Point → ℂ} (hS : SmoothTo (n + 5) period S) {E : Point → ℂ} (hE : ScalarWaveEquationInSpace k0 epsilon r S E) (ha : ∃ a, HasSeries period E a) :
    ∃ C, ∀ (co : Const) (p : Args d) (m : Medium 1 p.grid.shape) (s E0 : Solver.Field 1 p.grid.shape), SamplesScalar co p m s E0 period k0 epsilon r S → ∀ h, 0 ≤ h → (∀ b, |p.grid.step b| ≤ h) →
      ∀ (o : Optimum) (tol : ℝ), 0 ≤ tol → ∀ F : Solver.Field 1 p.grid.shape, SampledFrom p.grid E (F 0) →
        ∃ t E', p.start co tol o = .ok ⟨1, t⟩ ∧ ConvergesTo .scalar (backendK p.grid k0) k0 t E' ∧ rms (E' - F) ≤ C * h ^ n := by
  obtain ⟨C, hC⟩ := C132_scalar_rate hd hper hk0 hδ hsm habs hr hS hE ha
  refine ⟨C, fun co p m s E0 h η hη0 hη o tol htol F hF => ?_⟩
  obtain ⟨hs, t, E', h1, h2, h3⟩ := scalar_converges hd hper hk0 hδ habs hr h o htol
  refine ⟨t, E', h1, h2, ?_⟩
  rw [rms_scalar]
  exact hC p.grid hs h.describes.nonempty h.period η hη0 hη _ (s 0) (E' 0) (F 0) h.epsilon h.source h3 hF

/-! ### Cases -/

/-- The hypotheses of `C132_called_solve` and `C132_called_coupled` are met, for every order. -/
example {E : Fin 3 → Point → ℂ} (h2 : WaveEquationInSpace 1 demoEpsilon (2 : ℝ) demoDrive E) (h1 : ∀ c, ∃ a, HasSeries (1 : Fin 1 → ℝ) (E c) a) (n : ℕ) :=
  C132_called_solve (n := n) (d := 1) (by decide) (fun _ => one_ne_zero) one_pos one_pos demoEpsilon_smooth demoEpsilon_absorbs two_pos demoDrive_smooth h2 h1

example (n : ℕ) : ∃ E H : Fin 3 → Point → ℂ, ∃ C, ∀ (co : Const) (p : Args 1) (m : Medium 3 p.grid.shape) (s E0 : Solver.Field 3 p.grid.shape) (o : Optimum), CalledMagnetic co p m s E0 o →
    SamplesMedium p.grid m.exchanged demoLossy (fun r => demoChirality r • 1) (fun r => -demoChirality r • 1) (fun _ => (1 + 2 * I : ℂ) • 1) → p.frequency.k0 co.c = 1 →
      (∀ b, p.grid.shape b * p.grid.step b = (1 : Fin 1 → ℝ) b) → (∀ c, SampledFrom p.grid (demoDrive c) (s c)) → ∀ h, 0 ≤ h → (∀ b, |p.grid.step b| ≤ h) → ∀ (tol : ℝ) (F : Solver.Field 3 p.grid.shape),
        (∀ c, SampledFrom p.grid (E c) (F c)) → ∃ t E', p.start co tol o = .ok ⟨3, t⟩ ∧ ConvergesTo (.vectorial (show 1 ≤ 3 by decide)) (backendK p.grid 1) 1 t E' ∧ rms (E' - F) ≤ C * h ^ n := by
  obtain ⟨⟨E, H⟩, ⟨h1, h2, h3⟩, _⟩ := C130_coupled_exists (d := 1) (by decide) (fun _ => one_ne_zero) one_pos demoCoupled_smooth.1 demoCoupled_smooth.2.1 demoCoupled_smooth.2.2.1 demoCoupled_smooth.2.2.2 one_pos
    demoCoupled_absorbs demoDrive_smooth
  exact ⟨E, H, C132_called_coupled (by decide) (fun _ => one_ne_zero) one_pos one_pos demoCoupled_smooth.1 demoCoupled_smooth.2.1 demoCoupled_smooth.2.2.1 demoCoupled_smooth.2.2.2 demoCoupled_absorbs
    demoDrive_smooth h3 h1 h2⟩

theorem uniform_samples_scalar (co : Const) : SamplesScalar co (uniformArgs false) (uniformMedium 1) (fun _ _ => 1) (fun _ _ => 3) (fun _ => 2) 1 (fun _ => 1 + I) 2 fun _ => 1 where
  describes := uniform_describes false 1 co
  scalar := rfl
  wavenumber := rfl
  period := fun _ => mul_one _
  epsilon := fun _ _ _ => by
    show ((1 + I : ℂ) • (1 : Matrix (Fin 1) (Fin 1) ℂ)) 0 0 = _
    rw [Matrix.smul_apply, Matrix.one_apply_eq, smul_eq_mul, mul_one]
  mu := fun _ => by
    show ((2 : ℂ) • (1 : Matrix (Fin 1) (Fin 1) ℂ)) 0 0 = _
    rw [Matrix.smul_apply, Matrix.one_apply_eq, smul_eq_mul, mul_one]
    push_cast
    rfl
  xi := fun _ => rfl
  zeta := fun _ => rfl
  source := fun _ _ _ => rfl

/-- The hypotheses of `C128_called_scalar`, `C128_called_scalar_limit` and `C132_called_scalar` are met: a uniform material and any smooth solution. -/
example (co : Const) (o : Optimum) {E : Point → ℂ} (hE : ScalarWaveEquationInSpace 1 (fun _ => 1 + I) (2 : ℝ) (fun _ => 1) E) {a : (Fin 1 → ℤ) → ℂ} (ha : HasSeries (fun _ => 2) E a)
    {F : Solver.Field 1 demoGrid.shape} (hF : SampledFrom demoGrid E (F 0)) :=
  C128_called_scalar (δ := 1) (by decide) (fun _ => two_ne_zero) one_pos one_pos (fun _ => by simp) two_pos hE ha (uniform_samples_scalar co) o (tol := 1e-8) (by norm_num) hF

example {E : Point → ℂ} (hE : ScalarWaveEquationInSpace 1 (fun _ => 1 + I) (2 : ℝ) (fun _ => 1) E) {a : (Fin 1 → ℤ) → ℂ} (ha : HasSeries (fun _ => 2) E a) {η : ℝ} (hη : 0 < η) :=
  C128_called_scalar_limit (δ := 1) (by decide) (fun _ => two_ne_zero) one_pos one_pos (fun _ => by simp) two_pos hE ha hη

example (n : ℕ) {E : Point → ℂ} (h2 : ScalarWaveEquationInSpace 1 (fun r => demoEpsilon r 0 0) (2 : ℝ) (demoDrive 1) E) (h1 : ∃ a, HasSeries (1 : Fin 1 → ℝ) E a) :=
  C132_called_scalar (n := n) (d := 1) (δ := 1) (by decide) (fun _ => one_ne_zero) one_pos one_pos (demoEpsilon_smooth 0 0) (fun r => by
    unfold demoEpsilon
    rw [Matrix.smul_apply, Matrix.one_apply_eq, smul_eq_mul, mul_one, add_im, ofReal_im, I_im, zero_add]) two_pos (demoDrive_smooth 1) h2 h1

end Verif.Problem
