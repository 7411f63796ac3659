import Verif.Props.RefinementBetween
import Verif.Props.RefinementRateSolve

/-!
# C130 for scalar fields and for materials with magneto-electric coupling

Scalar problems have exactly one exact field, and the solver returns it, at the samples and between them.  Between the samples, it also does so for materials with magneto-electric coupling.
-/

namespace Verif.Problem

open Verif Verif.Fourier Verif.Backend Verif.Solver Verif.Construct Verif.Refinement Verif.Existence Verif.Spec.Existence Complex Matrix
open Verif.Spec.Continuous (Point Interpolates)
open Verif.Spec.Refinement

variable {d : ℕ}

/-- **C130 (as called, scalar).** Every smooth absorbing material with every smooth source has exactly one exact scalar field, and the solver returns it to within any accuracy, once the grid is fine enough and the
iterations are enough. -/
theorem C130_called_scalar_limit (hd : d ≤ 3) {period : Fin d → ℝ} (hper : ∀ b, period b ≠ 0) {k0 : ℝ} (hk0 : 0 < k0) {epsilon : Point → ℂ} (hsm : Smooth period epsilon) {δ : ℝ} (hδ : 0 < δ)
    (habs : ∀ r, δ ≤ (epsilon r).im) {r : ℝ} (hr : 0 < r) {S : Point → ℂ} (hS : Smooth period S) :
    ∃ E : Point → ℂ, ScalarWaveEquationInSpace k0 epsilon r S E ∧ ∀ η > 0, ∃ M : ℕ, ∀ (co : Const) (p : Args d) (m : Medium 1 p.grid.shape) (s E0 : Solver.Field 1 p.grid.shape),
      SamplesScalar co p m s E0 period k0 epsilon r S → (∀ b, M ≤ p.grid.shape b) → ∀ (o : Optimum) (tol : ℝ), 0 ≤ tol → ∀ F : Solver.Field 1 p.grid.shape, SampledFrom p.grid E (F 0) →
        ∃ t, p.start co tol o = .ok ⟨1, t⟩ ∧ ∃ j0, ∀ i ≥ j0, (∃ u, run .scalar (backendK p.grid k0) t i = .ok u ∧ rms (getE k0 u - F) < η) ∨
          (run .scalar (backendK p.grid k0) t i = .error .zeroDivision ∧ ∃ j < i, ∃ u, run .scalar (backendK p.grid k0) t j = .ok u ∧ rms (getE k0 u - F) < η) := by
  obtain ⟨E, ⟨⟨a, ha⟩, h2⟩, _⟩ := C130_scalar_exists hd hper hk0 hsm hδ habs hr hS
  exact ⟨E, h2, fun η hη => C128_called_scalar_limit hd hper hk0 hδ habs hr h2 ha hη⟩

/-- **C130 (as called, scalar, between the samples).** The function that interpolates what the solver returns approaches the exact scalar field at all points of space. -/
theorem C130_called_scalar_between (hd : d ≤ 3) {period : Fin d → ℝ} (hper : ∀ b, period b ≠ 0) {k0 : ℝ} (hk0 : 0 < k0) {epsilon : Point → ℂ} (hsm : Smooth period epsilon) {δ : ℝ} (hδ : 0 < δ)
    (habs : ∀ r, δ ≤ (epsilon r).im) {r : ℝ} (hr : 0 < r) {S : Point → ℂ} (hS : Smooth period S) :
    ∃ E : Point → ℂ, ScalarWaveEquationInSpace k0 epsilon r S E ∧ ∀ η > 0, ∃ M : ℕ, ∀ (co : Const) (p : Args d) (m : Medium 1 p.grid.shape) (s E0 : Solver.Field 1 p.grid.shape),
      SamplesScalar co p m s E0 period k0 epsilon r S → (∀ b, M ≤ p.grid.shape b) → ∀ (o : Optimum) (tol : ℝ), 0 ≤ tol →
        ∃ t, p.start co tol o = .ok ⟨1, t⟩ ∧ ∃ j0, ∀ i ≥ j0, ∃ j ≤ i, ∃ u, run .scalar (backendK p.grid k0) t j = .ok u ∧ (j < i → run .scalar (backendK p.grid k0) t i = .error .zeroDivision) ∧
          ∀ P : Point → ℂ, Interpolates p.grid P (getE k0 u 0) → ∀ (v : Point) (D : Idx p.grid.shape → ℂ), DisplacedFrom p.grid v (fun r => P r - E r) D → rms (fun _ : Fin 1 => D) < η := by
  obtain ⟨E, ⟨⟨a, ha⟩, h2⟩, _⟩ := C130_scalar_exists hd hper hk0 hsm hδ habs hr hS
  refine ⟨E, h2, fun η hη => ?_⟩
  obtain ⟨M1, h3⟩ := C128_called_scalar_limit hd hper hk0 hδ habs hr h2 ha (half_pos hη)
  obtain ⟨M2, h4⟩ := between_small (n := 1) (E := fun _ => E) (a := fun _ => a) (fun _ => hasSeries_first ha) (half_pos hη)
  refine ⟨max M1 M2, fun co p m s E0 h hM o tol htol => ?_⟩
  have hs : ∀ b, p.grid.step b ≠ 0 := fun b h0 => hper b (by rw [← h.period b, h0, mul_zero])
  obtain ⟨F, hF⟩ := sampled_of_extruded hd p.grid (hasSeries_extruded ha)
  obtain ⟨t, h5, j0, h6⟩ := h3 co p m s E0 h (fun b => (le_max_left _ _).trans (hM b)) o tol htol (fun _ => F) hF
  have h7 : ∀ u : State 1 p.grid.shape, rms (getE k0 u - fun _ => F) < η / 2 → ∀ P : Point → ℂ, Interpolates p.grid P (getE k0 u 0) → ∀ (v : Point) (D : Idx p.grid.shape → ℂ),
      DisplacedFrom p.grid v (fun r => P r - E r) D → rms (fun _ : Fin 1 => D) < η := by
    intro u hu P hP v D hD
    have h8 := C128_between (n := 1) hd hs h.describes.nonempty h.period (E := fun _ => E) (a := fun _ => a) (fun _ => hasSeries_first ha) (F := fun _ => F) (fun _ => hF) (E' := getE k0 u)
      (P := fun _ => P) (fun c => by rw [Subsingleton.elim c 0]; exact hP) (D := fun _ => D) (fun _ => hD)
    have h9 := h4 p.grid.shape fun b => (le_max_right _ _).trans (hM b)
    exact h8.trans_lt ((add_lt_add_of_lt_of_le hu h9).trans_eq (add_halves η))
  refine ⟨t, h5, j0, fun i hi => ?_⟩
  rcases h6 i hi with ⟨u, hu, hu'⟩ | ⟨he, j, hj, u, hu, hu'⟩
  · exact ⟨i, le_rfl, u, hu, fun h0 => absurd h0 (lt_irrefl i), h7 u hu'⟩
  · exact ⟨j, hj.le, u, hu, fun _ => he, h7 u hu'⟩

/-- **C130 (as called, coupled, between the samples).** -/
theorem C130_called_coupled_between (hd : d ≤ 3) {period : Fin d → ℝ} (hper : ∀ b, period b ≠ 0) {k0 : ℝ} (hk0 : 0 < k0) {epsilon xi zeta mu : Point → Matrix (Fin 3) (Fin 3) ℂ}
    (hse : ∀ c c', Smooth period fun r => epsilon r c c') (hsx : ∀ c c', Smooth period fun r => xi r c c') (hsz : ∀ c c', Smooth period fun r => zeta r c c') (hsm : ∀ c c', Smooth period fun r => mu r c c') {δ : ℝ}
    (hδ : 0 < δ) (habs : AbsorbsBothInSpace epsilon xi zeta mu δ) {S : Fin 3 → Point → ℂ} (hS : ∀ c, Smooth period (S c)) :
    ∃ E H : Fin 3 → Point → ℂ, CoupledInSpace k0 epsilon xi zeta mu S E H ∧ ∀ η > 0, ∃ M : ℕ, ∀ (co : Const) (p : Args d) (m : Medium 3 p.grid.shape) (s E0 : Solver.Field 3 p.grid.shape) (o : Optimum),
      CalledMagnetic co p m s E0 o → SamplesMedium p.grid m.exchanged epsilon xi zeta mu → p.frequency.k0 co.c = k0 → (∀ b, p.grid.shape b * p.grid.step b = period b) → (∀ c, SampledFrom p.grid (S c) (s c)) →
      (∀ b, M ≤ p.grid.shape b) → ∀ tol : ℝ,
        ∃ t, p.start co tol o = .ok ⟨3, t⟩ ∧ ∃ j0, ∀ i ≥ j0, ∃ j ≤ i, ∃ u, run (.vectorial hd) (backendK p.grid k0) t j = .ok u ∧ (j < i → run (.vectorial hd) (backendK p.grid k0) t i = .error .zeroDivision) ∧
          ∀ P : Fin 3 → Point → ℂ, (∀ c, Interpolates p.grid (P c) (getE k0 u c)) → ∀ (v : Point) (D : Solver.Field 3 p.grid.shape), (∀ c, DisplacedFrom p.grid v (fun r => P c r - E c r) (D c)) → rms D < η := by
  obtain ⟨⟨E, H⟩, ⟨h1, h2, h3⟩, _⟩ := C130_coupled_exists hd hper hk0 hse hsx hsz hsm hδ habs hS
  choose a ha using h1
  choose b hb using h2
  refine ⟨E, H, h3, fun η hη => ?_⟩
  obtain ⟨M1, h4⟩ := C128_called_coupled_limit hd hper hk0 hδ habs h3 ha hb (half_pos hη)
  obtain ⟨M2, h5⟩ := between_small ha (half_pos hη)
  refine ⟨max M1 M2, fun co p m s E0 o hcall hsamp hk hp hs hM tol => ?_⟩
  have hst : ∀ b, p.grid.step b ≠ 0 := fun b h0 => hper b (by rw [← hp b, h0, mul_zero])
  choose F hF using fun c => sampled_of_extruded hd p.grid (hasFirst_extruded (ha c))
  obtain ⟨t, h6, j0, h7⟩ := h4 co p m s E0 o hcall hsamp hk hp hs (fun b => (le_max_left _ _).trans (hM b)) tol F hF
  have h8 : ∀ u : State 3 p.grid.shape, rms (getE k0 u - F) < η / 2 → ∀ P : Fin 3 → Point → ℂ, (∀ c, Interpolates p.grid (P c) (getE k0 u c)) → ∀ (v : Point) (D : Solver.Field 3 p.grid.shape),
      (∀ c, DisplacedFrom p.grid v (fun r => P c r - E c r) (D c)) → rms D < η := by
    intro u hu P hP v D hD
    have h9 := C128_between hd hst hcall.describes.nonempty hp ha hF hP hD
    exact h9.trans_lt ((add_lt_add_of_lt_of_le hu (h5 p.grid.shape fun b => (le_max_right _ _).trans (hM b))).trans_eq (add_halves η))
  refine ⟨t, h6, j0, fun i hi => ?_⟩
  rcases h7 i hi with ⟨u, hu, hu'⟩ | ⟨he, j, hj, u, hu, hu'⟩
  · exact ⟨i, le_rfl, u, hu, fun h0 => absurd h0 (lt_irrefl i), h8 u hu'⟩
  · exact ⟨j, hj.le, u, hu, fun _ => he, h8 u hu'⟩

theorem demoEpsilon_loss (r : Point) : 1 ≤ (demoEpsilon r 0 0).im := by
  unfold demoEpsilon
  rw [Matrix.smul_apply, Matrix.one_apply_eq, smul_eq_mul, mul_one, add_im, ofReal_im, I_im, zero_add]

/-- The hypotheses of `C130_called_scalar_limit`, `C130_called_scalar_between` and `C130_called_coupled_between` are met. -/
example := C130_called_scalar_limit (d := 1) (by decide) (fun _ => one_ne_zero) one_pos (demoEpsilon_smooth 0 0) one_pos demoEpsilon_loss two_pos (demoDrive_smooth 1)
example := C130_called_scalar_between (d := 1) (by decide) (fun _ => one_ne_zero) one_pos (demoEpsilon_smooth 0 0) one_pos demoEpsilon_loss two_pos (demoDrive_smooth 1)
example := C130_called_coupled_between (d := 1) (by decide) (fun _ => one_ne_zero) one_pos demoCoupled_smooth.1 demoCoupled_smooth.2.1 demoCoupled_smooth.2.2.1 demoCoupled_smooth.2.2.2 one_pos demoCoupled_absorbs
  demoDrive_smooth

end Verif.Problem
