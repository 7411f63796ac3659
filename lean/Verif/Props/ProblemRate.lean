import Verif.Props.SolverRate
import Verif.Props.ProblemStop

/-!
# C117: how many iterations are needed, from the arguments of the constructor
-/

namespace Verif.Problem

open Verif Verif.Fourier Verif.Backend Verif.Solver Verif.Construct Complex Matrix
open Verif.Spec.Solver (NoGain Within WaveEquation ScalarWaveEquation rateOf iterationsOf)

variable {d n : ℕ}

/-- `solve` returns within a number of iterations that is given by the contrast, the absorption and the tolerance, and its error is at most `q / (1 - q)` times the tolerance
unless it stops at the limit. -/
def SolvesWithin {N : Fin d → ℕ} (kind : Kind d n) (k : Fin d → Idx N → ℝ) (k0 : ℝ) (s : State n N) (E : Solver.Field n N) (A σ δ : ℝ) : Prop :=
  ∀ rtol : ℝ, 0 < rtol → ∀ (maxiter : WithTop ℝ) (i : ℕ), iterationsOf A σ δ rtol ≤ i → ∃ t, solve kind k .none rtol maxiter s i = .done () t ∧
    (maxiter ≤ ((t.iteration : ℝ) : WithTop ℝ) ∨ Backend.norm (getE k0 t - E) ≤ rateOf A σ δ / (1 - rateOf A σ δ) * rtol * Backend.norm (getE k0 t))

section
variable {co : Const} {p : Args d} {m : Medium 3 p.grid.shape} {S : Solver.Field 3 p.grid.shape} (h : Describes co 3 p m S 0)
  (hvec : p.source.isVectorial (List.ofFn p.grid.shape) (p.currentFactor co) = true) (hd : d ≤ 3) (hs : ∀ a, p.grid.step a ≠ 0) (hk0 : 0 < p.frequency.k0 co.c)
  (hxi : ∀ x, m.xi x = 0) (hzeta : ∀ x, m.zeta x = 0) (hgain : NoGain m.epsilon) (hgainM : NoGain m.mu) (o : Optimum) (tol : ℝ) (htol : 0 ≤ tol) (form : ScalarForm d p.mu)
  {r : ℝ} (hr : 0 < r) (hmu : ∀ x, m.mu x = (r : ℂ) • 1) {δ : ℝ} (hδ : 0 < δ)
  (habs : ∀ x (v : Fin 3 → ℂ), δ * ∑ i, ‖v i‖ ^ 2 ≤ (star v ⬝ᵥ (m.epsilon x).mulVec v).im) (hS : S ≠ 0)
include h hvec hs hk0 hxi hzeta hgain hgainM htol form hr hmu hδ habs hS

/-- **C117 (as called).** For all arguments that describe a problem with absorption `δ` at every point and a uniform permeability `r`, without coupling and without absorbing layers: the constructor succeeds, and
`solve` returns the solution of the wave equation within the number of iterations for a bias that exceeds the contrast `c` by `0.05 / r`.  The number is the same for all grids and sources. -/
theorem C117_called (hthick : p.thickness = []) {c : ℝ} (hc0 : 0 ≤ c) (hw : Within (fun x => m.epsilon x - ((o.alphaR * r⁻¹ : ℝ) : ℂ) • 1) c) :
    ∃ s E, p.start co tol o = .ok ⟨3, s⟩ ∧ WaveEquation (kOf p.grid) (p.frequency.k0 co.c) m.epsilon m.mu S E ∧
      SolvesWithin (.vectorial hd) (backendK p.grid (p.frequency.k0 co.c)) (p.frequency.k0 co.c) s E (c + 0.05 * r⁻¹) c δ := by
  have hinv : ((m.mu (first h.nonempty))⁻¹ 0 0).re = r⁻¹ := by
    rw [hmu, smul_one_inv (ofReal_ne hr.ne'), Matrix.smul_apply, Matrix.one_apply_eq, smul_eq_mul, mul_one, ← ofReal_inv, ofReal_re]
  have hmu' : m.mu = fun _ => (((m.mu (first h.nonempty))⁻¹ 0 0).re : ℂ)⁻¹ • (1 : Matrix (Fin 3) (Fin 3) ℂ) := by
    funext x
    rw [hmu x, hinv]
    push_cast
    rw [inv_inv]
  have hβ : 0 < ((m.mu (first h.nonempty))⁻¹ 0 0).re := by rw [hinv]; positivity
  have hc := C86_construct h tol o
  rw [not_magnetic h hxi hzeta form (fun x => by rw [hmu, hmu, sub_self, norm_zero]; positivity), if_neg (by decide), hthick] at hc
  obtain ⟨E, hE, hconv⟩ := C117_open hs hk0 hd hxi hzeta hgain hgainM htol (first h.nonempty) hβ o.alphaR hδ habs hc0 (by rw [hinv]; exact hw) S
    (fun c x => (0 : Solver.Field 3 p.grid.shape) c x * ((p.frequency.k0 co.c ^ 2 : ℝ) : ℂ))
  rw [hinv] at hconv
  rw [← hmu'] at hE
  have hst := start_vectorial hvec o tol hc
  have h5 : 0 < 0.05 * r⁻¹ := by positivity
  refine ⟨_, E, hst, hE, fun rtol hr maxiter i hi => ?_⟩
  refine C117_count hk0.ne' (by linarith) (by linarith) hδ hconv (by rw [unused_vectorial h hvec o tol hst]; exact WithTop.coe_lt_top _) (getE_initial hk0.ne' _ _ _ _ _ _) (fun h0 => hS ?_) hr
    maxiter hi
  rw [h0] at hE
  exact zero_of_equation hE

/-- **C117 (as called, with absorbing layers).** The same with absorbing layers, for the bias that is then selected, which exceeds the smallest bound on the contrast by at least `0.05 / r`. -/
theorem C117_called_layers {c : ℝ} (hc0 : 0 ≤ c) (hw : Within (fun x => m.epsilon x - ((o.alphaR * r⁻¹ : ℝ) : ℂ) • 1) c) :
    ∃ (s : State 3 p.grid.shape) (E : Solver.Field 3 p.grid.shape) (c' : ℝ), p.start co tol o = .ok ⟨3, s⟩ ∧ WaveEquation (kOf p.grid) (p.frequency.k0 co.c) m.epsilon m.mu S E ∧
      0 ≤ c' ∧ c' ≤ c ∧ c' + 0.05 * r⁻¹ ≤ s.alpha.im * r⁻¹ ∧
      SolvesWithin (.vectorial hd) (backendK p.grid (p.frequency.k0 co.c)) (p.frequency.k0 co.c) s E (s.alpha.im * r⁻¹) c' δ := by
  have hinv : ((m.mu (first h.nonempty))⁻¹ 0 0).re = r⁻¹ := by
    rw [hmu, smul_one_inv (ofReal_ne hr.ne'), Matrix.smul_apply, Matrix.one_apply_eq, smul_eq_mul, mul_one, ← ofReal_inv, ofReal_re]
  have hmu' : m.mu = fun _ => (((m.mu (first h.nonempty))⁻¹ 0 0).re : ℂ)⁻¹ • (1 : Matrix (Fin 3) (Fin 3) ℂ) := by
    funext x
    rw [hmu x, hinv]
    push_cast
    rw [inv_inv]
  have hβ : 0 < ((m.mu (first h.nonempty))⁻¹ 0 0).re := by rw [hinv]; positivity
  have hc := C86_construct h tol o
  rw [not_magnetic h hxi hzeta form (fun x => by rw [hmu, hmu, sub_self, norm_zero]; positivity), if_neg (by decide)] at hc
  have hst := start_vectorial hvec o tol hc
  have hb : (m.constantsNonMagnetic tol (p.frequency.k0 co.c) p.thickness 0 (first h.nonempty) o.alphaR).2 = r⁻¹ := hinv
  have hre : (m.constantsNonMagnetic tol (p.frequency.k0 co.c) p.thickness 0 (first h.nonempty) o.alphaR).1.re = o.alphaR := by
    unfold Medium.constantsNonMagnetic
    simp only [if_neg (not_transposed m htol hgain hxi hzeta hgainM), increaseBias_re]
    simp
  have hb' : m.betaNonMagnetic 0 (first h.nonempty) = r⁻¹ := hinv
  have hrp : 0 < r⁻¹ := by positivity
  have hwi := m.within_sigmaEE o.alphaR (beta := r⁻¹) hrp.ne'
  have hle := m.sigmaEE_le o.alphaR (beta := r⁻¹) hrp.ne' hc0 (by rw [epsilonPrime_eq hxi]; exact hw)
  rw [epsilonPrime_eq hxi, abs_of_pos hrp] at hwi
  rw [abs_of_pos hrp] at hle
  have hn0 := sigmaEE_nonneg m o.alphaR r⁻¹
  have hge : m.sigmaEE o.alphaR r⁻¹ * r⁻¹ + 0.05 * r⁻¹ ≤ (m.constantsNonMagnetic tol (p.frequency.k0 co.c) p.thickness 0 (first h.nonempty) o.alphaR).1.im * r⁻¹ := by
    have := C36_increase (p.frequency.k0 co.c) p.thickness ((o.alphaR : ℂ) + I * (m.sigmaEE o.alphaR r⁻¹ : ℂ))
    rw [← add_mul]
    refine mul_le_mul_of_nonneg_right ?_ hrp.le
    unfold Medium.constantsNonMagnetic
    simp only [if_neg (not_transposed m htol hgain hxi hzeta hgainM), hb']
    simpa using this
  have hlt : m.sigmaEE o.alphaR r⁻¹ * r⁻¹ < (m.constantsNonMagnetic tol (p.frequency.k0 co.c) p.thickness 0 (first h.nonempty) o.alphaR).1.im * r⁻¹ := by
    have : 0 < 0.05 * r⁻¹ := by positivity
    linarith
  obtain ⟨E, hE, hconv⟩ := C117_constructed hs hk0 hd hxi hzeta hgain hgainM htol p.thickness (first h.nonempty) hβ o.alphaR hδ habs (mul_nonneg hn0 hrp.le)
    (by rw [hb, hre]; exact hwi) (by rw [hb]; exact hlt) S
    (fun c x => (0 : Solver.Field 3 p.grid.shape) c x * ((p.frequency.k0 co.c ^ 2 : ℝ) : ℂ))
  rw [← hmu'] at hE
  refine ⟨_, E, _, hst, hE, mul_nonneg hn0 hrp.le, hle, hge, fun rtol hr maxiter i hi => ?_⟩
  rw [show (m.constantsNonMagnetic tol (p.frequency.k0 co.c) p.thickness 0 (first h.nonempty) o.alphaR).1.im *
    (m.constantsNonMagnetic tol (p.frequency.k0 co.c) p.thickness 0 (first h.nonempty) o.alphaR).2 = _ from congrArg _ hb] at hconv
  refine C117_count hk0.ne' ((mul_nonneg hn0 hrp.le).trans_lt hlt) hlt hδ hconv (by rw [unused_vectorial h hvec o tol hst]; exact WithTop.coe_lt_top _)
    (getE_initial hk0.ne' _ _ _ _ _ _) (fun h0 => hS ?_) hr maxiter hi
  rw [h0] at hE
  exact zero_of_equation hE

end

/-- The contrast of the problem of `demoArgs` is at most 4 if the optimizer returns a number between 0 and 4. -/
theorem demo_contrast {a : ℝ} (ha : |a * 2⁻¹ - 1| ≤ 1) : Within (fun x => (demoMedium 3).epsilon x - ((a * 2⁻¹ : ℝ) : ℂ) • 1) 4 := by
  intro x v
  change ∑ i, ‖((((if (x 0).val = 0 then 1 + I else 2 + I : ℂ) • (1 : Matrix (Fin 3) (Fin 3) ℂ) + (if (x 0).val = 0 then 0 else I : ℂ) • 1) - ((a * 2⁻¹ : ℝ) : ℂ) • 1).mulVec v) i‖ ^ 2 ≤ _
  rw [← add_smul, ← sub_smul, Matrix.smul_mulVec, Matrix.one_mulVec, Finset.mul_sum]
  refine Finset.sum_le_sum fun i _ => ?_
  rw [Pi.smul_apply, smul_eq_mul, norm_mul, mul_pow]
  refine mul_le_mul_of_nonneg_right (pow_le_pow_left₀ (norm_nonneg _) ?_ 2) (sq_nonneg _)
  have h1 : ‖(((a * 2⁻¹ - 1 : ℝ) : ℂ))‖ ≤ 1 := by rw [norm_real]; exact ha
  split_ifs
  · calc ‖(1 + I + 0 - ((a * 2⁻¹ : ℝ) : ℂ))‖ = ‖I - ((a * 2⁻¹ - 1 : ℝ) : ℂ)‖ := by congr 1; push_cast; ring
      _ ≤ ‖I‖ + ‖((a * 2⁻¹ - 1 : ℝ) : ℂ)‖ := norm_sub_le _ _
      _ ≤ 4 := by rw [norm_I]; linarith
  · calc ‖(2 + I + I - ((a * 2⁻¹ : ℝ) : ℂ))‖ = ‖(1 + 2 * I) - ((a * 2⁻¹ - 1 : ℝ) : ℂ)‖ := by congr 1; push_cast; ring
      _ ≤ ‖(1 + 2 * I : ℂ)‖ + ‖((a * 2⁻¹ - 1 : ℝ) : ℂ)‖ := norm_sub_le _ _
      _ ≤ (‖(1 : ℂ)‖ + ‖(2 * I : ℂ)‖) + 1 := add_le_add (norm_add_le _ _) h1
      _ ≤ 4 := by rw [norm_one, norm_mul, norm_I]; norm_num

/-- The hypotheses of `C117_called_layers` are met, and with it those of `C117_constructed`, `C117_rate` and `C117_count`: a contrast of at most 4, and an absorption of 1, whatever the optimizer returns between 0 and 4. -/
example (co : Const) (o : Optimum) (ho : |o.alphaR * 2⁻¹ - 1| ≤ 1) : ∃ (s : State 3 demoGrid.shape) (E : Solver.Field 3 demoGrid.shape) (c' : ℝ), (quietArgs true).start co 1e-8 o = .ok ⟨3, s⟩ ∧
    WaveEquation (kOf demoGrid) 1 (demoMedium 3).epsilon (demoMedium 3).mu (fun _ _ => 1) E ∧ 0 ≤ c' ∧ c' ≤ 4 ∧ c' + 0.05 * 2⁻¹ ≤ s.alpha.im * 2⁻¹ ∧
    SolvesWithin (.vectorial (show 1 ≤ 3 by decide)) (backendK demoGrid 1) 1 s E (s.alpha.im * 2⁻¹) c' 1 := by
  exact C117_called_layers (quiet_describes true 3 co) rfl (by decide) demo_step one_pos (fun _ => rfl) (fun _ => rfl) (demo_noGain 3).1 (demo_noGain 3).2 o 1e-8
    (by norm_num) ⟨by simp [quietArgs, demoArgs], by simp [quietArgs, demoArgs]⟩ (r := 2) (by norm_num) (fun _ => by push_cast; rfl) one_pos (demo_absorbs_one 3)
    (fun h => one_ne_zero (congrFun (congrFun h 0) fun _ => (0 : Fin 2))) (by norm_num) (demo_contrast ho)

/-- The hypotheses of `C117_called` are met, and with it those of `C117_open`: the same problem without layers. -/
example (co : Const) (o : Optimum) (ho : |o.alphaR * 2⁻¹ - 1| ≤ 1) : ∃ (s : State 3 demoGrid.shape) (E : Solver.Field 3 demoGrid.shape),
    ({ quietArgs true with thickness := [] } : Args 1).start co 1e-8 o = .ok ⟨3, s⟩ ∧
    WaveEquation (kOf demoGrid) 1 (demoMedium 3).epsilon (demoMedium 3).mu (fun _ _ => 1) E ∧
    SolvesWithin (.vectorial (show 1 ≤ 3 by decide)) (backendK demoGrid 1) 1 s E (4 + 0.05 * 2⁻¹) 4 1 :=
  C117_called (p := { quietArgs true with thickness := [] }) { quiet_describes true 3 co with } rfl (by decide) demo_step one_pos (fun _ => rfl) (fun _ => rfl)
    (demo_noGain 3).1 (demo_noGain 3).2 o 1e-8 (by norm_num) ⟨by simp [quietArgs, demoArgs], by simp [quietArgs, demoArgs]⟩ (r := 2) (by norm_num)
    (fun _ => by push_cast; rfl) one_pos (demo_absorbs_one 3) (fun h => one_ne_zero (congrFun (congrFun h 0) fun _ => (0 : Fin 2))) rfl (by norm_num) (demo_contrast ho)

/-- The hypotheses of `C117_scalar` are met. -/
example (S F : Solver.Field 1 demoGrid.shape) : ∃ E : Solver.Field 1 demoGrid.shape,
    ScalarWaveEquation (kOf demoGrid) 1 (demoMedium 1).scalarEpsilon ((1 / 2 : ℝ) : ℂ)⁻¹ (S 0) (E 0) ∧
      ConvergesAtRate .scalar (backendK demoGrid 1) 1 (prepare (demoMedium 1) false (2 + 10 * I) (1 / 2) S F) E (rateOf (10 * (1 / 2)) 4 1) := by
  have e : ∀ x, (demoMedium 1).scalarEpsilon x = (if (x 0).val = 0 then 1 + I else 2 + I) + (if (x 0).val = 0 then 0 else I) := by
    intro x
    unfold Medium.scalarEpsilon demoMedium
    by_cases h : (x 0).val = 0 <;> simp [h]
  have := C117_scalar (σ := 4) (δ := 1) (alpha := 2 + 10 * I) (beta := 1 / 2) (m := demoMedium 1) (mag := false) demo_step one_ne_zero (first (quiet_describes false 1 ⟨1, 1, 1⟩).nonempty) (by simp) (by norm_num) (fun x => ?_)
    (by norm_num) one_pos (fun x => ?_) S F
  · simpa using this
  · rw [e]
    split_ifs
    · norm_num
    · norm_num
      rw [show (2 + I + I - 1 : ℂ) = 1 + 2 * I by ring]
      refine (norm_add_le _ _).trans ?_
      rw [norm_one, norm_mul, norm_I]
      norm_num
  · rw [e]
    split_ifs <;> simp

end Verif.Problem
