import Verif.Props.SolverRounding
import Verif.Props.ProblemRate

/-!
# C120: rounding errors do not accumulate, from the arguments of the constructor
-/

namespace Verif.Problem

open Verif Verif.Fourier Verif.Backend Verif.Solver Verif.Construct Complex Matrix
open Verif.Spec.Solver (NoGain Within WaveEquation ScalarWaveEquation rateOf)

variable {d n : ℕ}

section
variable {co : Const} {p : Args d} {m : Medium 3 p.grid.shape} {S : Solver.Field 3 p.grid.shape} (h : Describes co 3 p m S 0)
  (hvec : p.source.isVectorial (List.ofFn p.grid.shape) (p.currentFactor co) = true) (hd : d ≤ 3) (hs : ∀ a, p.grid.step a ≠ 0) (hk0 : 0 < p.frequency.k0 co.c)
  (hxi : ∀ x, m.xi x = 0) (hzeta : ∀ x, m.zeta x = 0) (hgain : NoGain m.epsilon) (hgainM : NoGain m.mu) (o : Optimum) (tol : ℝ) (htol : 0 ≤ tol) (form : ScalarForm d p.mu)
  {r : ℝ} (hr : 0 < r) (hmu : ∀ x, m.mu x = (r : ℂ) • 1) {δ : ℝ} (hδ : 0 < δ)
  (habs : ∀ x (v : Fin 3 → ℂ), δ * ∑ i, ‖v i‖ ^ 2 ≤ (star v ⬝ᵥ (m.epsilon x).mulVec v).im) (hS : S ≠ 0)
include h hvec hs hk0 hxi hzeta hgain hgainM htol form hr hmu hδ habs hS

/-- **C120 (as called).** For all arguments that describe a problem with absorption `δ` at every point and a uniform permeability `r`, without coupling: the constructor succeeds, and whatever the rounding errors of
the iterations are, if they are small compared to the tolerance, `solve` returns the solution of the wave equation within the number of iterations for the bias that is selected, which exceeds the contrast by at
least `0.05 / r`. -/
theorem C120_called {c : ℝ} (hc0 : 0 ≤ c) (hw : Within (fun x => m.epsilon x - ((o.alphaR * r⁻¹ : ℝ) : ℂ) • 1) c) :
    ∃ (s : State 3 p.grid.shape) (E : Solver.Field 3 p.grid.shape) (c' : ℝ), p.start co tol o = .ok ⟨3, s⟩ ∧ WaveEquation (kOf p.grid) (p.frequency.k0 co.c) m.epsilon m.mu S E ∧
      0 ≤ c' ∧ c' ≤ c ∧ c' + 0.05 * r⁻¹ ≤ s.alpha.im * r⁻¹ ∧
      SolvesRounded (.vectorial hd) (backendK p.grid (p.frequency.k0 co.c)) (p.frequency.k0 co.c) s E (s.alpha.im * r⁻¹) c' δ := by
  have hinv : ((m.mu (first h.nonempty))⁻¹ 0 0).re = r⁻¹ := by
    rw [hmu, smul_one_inv (ofReal_ne hr.ne'), Matrix.smul_apply, Matrix.one_apply_eq, smul_eq_mul, mul_one, ← ofReal_inv, ofReal_re]
  have hmu' : m.mu = fun _ => (((m.mu (first h.nonempty))⁻¹ 0 0).re : ℂ)⁻¹ • (1 : Matrix (Fin 3) (Fin 3) ℂ) := by
    funext x
    rw [hmu x, hinv]
    push_cast
    rw [inv_inv]
  have hβ : 0 < ((m.mu (first h.nonempty))⁻¹ 0 0).re := by rw [hinv]; positivity
  have hc := C86_construct h tol o
  rw [not_magnetic h hxi hzeta form (fun x => by rw [hmu, hmu, sub_self, norm_zero]; positivity), if_neg (by decide)] at hc
  have hst := start_vectorial hvec o tol hc
  have hb : (m.constantsNonMagnetic tol (p.frequency.k0 co.c) p.thickness 0 (first h.nonempty) o.alphaR).2 = r⁻¹ := hinv
  have hre : (m.constantsNonMagnetic tol (p.frequency.k0 co.c) p.thickness 0 (first h.nonempty) o.alphaR).1.re = o.alphaR := by
    unfold Medium.constantsNonMagnetic
    simp only [if_neg (not_transposed m htol hgain hxi hzeta hgainM), increaseBias_re]
    simp
  have hb' : m.betaNonMagnetic 0 (first h.nonempty) = r⁻¹ := hinv
  have hrp : 0 < r⁻¹ := by positivity
  have hwi := m.within_sigmaEE o.alphaR (beta := r⁻¹) hrp.ne'
  have hle := m.sigmaEE_le o.alphaR (beta := r⁻¹) hrp.ne' hc0 (by rw [epsilonPrime_eq hxi]; exact hw)
  rw [epsilonPrime_eq hxi, abs_of_pos hrp] at hwi
  rw [abs_of_pos hrp] at hle
  have hn0 := sigmaEE_nonneg m o.alphaR r⁻¹
  have hge : m.sigmaEE o.alphaR r⁻¹ * r⁻¹ + 0.05 * r⁻¹ ≤ (m.constantsNonMagnetic tol (p.frequency.k0 co.c) p.thickness 0 (first h.nonempty) o.alphaR).1.im * r⁻¹ := by
    have := C36_increase (p.frequency.k0 co.c) p.thickness ((o.alphaR : ℂ) + I * (m.sigmaEE o.alphaR r⁻¹ : ℂ))
    rw [← add_mul]
    refine mul_le_mul_of_nonneg_right ?_ hrp.le
    unfold Medium.constantsNonMagnetic
    simp only [if_neg (not_transposed m htol hgain hxi hzeta hgainM), hb']
    simpa using this
  have hlt : m.sigmaEE o.alphaR r⁻¹ * r⁻¹ < (m.constantsNonMagnetic tol (p.frequency.k0 co.c) p.thickness 0 (first h.nonempty) o.alphaR).1.im * r⁻¹ := by
    have : 0 < 0.05 * r⁻¹ := by positivity
    linarith
  obtain ⟨E, hE, hconv⟩ := C120_constructed hs hk0 hd hxi hzeta hgain hgainM htol p.thickness (first h.nonempty) hβ o.alphaR hδ habs (mul_nonneg hn0 hrp.le)
    (by rw [hb, hre]; exact hwi) (by rw [hb]; exact hlt) S
    (fun c x => (0 : Solver.Field 3 p.grid.shape) c x * ((p.frequency.k0 co.c ^ 2 : ℝ) : ℂ))
  rw [← hmu'] at hE
  refine ⟨_, E, _, hst, hE, mul_nonneg hn0 hrp.le, hle, hge, ?_⟩
  rw [show (m.constantsNonMagnetic tol (p.frequency.k0 co.c) p.thickness 0 (first h.nonempty) o.alphaR).1.im *
    (m.constantsNonMagnetic tol (p.frequency.k0 co.c) p.thickness 0 (first h.nonempty) o.alphaR).2 = _ from congrArg _ hb] at hconv
  refine C120_count hk0.ne' ((mul_nonneg hn0 hrp.le).trans_lt hlt) hlt hδ hconv (by rw [unused_vectorial h hvec o tol hst]) (getE_initial hk0.ne' _ _ _ _ _ _) (fun h0 => hS ?_)
  rw [h0] at hE
  exact zero_of_equation hE

end

/-- The hypotheses of `C120_called` are met, and with it those of `C120_constructed`, `C120_contracts` and `C120_count`: a contrast of at most 4, and an absorption of 1, whatever the optimizer returns between 0 and 4. -/
example (co : Const) (o : Optimum) (ho : |o.alphaR * 2⁻¹ - 1| ≤ 1) : ∃ (s : State 3 demoGrid.shape) (E : Solver.Field 3 demoGrid.shape) (c' : ℝ), (quietArgs true).start co 1e-8 o = .ok ⟨3, s⟩ ∧
    WaveEquation (kOf demoGrid) 1 (demoMedium 3).epsilon (demoMedium 3).mu (fun _ _ => 1) E ∧ 0 ≤ c' ∧ c' ≤ 4 ∧ c' + 0.05 * 2⁻¹ ≤ s.alpha.im * 2⁻¹ ∧
    SolvesRounded (.vectorial (show 1 ≤ 3 by decide)) (backendK demoGrid 1) 1 s E (s.alpha.im * 2⁻¹) c' 1 := by
  exact C120_called (quiet_describes true 3 co) rfl (by decide) demo_step one_pos (fun _ => rfl) (fun _ => rfl) (demo_noGain 3).1 (demo_noGain 3).2 o 1e-8
    (by norm_num) ⟨by simp [quietArgs, demoArgs], by simp [quietArgs, demoArgs]⟩ (r := 2) (by norm_num) (fun _ => by push_cast; rfl) one_pos (demo_absorbs_one 3)
    (fun h => one_ne_zero (congrFun (congrFun h 0) fun _ => (0 : Fin 2))) (by norm_num) (demo_contrast ho)

/-- The hypotheses of `C120_scalar` are met. -/
example (S F : Solver.Field 1 demoGrid.shape) : ∃ E : Solver.Field 1 demoGrid.shape,
    ScalarWaveEquation (kOf demoGrid) 1 (demoMedium 1).scalarEpsilon ((1 / 2 : ℝ) : ℂ)⁻¹ (S 0) (E 0) ∧
      Contraction .scalar (backendK demoGrid 1) (prepare (demoMedium 1) false (2 + 10 * I) (1 / 2) S F) (((1 : ℝ) : ℂ) ^ 2 • E) (rateOf (10 * (1 / 2)) 4 1) := by
  have e : ∀ x, (demoMedium 1).scalarEpsilon x = (if (x 0).val = 0 then 1 + I else 2 + I) + (if (x 0).val = 0 then 0 else I) := by
    intro x
    unfold Medium.scalarEpsilon demoMedium
    by_cases h : (x 0).val = 0 <;> simp [h]
  have := C120_scalar (σ := 4) (δ := 1) (alpha := 2 + 10 * I) (beta := 1 / 2) (m := demoMedium 1) (mag := false) demo_step one_ne_zero (first (quiet_describes false 1 ⟨1, 1, 1⟩).nonempty) (by simp) (by norm_num) (fun x => ?_)
    (by norm_num) one_pos (fun x => ?_) S F
  · simpa using this
  · rw [e]
    split_ifs
    · norm_num
    · norm_num
      rw [show (2 + I + I - 1 : ℂ) = 1 + 2 * I by ring]
      refine (norm_add_le _ _).trans ?_
      rw [norm_one, norm_mul, norm_I]
      norm_num
  · rw [e]
    split_ifs <;> simp

end Verif.Problem
