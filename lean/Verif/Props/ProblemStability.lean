import Verif.Props.SolverStability
import Verif.Props.ProblemRounding
import Verif.Props.ProblemUniform

/-!
# C121: errors in the data, from the arguments of the constructor, and that the bound cannot be improved
-/

namespace Verif.Problem

open Verif Verif.Fourier Verif.Backend Verif.Solver Verif.Construct Complex Matrix
open Verif.Spec.Solver (NoGain Within WaveEquation ScalarWaveEquation rateOf iterationsRounded)
open Verif.Spec.Backend (kVector)

variable {d n : ℕ}

/-- **C121 (the bound is attained).** For every grid, every plane wave on it at right angles to its wavevector, every permeability, absorption `δ` and error `η` there is a uniform material for which the relative error
of the field is exactly `η / δ`. -/
theorem C121_sharp {N : Fin d → ℕ} (k : Fin d → Idx N → ℝ) (hd : d ≤ 3) {k0 : ℝ} (hk0 : 0 < k0) {r : ℝ} (hr : 0 < r) (q : Idx N) (v : Fin 3 → ℂ) (hv : ∑ b, kVector k q b * v b = 0) {δ : ℝ}
    (hδ : 0 < δ) (η : ℝ) : ∃ (epsilon : ℂ) (E E' : Fin 3 → Idx N → ℂ), epsilon.im = δ ∧
      WaveEquation k k0 (fun _ => epsilon • 1) (fun _ => (r : ℂ) • 1) (fun c x => v c * wave q x) E ∧
      WaveEquation k k0 (fun _ => (epsilon + η) • 1) (fun _ => (r : ℂ) • 1) (fun c x => v c * wave q x) E' ∧ δ * Backend.norm (E' - E) = |η| * Backend.norm E' := by
  have hk : (k0 : ℂ) ≠ 0 := ofReal_ne hk0.ne'
  have hrc : (r : ℂ) ≠ 0 := ofReal_ne hr.ne'
  obtain ⟨K, hK⟩ : ∃ K : ℝ, square k q = (K : ℂ) := ⟨k2 k q, square_k2 k q⟩
  set e : ℂ := ((K / (k0 ^ 2 * r) : ℝ) : ℂ) + δ * I with he
  have him : e.im = δ := by rw [he, add_im, ofReal_im, im_ofReal_mul, I_im, zero_add, mul_one]
  have him' : (e + η).im = δ := by rw [add_im, him, ofReal_im, add_zero]
  have hne : ∀ z : ℂ, z.im = δ → z ≠ 0 := fun z hz h0 => by
    rw [h0] at hz
    exact hδ.ne hz
  have h1 := C99_closed_form hd k hk0.ne' (hne e him) hrc (no_resonance k hk0.ne' (by rw [him]; exact hδ.ne') hr.ne') (fun c x => v c * wave q x)
  have h2 := C99_closed_form hd k hk0.ne' (hne _ him') hrc (no_resonance k hk0.ne' (by rw [him']; exact hδ.ne') hr.ne') (fun c x => v c * wave q x)
  refine ⟨e, _, _, him, (h1 _).2 rfl, (h2 _).2 rfl, ?_⟩
  have w1 := (C99_plane_wave k hd k0 e r q v).1 hv
  have w2 := (C99_plane_wave k hd k0 (e + η) r q v).1 hv
  have a1 : square k q - (k0 : ℂ) ^ 2 * e * r = -((k0 : ℂ) ^ 2 * r * (δ * I)) := by
    rw [hK, he]
    push_cast
    field_simp
    ring
  have a2 : square k q - (k0 : ℂ) ^ 2 * (e + η) * r = -((k0 : ℂ) ^ 2 * r * (δ * I + η)) := by
    rw [hK, he]
    push_cast
    field_simp
    ring
  rw [a1] at w1
  rw [a2] at w2
  have hδc : (δ : ℂ) ≠ 0 := ofReal_ne hδ.ne'
  have hδη : (δ : ℂ) * I + η ≠ 0 := fun h0 => hδ.ne' (by simpa using congrArg Complex.im h0)
  have e1 : uniformField k k0 (e + η) r (fun c x => v c * wave q x) - uniformField k k0 e r (fun c x => v c * wave q x) =
      (-(η : ℂ) / (δ * I)) • uniformField k k0 (e + η) r (fun c x => v c * wave q x) := by
    funext c x
    simp only [Pi.sub_apply, Pi.smul_apply, smul_eq_mul]
    rw [w1, w2]
    field_simp
    ring
  rw [e1, norm_smul', norm_div, norm_neg, norm_mul, norm_I, mul_one, norm_real, norm_real, Real.norm_eq_abs, Real.norm_of_nonneg hδ.le, ← mul_assoc, mul_div_cancel₀ _ hδ.ne']

/-- The hypotheses of `C121_sharp` are met: any wave along the axis of a one-dimensional grid, polarized along the second axis. -/
example {N : Fin 1 → ℕ} (k : Fin 1 → Idx N → ℝ) (q : Idx N) : ∃ (epsilon : ℂ) (E E' : Fin 3 → Idx N → ℂ), epsilon.im = 0.1 ∧
    WaveEquation k 1 (fun _ => epsilon • 1) (fun _ => ((2 : ℝ) : ℂ) • 1) (fun c x => (![0, 1, 0] : Fin 3 → ℂ) c * wave q x) E ∧
    WaveEquation k 1 (fun _ => (epsilon + (0.01 : ℝ)) • 1) (fun _ => ((2 : ℝ) : ℂ) • 1) (fun c x => (![0, 1, 0] : Fin 3 → ℂ) c * wave q x) E' ∧
    0.1 * Backend.norm (E' - E) = |0.01| * Backend.norm E' :=
  C121_sharp k (by decide) one_pos (by norm_num) q _ (by simp [kVector]) (by norm_num) _

section
variable {co : Const} {p : Args d} {m : Medium 3 p.grid.shape} {S : Solver.Field 3 p.grid.shape} (h : Describes co 3 p m S 0)
  (hvec : p.source.isVectorial (List.ofFn p.grid.shape) (p.currentFactor co) = true) (hd : d ≤ 3) (hs : ∀ a, p.grid.step a ≠ 0) (hk0 : 0 < p.frequency.k0 co.c)
  (hxi : ∀ x, m.xi x = 0) (hzeta : ∀ x, m.zeta x = 0) (hgain : NoGain m.epsilon) (hgainM : NoGain m.mu) (o : Optimum) (tol : ℝ) (htol : 0 ≤ tol) (form : ScalarForm d p.mu)
  {r : ℝ} (hr : 0 < r) (hmu : ∀ x, m.mu x = (r : ℂ) • 1) {δ : ℝ} (hδ : 0 < δ)
  (habs : ∀ x (v : Fin 3 → ℂ), δ * ∑ i, ‖v i‖ ^ 2 ≤ (star v ⬝ᵥ (m.epsilon x).mulVec v).im) (hS : S ≠ 0)
include h hvec hs hk0 hxi hzeta hgain hgainM htol form hr hmu hδ habs hS

/-- **C121 (as called).** The material and the source of the arguments are those of another problem up to errors `η` in the permittivity and `θ`, relative, in the source.  Whatever these errors and the rounding errors of the
iterations are, `solve` returns, and its result differs from the solution of the other problem by at most the error for exact data, plus `(η + θ) / δ` as for the data. -/
theorem C121_called {c : ℝ} (hc0 : 0 ≤ c) (hw : Within (fun x => m.epsilon x - ((o.alphaR * r⁻¹ : ℝ) : ℂ) • 1) c) :
    ∃ (s : State 3 p.grid.shape) (E : Solver.Field 3 p.grid.shape) (c' : ℝ), p.start co tol o = .ok ⟨3, s⟩ ∧ 0 ≤ c' ∧ c' ≤ c ∧ c' + 0.05 * r⁻¹ ≤ s.alpha.im * r⁻¹ ∧
      ∀ (epsilon : Tensor 3 p.grid.shape) (T G : Solver.Field 3 p.grid.shape) (η θ : ℝ), 0 ≤ η → Within (fun x => epsilon x - m.epsilon x) η →
        Backend.norm (T - S) ≤ p.frequency.k0 co.c ^ 2 * (θ * Backend.norm G) → WaveEquation (kOf p.grid) (p.frequency.k0 co.c) epsilon m.mu T G →
        ∀ rtol : ℝ, 0 < rtol → ∀ (maxiter : WithTop ℝ) (u : ℝ) (ro : ℕ → Rounding 3 p.grid.shape), (∀ i, (ro i).Within (u * (p.frequency.k0 co.c ^ 2 * Backend.norm E))) →
        18 * u * (1 - rateOf (s.alpha.im * r⁻¹) c' δ + rtol) ≤ rtol * (1 - rateOf (s.alpha.im * r⁻¹) c' δ) ^ 2 → ∀ i : ℕ, iterationsRounded (s.alpha.im * r⁻¹) c' δ rtol ≤ i →
        ∃ t, solveRounded (.vectorial hd) (backendK p.grid (p.frequency.k0 co.c)) ro rtol maxiter s i = .done () t ∧
          (maxiter ≤ ((t.iteration : ℝ) : WithTop ℝ) ∨ Backend.norm (getE (p.frequency.k0 co.c) t - G) ≤
            (rateOf (s.alpha.im * r⁻¹) c' δ * rtol * (Backend.norm (getE (p.frequency.k0 co.c) t) + u * Backend.norm E) + 2 * u * Backend.norm E) / (1 - rateOf (s.alpha.im * r⁻¹) c' δ) +
              (η + θ) / δ * Backend.norm G) := by
  obtain ⟨s, E, c', h1, h2, h3, h4, h5, h6⟩ := C120_called h hvec hd hs hk0 hxi hzeta hgain hgainM o tol htol form hr hmu hδ habs hS hc0 hw
  refine ⟨s, E, c', h1, h3, h4, h5, fun epsilon T G η θ hη he hT hG rtol hrt maxiter u ro hro hu i hi => ?_⟩
  obtain ⟨t, ht, hor⟩ := h6 rtol hrt maxiter u ro hro hu i hi
  refine ⟨t, ht, hor.imp id fun hb => ?_⟩
  have hinv : ∀ x, IsUnit (m.mu x).det := fun x => by
    rw [hmu, Matrix.det_smul, Matrix.det_one, mul_one]
    exact (pow_ne_zero _ (ofReal_ne hr.ne')).isUnit
  have hm := C121_material hs hk0 hd habs hgainM hinv hη le_rfl he (mu' := m.mu) (fun x v => by simp) h2 hG
  rw [zero_mul, add_zero] at hm
  have hk : 0 < p.frequency.k0 co.c ^ 2 := by positivity
  have h7 : δ * Backend.norm (G - E) ≤ (η + θ) * Backend.norm G := by
    refine le_of_mul_le_mul_left ?_ hk
    nlinarith
  have h8 : Backend.norm (G - E) ≤ (η + θ) / δ * Backend.norm G := by
    rw [div_mul_eq_mul_div, le_div_iff₀ hδ, mul_comm]
    exact h7
  have h9 := norm_sub_le' (getE (p.frequency.k0 co.c) t - E) (G - E)
  rw [sub_sub_sub_cancel_right] at h9
  exact h9.trans (add_le_add hb h8)

end

/-- The hypotheses of `C121_called` are met. -/
example (co : Const) (o : Optimum) (ho : |o.alphaR * 2⁻¹ - 1| ≤ 1) := C121_called (quiet_describes true 3 co) rfl (by decide) demo_step one_pos (fun _ => rfl) (fun _ => rfl)
  (demo_noGain 3).1 (demo_noGain 3).2 o 1e-8 (by norm_num) ⟨by simp [quietArgs, demoArgs], by simp [quietArgs, demoArgs]⟩ (r := 2) (by norm_num) (fun _ => by push_cast; rfl) one_pos
  (demo_absorbs_one 3) (fun h => one_ne_zero (congrFun (congrFun h 0) fun _ => (0 : Fin 2))) (by norm_num) (demo_contrast ho)

theorem demo_permeability : ∀ x, IsUnit ((demoMedium 3).mu x).det := fun x => by
  change IsUnit ((2 : ℂ) • (1 : Matrix (Fin 3) (Fin 3) ℂ)).det
  rw [Matrix.det_smul, Matrix.det_one, mul_one]
  exact (pow_ne_zero _ two_ne_zero).isUnit

/-- The hypotheses of `C121_permittivity` are met, and with it those of `C121_material` and `C121_defect`: an error of `10⁻³` in the real part of the permittivity, and an absorption of 1. -/
example {S E E' : Solver.Field 3 demoGrid.shape} (hE : WaveEquation (kOf demoGrid) 1 (demoMedium 3).epsilon (demoMedium 3).mu S E)
    (hE' : WaveEquation (kOf demoGrid) 1 (fun x => (demoMedium 3).epsilon x + (1e-3 : ℂ) • 1) (demoMedium 3).mu S E') : 1 * Backend.norm (E' - E) ≤ 1e-3 * Backend.norm E' :=
  C121_permittivity demo_step one_pos (by decide) (demo_absorbs_one 3) (demo_noGain 3).2 demo_permeability (by norm_num) (by
    simp only [add_sub_cancel_left]
    exact within_smul_one fun _ => by norm_num) hE hE'

/-- The hypothesis of `C121_well_posed` is met. -/
example (E : Solver.Field 3 demoGrid.shape) (hE : WaveEquation (kOf demoGrid) 1 (demoMedium 3).epsilon (demoMedium 3).mu 0 E) : E = 0 :=
  absorbing_unique demo_permeability (demo_noGain 3).2 one_ne_zero one_pos (demo_absorbs_one 3) E hE

/-- The hypotheses of `C121_scalar` are met. -/
example {S S' E E' : Idx demoGrid.shape → ℂ} (hE : ScalarWaveEquation (kOf demoGrid) 1 (fun _ => 2 + I) ((1 : ℝ) : ℂ) S E)
    (hE' : ScalarWaveEquation (kOf demoGrid) 1 (fun x => 2 + I + if (x 0).val = 0 then 0.1 else 0) ((1 : ℝ) : ℂ) S' E') :
    1 ^ 2 * 1 * Backend.norm (fun _ : Fin 1 => E' - E) ≤ Backend.norm (fun _ : Fin 1 => S' - S) + 1 ^ 2 * 0.1 * Backend.norm (fun _ : Fin 1 => E') :=
  C121_scalar one_pos (fun _ => by simp) (by norm_num) (fun x => by
    rw [add_sub_cancel_left]
    split_ifs <;> norm_num) hE hE'

end Verif.Problem
