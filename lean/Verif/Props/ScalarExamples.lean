import Verif.Props.SolverDetfield
import Verif.Props.ScatteringAccuracy
import Verif.Props.Refinement
import Verif.Props.SolverRounding

/-!
# Concrete cases of theorems on scalar fields and rounding errors
-/

namespace Verif.Refinement

open Verif Verif.Fourier Verif.Backend Verif.Solver Complex
open Verif.Spec.Continuous Verif.Spec.Refinement
open Verif.Spec.Solver (ScalarWaveEquation)

/-- A scalar field that is the sum of two waves in a material that is not uniform, and its source. -/
noncomputable def demoIndex (r : Point) : ℂ := (2 + Real.sin (2 * Real.pi * r 0) : ℝ) + I
noncomputable def demoScalar : Point → ℂ := demoField 1
noncomputable def demoScalarSource (r : Point) : ℂ := -((2 : ℝ) : ℂ)⁻¹ * laplacian demoScalar r - ((1 : ℝ) : ℂ) ^ 2 * (demoIndex r * demoScalar r)
theorem demoIndex_absorbs (r : Point) : 1 ≤ (demoIndex r).im := by
  unfold demoIndex
  rw [add_im, ofReal_im, I_im, zero_add]

/-- The hypotheses of `C128_scalar_limit` are met, and with them those of `C128_scalar_error`. -/
example {η : ℝ} (hη : 0 < η) := C128_scalar_limit (d := 1) (by decide) one_pos one_pos demoIndex_absorbs two_pos (S := demoScalarSource) (E := demoScalar) (fun _ => rfl)
  (hasSeries_add (hasSeries_single 1 _ _) (hasSeries_single 1 _ _)) hη

/-- The hypotheses of `C128_scalar_unique` are met. -/
example {E' : Point → ℂ} {a' : (Fin 1 → ℤ) → ℂ} (hE' : ScalarWaveEquationInSpace 1 demoIndex (2 : ℝ) demoScalarSource E') (ha' : HasSeries 1 E' a') : demoScalar = E' :=
  C128_scalar_unique (by decide) (fun _ => one_ne_zero) one_pos (fun r r' h => by unfold demoIndex; rw [h 0 (by decide)]) one_pos demoIndex_absorbs two_pos (fun _ => rfl) hE'
    (hasSeries_add (hasSeries_single 1 _ _) (hasSeries_single 1 _ _)) ha'

end Verif.Refinement

namespace Verif.Problem

open Verif Verif.Fourier Verif.Backend Verif.Solver Verif.Construct Complex Matrix

/-- The hypotheses of `C102_called_scalar` are met. -/
example (co : Const) (o : Optimum) : ∃ s, (quietArgs false).start co 1e-8 o = .ok ⟨1, s⟩ := by
  obtain ⟨δ, hδ, habs⟩ := demo_absorbs 1
  have hpos : ∀ x, 0 < ((demoMedium 1).epsilon x 0 0).im := fun x => by
    have := habs x (fun _ => 1)
    simp [dotProduct, Matrix.mulVec] at this
    linarith
  have hmu : ∀ x, (demoMedium 1).mu x 0 0 = 2 := fun x => by
    show ((2 : ℂ) • (1 : Matrix (Fin 1) (Fin 1) ℂ)) 0 0 = 2
    simp
  have h1 : ∀ x, 0 ≤ ((demoMedium 1).mu x 0 0).im := fun x => by rw [hmu]; norm_num
  have h2 : ∀ x y, ‖(demoMedium 1).mu x 0 0 - (demoMedium 1).mu y 0 0‖ ≤ 1e-8 + 1e-5 * ‖(demoMedium 1).mu y 0 0‖ := fun x y => by rw [hmu, hmu]; norm_num
  have h3 : ∀ x, 0 < ((demoMedium 1).mu x 0 0)⁻¹.re := fun x => by rw [hmu]; norm_num
  obtain ⟨s, hs, -⟩ := C102_called_scalar (quiet_describes false 1 co) rfl demo_step one_pos (fun _ => rfl) (fun _ => rfl) (fun x => (hpos x).le) o 1e-8
    h1 (by norm_num) (fun x => h2 x _) (h3 _) (fun E hE => scalar_absorbing demoGrid one_ne_zero _ _ hpos E hE)
  exact ⟨s, hs⟩

end Verif.Problem

namespace Verif.Solver

open Verif Verif.Fourier Verif.Backend Complex Matrix
open Verif.Spec.Solver (WaveEquation rateOf)

/-- The hypotheses of `C120_floor` are met: an anisotropic, magnetic material with a source. -/
example {S : Field 3 demoGrid.shape} (hS : S ≠ 0) : ∃ (E : Field 3 demoGrid.shape) (q : ℝ), q < 1 ∧
    (∃ r : ℕ → Rounding 3 demoGrid.shape, ∀ i, ∃ t, solveRounded (.vectorial (by norm_num)) (backendK demoGrid 1) r 1e-3 ⊤ (prepare demoMedium true (1 + 19 * I) 1 S 0) i = .running () t ∧
      Backend.norm (t.field - E) ≤ q ^ i * Backend.norm E) := by
  obtain ⟨E, hE, hc⟩ := C120_contracts demo_step one_ne_zero (by norm_num) (alpha := 1 + 19 * I) (by simpa using demo_passivity) demo_chosen (fun h => absurd h (by decide)) (by norm_num) one_pos
    (by norm_num) one_pos demo_absorbing S 0
  rw [ofReal_one, one_pow, one_smul] at hc
  have hne : E ≠ 0 := by
    rintro rfl
    refine hS ?_
    rw [← (waveEquation_iff (C31_backend demoGrid demo_step one_ne_zero) (by norm_num) demoMedium (fun _ => rfl) (fun _ => rfl) 1 S 0).1 hE, smul_zero]
    exact (waveOp_isLinear _ _ _ _).map_zero
  obtain ⟨r, -, h⟩ := C120_floor hc rfl rfl hne (rtol := 1e-3) (by norm_num)
  exact ⟨E, _, hc.2.1, r, h⟩

/-- The hypotheses of `C120_returns` and `C120_electric` are met, for errors that are proportional to the solution. -/
example {N : Fin 1 → ℕ} {k : Fin 1 → Idx N → ℝ} {s : State 3 N} {E : Field 3 N} (h : Contraction (.vectorial (by norm_num)) k s (((1 : ℝ) : ℂ) ^ 2 • E) (1 / 2)) (hp : s.prevNorm = ⊤) (hf : s.field = 0)
    (hs : getE 1 s = 0) (hE : E ≠ 0) (hE' : (((1 : ℝ) : ℂ) ^ 2 • E) ≠ 0) {r : ℕ → Rounding 3 N} (hr : ∀ i, (r i).Within (1e-5 * Backend.norm (((1 : ℝ) : ℂ) ^ 2 • E))) :=
  And.intro (C120_returns h hp hf hE' (rtol := 1e-3) (by norm_num) hr (by have := norm_nonneg' E; norm_num; linarith) ⊤ (l := 13) (by norm_num) (i := 14) (by norm_num))
    (C120_electric one_ne_zero h hp hs hE (rtol := 1e-3) (by norm_num) hr (by norm_num) ⊤ (l := 13) (by norm_num) (i := 14) (by norm_num))

end Verif.Solver
