import Verif.Model.Solver
import Mathlib.LinearAlgebra.Matrix.Charpoly.Basic
import Mathlib.Algebra.Polynomial.Roots
import Mathlib.Analysis.Complex.Basic

/-!
# Model of the choice of the preconditioner constants, python/macromax/solver.py 313–471

`mat3_eigh` is modelled by what it should return, the roots of the characteristic polynomial of each matrix (properties C26 and C27).  The minimum that
`scipy.optimize.fmin` finds is a parameter: nothing is assumed of it.  Arithmetic is exact.
-/

namespace Verif.Solver

open Verif Verif.Fourier Verif.Backend Complex Matrix

variable {d n : ℕ} {N : Fin d → ℕ}

/-- solver.py 313–314: `largest_eigenvalue`. -/
noncomputable def largestEigenvalue (A : Tensor n N) : ℝ := sSup {r | ∃ x, ∃ z ∈ (A x).charpoly.roots, r = ‖z‖}

/-- solver.py 316–317: `largest_singularvalue`. -/
noncomputable def largestSingularValue (A : Tensor n N) : ℝ := Real.sqrt (largestEigenvalue fun x => (A x)ᴴ * A x)

/-- solver.py 322–329: `has_gain`; `tol` is `max_allowed_gain`. -/
def hasGain (tol : ℝ) (A : Tensor n N) : Prop := ∃ x, ∃ z ∈ ((-I / 2) • (A x - (A x)ᴴ)).charpoly.roots, z.re < -tol

/-- solver.py 331–332: `has_loss`. -/
def hasLoss (tol : ℝ) (A : Tensor n N) : Prop := hasGain tol fun x => - A x

/-- solver.py 334–336: `transpose`. -/
def Medium.transposed (tol : ℝ) (m : Medium n N) : Prop :=
  (hasGain tol m.epsilon ∨ hasGain tol m.xi ∨ hasGain tol m.zeta ∨ hasGain tol m.mu) ∧
    ¬ (hasLoss tol m.epsilon ∨ hasLoss tol m.xi ∨ hasLoss tol m.zeta ∨ hasLoss tol m.mu)

/-- solver.py 360–363: `calc_chiHH_beta2`. -/
noncomputable def Medium.chiHHBeta2 (m : Medium n N) (beta : ℝ) : Tensor n N := fun x =>
  (m.muInv x)ᴴ * m.muInv x + (((|beta| ^ 2 : ℝ) : ℂ) • 1 - ((beta : ℂ) • (m.muInv x)ᴴ + (beta : ℂ) • m.muInv x))

/-- solver.py 365–366: `calc_sigmaHH` for magnetic media. -/
noncomputable def Medium.sigmaHH (m : Medium n N) (beta : ℝ) : ℝ := Real.sqrt (largestEigenvalue (m.chiHHBeta2 beta)) / |beta|

/-- solver.py 392–398: `calc_DeltaEE_beta2`. -/
noncomputable def Medium.deltaEEBeta2 (m : Medium n N) (alphaR beta : ℝ) : Tensor n N := fun x =>
  (((|alphaR * beta| ^ 2 : ℝ) : ℂ) • 1 - (((alphaR * beta : ℝ) : ℂ) • (m.epsilonPrime x)ᴴ + ((alphaR * beta : ℝ) : ℂ) • m.epsilonPrime x)) +
    (m.epsilonPrime x)ᴴ * m.epsilonPrime x

/-- solver.py 400–401: `calc_sigmaEE`. -/
noncomputable def Medium.sigmaEE (m : Medium n N) (alphaR beta : ℝ) : ℝ := Real.sqrt (largestEigenvalue (m.deltaEEBeta2 alphaR beta)) / |beta|

/-- solver.py 407: `sigmaD`. -/
noncomputable def sigmaD (pitch : Fin d → ℝ) (k0 : ℝ) : ℝ := Real.sqrt (∑ a, (2.0 * Real.pi / (2.0 * pitch a)) ^ 2) / k0

/-- solver.py 411–413: `max_singular_value_sum`. -/
noncomputable def Medium.singularValueSum (m : Medium n N) (pitch : Fin d → ℝ) (k0 alphaR beta : ℝ) : ℝ :=
  sigmaD pitch k0 ^ 2 * m.sigmaHH beta +
    sigmaD pitch k0 * (largestSingularValue m.chiEHBeta + largestSingularValue m.chiHEBeta) / |beta| + m.sigmaEE alphaR beta

/-- solver.py 440–443, 471: `beta` and `alpha` for magnetic media, if `fmin` has returned `vec`. -/
noncomputable def Medium.constantsMagnetic (m : Medium n N) (pitch : Fin d → ℝ) (k0 : ℝ) (thickness : List ℝ) (vec : ℝ × ℝ) : ℂ × ℝ :=
  let beta := vec.2 ^ 2
  let alpha := (vec.1 : ℂ) + I * (m.singularValueSum pitch k0 vec.1 beta : ℂ)
  (increaseBias k0 thickness alpha, beta)

open Classical in
/-- solver.py 446–471: `beta` and `alpha` for media that are not magnetic, if `fmin` has returned `alphaR`. -/
noncomputable def Medium.constantsNonMagnetic (m : Medium n N) (tol k0 : ℝ) (thickness : List ℝ) (i0 : Fin n) (x0 : Idx N) (alphaR : ℝ) : ℂ × ℝ :=
  let beta := m.betaNonMagnetic i0 x0
  let alpha := (alphaR : ℂ) + I * (m.sigmaEE alphaR beta : ℂ)
  let alpha := if m.transposed tol then (starRingEnd ℂ) alpha else alpha
  (increaseBias k0 thickness alpha, beta)

end Verif.Solver
