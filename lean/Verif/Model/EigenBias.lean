import Verif.Model.Bias
import Verif.Model.Roots

/-!
# Model of the choice of the preconditioner constants with the eigenvalues as they are calculated, python/macromax/solver.py 313–471

`Model.Bias` takes the exact eigenvalues.  Here the eigenvalues are those of a function `ev`, which for the code is `spectrum`: the formula of `mat3_eigh`
(backend/__init__.py 670–723) with the threshold of the data type.  Arithmetic is exact.  A material that is stored as one number instead of as a
3-by-3 matrix has one value instead of three times the same (see `C135_number`).
-/

namespace Verif.Roots

/-- backend/torch.py 179–181: `mat3_eigh` for the back end torch, which returns the real parts for 3-by-3 matrices only. -/
noncomputable def mat3EighTorch (eps : ℝ) (a : MatrixValue) : Except Err (List (Option ℂ)) :=
  if h : a.rows = 3 ∧ a.cols = 3 then
    calcRootsTorch eps (charCoefficients fun i j => a.entry (i.cast h.1.symm) (j.cast h.2.symm))
  else mat3Eigh eps a

end Verif.Roots

namespace Verif.Solver

open Verif Verif.Fourier Verif.Backend Complex Matrix

variable {d n : ℕ} {N : Fin d → ℕ}

/-- backend/__init__.py 670–723: the values of `mat3_eigh` at one point, for the back ends numpy and torch.  That there are no exceptions and no NaN is proved in
`C135_values`. -/
noncomputable def spectrum (eps : ℝ) (torch : Bool) (A : Matrix (Fin n) (Fin n) ℂ) : List ℂ :=
  match (if torch then Roots.mat3EighTorch eps ⟨n, n, A⟩ else Roots.mat3Eigh eps ⟨n, n, A⟩) with
  | .ok X => X.reduceOption
  | .error _ => []

/-- solver.py 313–314: `largest_eigenvalue`. -/
noncomputable def largestWith (ev : Matrix (Fin n) (Fin n) ℂ → List ℂ) (A : Tensor n N) : ℝ := sSup {r | ∃ x, ∃ z ∈ ev (A x), r = ‖z‖}

/-- solver.py 316–317: `largest_singularvalue`. -/
noncomputable def largestSingularWith (ev : Matrix (Fin n) (Fin n) ℂ → List ℂ) (A : Tensor n N) : ℝ := Real.sqrt (largestWith ev fun x => (A x)ᴴ * A x)

/-- solver.py 322–329: `has_gain`; `tol` is `max_allowed_gain`. -/
def gainWith (ev : Matrix (Fin n) (Fin n) ℂ → List ℂ) (tol : ℝ) (A : Tensor n N) : Prop := ∃ x, ∃ z ∈ ev ((-I / 2) • (A x - (A x)ᴴ)), z.re < -tol

/-- solver.py 331–332: `has_loss`. -/
def lossWith (ev : Matrix (Fin n) (Fin n) ℂ → List ℂ) (tol : ℝ) (A : Tensor n N) : Prop := gainWith ev tol fun x => - A x

/-- solver.py 334–336: `transpose`. -/
def Medium.transposedWith (ev : Matrix (Fin n) (Fin n) ℂ → List ℂ) (tol : ℝ) (m : Medium n N) : Prop :=
  (gainWith ev tol m.epsilon ∨ gainWith ev tol m.xi ∨ gainWith ev tol m.zeta ∨ gainWith ev tol m.mu) ∧
    ¬ (lossWith ev tol m.epsilon ∨ lossWith ev tol m.xi ∨ lossWith ev tol m.zeta ∨ lossWith ev tol m.mu)

/-- solver.py 365–366: `calc_sigmaHH` for magnetic media. -/
noncomputable def Medium.sigmaHHWith (ev : Matrix (Fin n) (Fin n) ℂ → List ℂ) (m : Medium n N) (beta : ℝ) : ℝ :=
  Real.sqrt (largestWith ev (m.chiHHBeta2 beta)) / |beta|

/-- solver.py 400–401: `calc_sigmaEE`. -/
noncomputable def Medium.sigmaEEWith (ev : Matrix (Fin n) (Fin n) ℂ → List ℂ) (m : Medium n N) (alphaR beta : ℝ) : ℝ :=
  Real.sqrt (largestWith ev (m.deltaEEBeta2 alphaR beta)) / |beta|

/-- solver.py 411–413: `max_singular_value_sum`. -/
noncomputable def Medium.singularSumWith (ev : Matrix (Fin n) (Fin n) ℂ → List ℂ) (m : Medium n N) (pitch : Fin d → ℝ) (k0 alphaR beta : ℝ) : ℝ :=
  sigmaD pitch k0 ^ 2 * m.sigmaHHWith ev beta +
    sigmaD pitch k0 * (largestSingularWith ev m.chiEHBeta + largestSingularWith ev m.chiHEBeta) / |beta| + m.sigmaEEWith ev alphaR beta

/-- solver.py 440–443, 471: `beta` and `alpha` for magnetic media, if `fmin` has returned `vec`. -/
noncomputable def Medium.magneticWith (ev : Matrix (Fin n) (Fin n) ℂ → List ℂ) (m : Medium n N) (pitch : Fin d → ℝ) (k0 : ℝ) (thickness : List ℝ)
    (vec : ℝ × ℝ) : ℂ × ℝ :=
  let beta := vec.2 ^ 2
  let alpha := (vec.1 : ℂ) + I * (m.singularSumWith ev pitch k0 vec.1 beta : ℂ)
  (increaseBias k0 thickness alpha, beta)

open Classical in
/-- solver.py 446–471: `beta` and `alpha` for media that are not magnetic, if `fmin` has returned `alphaR`. -/
noncomputable def Medium.nonMagneticWith (ev : Matrix (Fin n) (Fin n) ℂ → List ℂ) (m : Medium n N) (tol k0 : ℝ) (thickness : List ℝ) (i0 : Fin n) (x0 : Idx N)
    (alphaR : ℝ) : ℂ × ℝ :=
  let beta := m.betaNonMagnetic i0 x0
  let alpha := (alphaR : ℂ) + I * (m.sigmaEEWith ev alphaR beta : ℂ)
  let alpha := if m.transposedWith ev tol then (starRingEnd ℂ) alpha else alpha
  (increaseBias k0 thickness alpha, beta)

end Verif.Solver
