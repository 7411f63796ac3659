import Verif.Model.Assign
import Verif.Model.Bias
import Verif.Model.MatrixField
import Verif.Model.WorkArrays

/-!
# Model of python/macromax/backend/torch.py: what differs from the back end for NumPy

`none` is the RuntimeError of PyTorch.  `ldivide` (torch.py 251–291) converts to NumPy and repeats the code of numpy.py 135–170, `adjoint`, `ft` and `ift` only call other
libraries for the same operations, and all other methods are inherited.
-/

namespace Verif.Torch

open Verif Verif.MatrixField Verif.Solver Verif.Fourier Complex

/-- `left @ right`, for real matrices: there is no broadcasting of the axes of the matrices. -/
def matmul {X : Type} (len : ℕ) (left right : ℕ → ℕ → X → ℝ) : ℕ → ℕ → X → ℝ := fun i k x => ∑ j ∈ Finset.range len, left i j x * right j k x

/-- torch.py 220–249: `mul` without the argument `out`. -/
noncomputable def mul {X : Type} (left right : MF X) : Option (MF X) :=
  if left.isScalar || right.isScalar then (elementwise (· * ·) left right).toOption
  else if left.cols = right.rows then
    let re (a : MF X) : ℕ → ℕ → X → ℝ := fun i j x => (a.val i j x).re
    let im (a : MF X) : ℕ → ℕ → X → ℝ := fun i j x => (a.val i j x).im
    some { rows := left.rows, cols := right.cols
           val := fun i k x =>
            ((matmul left.cols (re left) (re right) i k x - matmul left.cols (im left) (im right) i k x : ℝ) : ℂ) +
              I * (matmul left.cols (re left) (im right) i k x : ℝ) + I * (matmul left.cols (im left) (re right) i k x : ℝ) }
  else none

/-- torch.py 220–249: `mul` with the argument `out`: the returned array, and the value that `out` has afterwards. -/
noncomputable def mulOut {X : Type} (left right out : MF X) : Option (MF X × MF X) :=
  if left.isScalar || right.isScalar then
    match elementwise (· * ·) out left with
    | .ok r => if r.rows = out.rows ∧ r.cols = out.cols then some (r, r) else none
    | .error _ => none
  else (mul left right).map fun r => (r, out)

/-- torch.py 104–109: `assign`, to an array with the shape `out`.  The copies are counted from the shape of `out`. -/
def assign {d : ℕ} {α : Type*} (N : Fin d → ℕ) (a : Assign.Arr α) (out : Fin (d + 2) → ℕ) : Option ((Fin (d + 2) → ℕ) → α) :=
  let f := Assign.toMatrixField d a
  let f := if ∃ b : Fin d, f.shape b.succ.succ ≠ N b then Assign.tile f fun b => out b / f.shape b else f
  (Assign.assignExact f out).toOption

variable {d n m : ℕ} {N : Fin d → ℕ}

/-- torch.py 315–316: `norm`. -/
noncomputable def norm (F : Fin m → Idx N → ℂ) : ℝ := Real.sqrt (∑ c, ∑ x, ((F c x).re ^ 2 + (F c x).im ^ 2))

/-- torch.py 179–181, solver.py 313–314: `largest_eigenvalue`, of the real parts only. -/
noncomputable def largestEigenvalue (A : Tensor n N) : ℝ := sSup {r | ∃ x, ∃ z ∈ (A x).charpoly.roots, r = |z.re|}

/-- The back end: no FFTW, and the argument `out` is only used if the left factor is an array of scalars. -/
def env (scalar : Tensor n N → Bool) : WorkArrays.Env n N := ⟨false, fun _ => false, fun _ F => F, scalar⟩

end Verif.Torch
