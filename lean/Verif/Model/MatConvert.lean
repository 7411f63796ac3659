import Verif.Num
import Mathlib.LinearAlgebra.Matrix.NonsingularInverse
import Mathlib.LinearAlgebra.Matrix.Hermitian
import Mathlib.Analysis.Complex.Basic
import Mathlib.Logic.Equiv.Fin.Basic

/-!
# Model of the functions `inv` and `convert` of python/macromax/matrix.py

Arithmetic is exact.  `numpy.linalg.svd` is modelled by an argument: what it has returned, for which the theorems assume what its documentation says, that the product is the matrix
and that the outer factors are unitary.  `numpy.linalg.inv` returns the inverse, or raises LinAlgError, which is a ValueError, if there is none.
-/

namespace Verif.Mat

open Matrix

/-- What `numpy.linalg.svd` returns for a square matrix. -/
structure SVD (n : ℕ) where
  u : Matrix (Fin n) (Fin n) ℂ
  sigma : Fin n → ℝ
  vh : Matrix (Fin n) (Fin n) ℂ

/-- matrix.py 996–1005: `inv` of a square matrix for which `numpy.linalg.svd` returns `s`. -/
noncomputable def inv {n : ℕ} (s : SVD n) (mat : Matrix (Fin n) (Fin n) ℂ) (noise : ℝ) : Except PyErr (Matrix (Fin n) (Fin n) ℂ) := by
  classical
  exact
    if 0 < noise then
      let sigmaInv : Fin n → ℝ := fun j => s.sigma j / (|s.sigma j| ^ 2 + noise ^ 2)
      let scaled : Matrix (Fin n) (Fin n) ℂ := .of fun i j => s.u i j * sigmaInv j
      .ok ((scaled * s.vh)ᵀ.map (starRingEnd ℂ))
    else if IsUnit mat.det then .ok mat⁻¹ else .error .valueError

/-- NumPy's rule for the product of arrays with lengths `a` and `b` along an axis. -/
def broadcasts (a b : ℕ) : Prop := a = b ∨ a = 1 ∨ b = 1

instance (a b : ℕ) : Decidable (broadcasts a b) := by unfold broadcasts; infer_instance

/-- matrix.py 996–1005: `inv` of a matrix that may be rectangular.  `numpy.linalg.svd` returns the arrays `u` of shape (rows, rows), `sigma` of shape (min(rows, columns),) and `vh` of
shape (columns, columns).  The first two must broadcast, and the product must have as many columns as the last has rows.  `numpy.linalg.inv` raises for matrices that are not square. -/
noncomputable def invShape {rows columns : ℕ} (s : SVD rows) (mat : Matrix (Fin rows) (Fin columns) ℂ) (noise : ℝ) :
    Except PyErr (Matrix (Fin columns) (Fin rows) ℂ) := by
  classical
  exact
    if 0 < noise ∧ ¬ (broadcasts rows (min rows columns) ∧ max rows (min rows columns) = columns) then .error .valueError
    else if h : rows = columns then
      (inv s (mat.submatrix id (Fin.cast h)) noise).map fun t => t.submatrix (Fin.cast h.symm) id
    else .error .valueError

/-- An array of shape (2, h, 2, h). -/
abbrev Blocks (h : ℕ) : Type := Fin 2 → Fin h → Fin 2 → Fin h → ℂ

/-- `s[a, :, b]` -/
def block {h : ℕ} (s : Blocks h) (a b : Fin 2) : Matrix (Fin h) (Fin h) ℂ := .of fun i j => s a i b j

/-- 1046: the assignment of values to an array with the data type of `s`: if that is of integers, then NumPy cuts off the decimals. -/
noncomputable def store (integer : Bool) {h : ℕ} (A : Matrix (Fin h) (Fin h) ℂ) : Matrix (Fin h) (Fin h) ℂ :=
  if integer then A.map fun z => ((truncK z.re : ℝ) : ℂ) else A

/-- matrix.py 1046–1050: the body of `convert`; `integer` tells whether the array has an integer data type. -/
noncomputable def convertBlocks {h : ℕ} (integer : Bool) (d : SVD h) (s : Blocks h) (noise : ℝ) : Except PyErr (Blocks h) :=
  match inv d (block s 1 1) noise with
  | .error e => .error e
  | .ok D =>
    let t11 := store integer D
    let t10 := store integer (-t11 * block s 1 0)
    let t01 := store integer (block s 0 1 * t11)
    let t00 := store integer (block s 0 0 + block s 0 1 * t10)
    .ok fun a i b j => match a, b with
      | 0, 0 => t00 i j
      | 0, 1 => t01 i j
      | 1, 0 => t10 i j
      | 1, 1 => t11 i j

/-- matrix.py 1040–1055: `convert` of a matrix of shape (n, n).  `reshape` raises a ValueError for an odd number; otherwise it divides rows and columns in halves and it joins them afterwards. -/
noncomputable def convert {n : ℕ} (integer : Bool) (d : SVD (n / 2)) (s : Matrix (Fin n) (Fin n) ℂ) (noise : ℝ) : Except PyErr (Matrix (Fin n) (Fin n) ℂ) :=
  if h : 2 * (n / 2) = n then
    (convertBlocks integer d (fun a i b j => s ((finProdFinEquiv (a, i)).cast h) ((finProdFinEquiv (b, j)).cast h)) noise).map fun t =>
      .of fun i j =>
        let row := finProdFinEquiv.symm (i.cast h.symm)
        let column := finProdFinEquiv.symm (j.cast h.symm)
        t row.1 row.2 column.1 column.2
  else .error .valueError

end Verif.Mat
