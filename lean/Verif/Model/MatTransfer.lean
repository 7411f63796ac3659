import Verif.Model.MatConvert
import Verif.Model.MatOp

/-!
# Model of the methods `Matrix.inv` and `LiteralScatteringMatrix.transfer` of python/macromax/matrix.py

`np.asarray`, `np.linalg.inv` and `np.linalg.svd` of a matrix object are those of its array (matrix.py 162–193).
-/

namespace Verif.Mat

/-- 162–174: the elements of `np.asarray(self)`. -/
noncomputable def LinOp.elements (M : LinOp ℂ) : Matrix (Fin M.rows) (Fin M.cols) ℂ := .of fun i j => M.asarray.get [i, j]

/-- 218–226: `M.inv(noise_level)`. -/
noncomputable def LinOp.inverse (M : LinOp ℂ) (s : SVD M.rows) (noise : ℝ) : Except PyErr (Matrix (Fin M.cols) (Fin M.rows) ℂ) := invShape s M.elements noise

/-- 271–312: `S.transfer(noise_level)`, for a square matrix; other scattering matrices cannot be constructed (231–247). -/
noncomputable def LinOp.transfer (M : LinOp ℂ) (h : M.cols = M.rows) (s : SVD (M.rows / 2)) (noise : ℝ) : Except PyErr (Matrix (Fin M.rows) (Fin M.rows) ℂ) :=
  convert false s (M.elements.submatrix id (Fin.cast h.symm)) noise

end Verif.Mat
