import Mathlib.Analysis.Complex.Norm
import Mathlib.LinearAlgebra.Matrix.Determinant.Basic

/-!
# What the roots of a polynomial and the eigenvalues of a matrix are (properties C26 and C27)
-/

namespace Verif.Spec.Roots

/-- The value of the polynomial with the given coefficients, from low to high order. -/
noncomputable def value (C : List ℂ) (x : ℂ) : ℂ := ∑ i : Fin C.length, C[i] * x ^ (i : ℕ)

/-- The polynomial is its leading coefficient times the product of `x - root`: these are all its roots, with their multiplicity. -/
def AllRoots (C : List ℂ) (roots : List ℂ) : Prop := ∀ x, value C x = C.getLastD 0 * (roots.map fun r => x - r).prod

/-- The numbers are the eigenvalues, with their multiplicity. -/
def Eigenvalues {n : ℕ} (a : Matrix (Fin n) (Fin n) ℂ) (roots : List ℂ) : Prop := ∀ x, (x • (1 : Matrix (Fin n) (Fin n) ℂ) - a).det = (roots.map fun r => x - r).prod

end Verif.Spec.Roots
