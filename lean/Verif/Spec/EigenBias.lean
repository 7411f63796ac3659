import Mathlib.LinearAlgebra.Matrix.Hermitian
import Mathlib.LinearAlgebra.Matrix.Determinant.Basic
import Mathlib.Analysis.Complex.Basic

/-!
# What is required of a function that calculates eigenvalues (property C135)
-/

namespace Verif.Spec.Solver

/-- For Hermitian matrices: what is calculated is nowhere less than the smallest eigenvalue, all that is calculated is within `δ` of an eigenvalue, and each
eigenvalue is within `δ` of something that is calculated. -/
structure Close {n : ℕ} (δ : ℝ) (ev : Matrix (Fin n) (Fin n) ℂ → List ℂ) : Prop where
  lower : ∀ A : Matrix (Fin n) (Fin n) ℂ, A.IsHermitian → ∀ y ∈ ev A, ∃ x : ℂ, (x • (1 : Matrix (Fin n) (Fin n) ℂ) - A).det = 0 ∧ x.re ≤ y.re
  near : ∀ A : Matrix (Fin n) (Fin n) ℂ, A.IsHermitian → ∀ y ∈ ev A, ∃ x : ℂ, (x • (1 : Matrix (Fin n) (Fin n) ℂ) - A).det = 0 ∧ ‖y - x‖ ≤ δ
  cover : ∀ A : Matrix (Fin n) (Fin n) ℂ, A.IsHermitian → ∀ x : ℂ, (x • (1 : Matrix (Fin n) (Fin n) ℂ) - A).det = 0 → ∃ y ∈ ev A, ‖y - x‖ ≤ δ

end Verif.Spec.Solver
