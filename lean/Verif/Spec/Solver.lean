import Verif.Model.Fourier
import Verif.Spec.Backend
import Mathlib.LinearAlgebra.CrossProduct
import Mathlib.LinearAlgebra.Matrix.NonsingularInverse

/-!
# The wave equations that the solver should solve (properties C32–C46), in SI units

Derivatives are spectral: `k` are the wavenumbers of the sample points of the grid in Fourier space.
-/

namespace Verif.Spec.Solver

open Verif.Fourier Verif.Spec.Backend Complex

variable {d : ℕ} {N : Fin d → ℕ}

/-- The curl of a vector field is the field with as Fourier transform `i k ×` that of the field. -/
noncomputable def curl (k : Fin d → Idx N → ℝ) (F : Fin 3 → Idx N → ℂ) : Fin 3 → Idx N → ℂ :=
  fun c => ift fun x => I * crossProduct (kVector k x) (fun c' => ft (F c') x) c

/-- Minus the Laplacian. -/
noncomputable def negLaplacian (k : Fin d → Idx N → ℝ) (f : Idx N → ℂ) : Idx N → ℂ := ift fun x => (∑ a, (k a x : ℂ) ^ 2) * ft f x

/-- The divergence. -/
noncomputable def divergence (k : Fin d → Idx N → ℝ) (F : Fin 3 → Idx N → ℂ) : Idx N → ℂ :=
  ift fun x => I * (kVector k x ⬝ᵥ fun c => ft (F c) x)

/-- A tensor at every point, acting on a vector field. -/
noncomputable def act {n : ℕ} (A : Idx N → Matrix (Fin n) (Fin n) ℂ) (F : Fin n → Idx N → ℂ) : Fin n → Idx N → ℂ :=
  fun c x => (A x).mulVec (fun j => F j x) c

/-- `∇ × μ⁻¹ ∇ × E - k₀² ε E = S`. -/
def WaveEquation (k : Fin d → Idx N → ℝ) (k0 : ℝ) (epsilon mu : Idx N → Matrix (Fin 3) (Fin 3) ℂ) (S E : Fin 3 → Idx N → ℂ) : Prop :=
  ∀ c x, curl k (act (fun x => (mu x)⁻¹) (curl k E)) c x - (k0 : ℂ) ^ 2 * act epsilon E c x = S c x

/-- `- μ⁻¹ ∇² E - k₀² ε E = S` for a scalar field and a permeability that does not depend on the position. -/
def ScalarWaveEquation (k : Fin d → Idx N → ℝ) (k0 : ℝ) (epsilon : Idx N → ℂ) (mu : ℂ) (S E : Idx N → ℂ) : Prop :=
  ∀ x, mu⁻¹ * negLaplacian k E x - (k0 : ℂ) ^ 2 * (epsilon x * E x) = S x

/-- At no point does the response do work on the field: the imaginary part of `v* A v` is never negative. -/
def NoGain {n : ℕ} (A : Idx N → Matrix (Fin n) (Fin n) ℂ) : Prop := ∀ x (v : Fin n → ℂ), 0 ≤ (star v ⬝ᵥ (A x).mulVec v).im

/-- At all points the largest singular value of `A` is at most `r`. -/
def Within {n : ℕ} (A : Idx N → Matrix (Fin n) (Fin n) ℂ) (r : ℝ) : Prop :=
  ∀ x (v : Fin n → ℂ), ∑ i, ‖(A x).mulVec v i‖ ^ 2 ≤ r ^ 2 * ∑ i, ‖v i‖ ^ 2

end Verif.Spec.Solver
