import Verif.Model.GridOps
import Verif.Model.Fourier
import Mathlib.Analysis.SpecialFunctions.ExpDeriv
import Mathlib.LinearAlgebra.Span.Basic

/-!
# Functions of a position in space, and their derivatives (property C123)

Here the derivatives are those of analysis: limits of differences.
-/

namespace Verif.Spec.Continuous

open Verif.Fourier Complex

variable {d : ℕ}

/-- A position in space. -/
abbrev Point : Type := Fin 3 → ℝ

/-- The partial derivative along an axis. -/
noncomputable def partialDeriv (a : Fin 3) (f : Point → ℂ) (r : Point) : ℂ := deriv (fun t => f (Function.update r a t)) (r a)

/-- The curl of a vector field. -/
noncomputable def curl (F : Fin 3 → Point → ℂ) : Fin 3 → Point → ℂ :=
  ![fun r => partialDeriv 1 (F 2) r - partialDeriv 2 (F 1) r, fun r => partialDeriv 2 (F 0) r - partialDeriv 0 (F 2) r, fun r => partialDeriv 0 (F 1) r - partialDeriv 1 (F 0) r]

/-- The divergence. -/
noncomputable def divergence (F : Fin 3 → Point → ℂ) (r : Point) : ℂ := ∑ a, partialDeriv a (F a) r

/-- The Laplacian. -/
noncomputable def laplacian (f : Point → ℂ) (r : Point) : ℂ := ∑ a, partialDeriv a (partialDeriv a f) r

/-- The plane wave `exp(i κ · r)`. -/
noncomputable def wave (kappa : Point) (r : Point) : ℂ := exp (I * ((∑ c, kappa c * r c : ℝ) : ℂ))

/-- The wavenumbers of the functions with period `N · step` that vary slowly enough for `N` samples: up to half a period per sample. -/
def Harmonic (N : ℕ) (step kappa : ℝ) : Prop := ∃ j : ℤ, -(N : ℤ) ≤ 2 * j ∧ 2 * j < N ∧ kappa = 2 * Real.pi * j / (N * step)

/-- The same for all axes of a grid; there is no variation along the axes that the grid does not have. -/
def Resolved (N : Fin d → ℕ) (step : Fin d → ℝ) (kappa : Point) : Prop :=
  ∀ c : Fin 3, (∀ h : (c : ℕ) < d, Harmonic (N ⟨c, h⟩) (step ⟨c, h⟩) (kappa c)) ∧ (d ≤ (c : ℕ) → kappa c = 0)

/-- The sums of such waves. -/
def BandLimited (N : Fin d → ℕ) (step : Fin d → ℝ) : Submodule ℂ (Point → ℂ) := Submodule.span ℂ (wave '' {kappa | Resolved N step kappa})

/-- The coordinates of the position are those of a sample of the grid. -/
def AtSample (g : Grid.Obj d ℝ) (x : Idx g.shape) (r : Point) : Prop := ∀ (c : Fin 3) (h : (c : ℕ) < d), (g.coords ⟨c, h⟩)[(x ⟨c, h⟩ : ℕ)]? = some (r c)

/-- The function that varies slowly enough, and that has the given values at the samples. -/
def Interpolates (g : Grid.Obj d ℝ) (f : Point → ℂ) (s : Idx g.shape → ℂ) : Prop := f ∈ BandLimited g.shape g.step ∧ ∀ x r, AtSample g x r → f r = s x

end Verif.Spec.Continuous
