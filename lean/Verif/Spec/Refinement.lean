import Verif.Spec.Continuous
import Mathlib.LinearAlgebra.Matrix.ConjTranspose
import Mathlib.Topology.Algebra.InfiniteSum.Basic
import Mathlib.Analysis.Normed.Group.InfiniteSum

/-!
# The wave equation in continuous space, and the functions that samples cannot resolve (property C128)

Here nothing is limited by the samples: materials, sources and fields are functions of the position.
-/

namespace Verif.Spec.Refinement

open Verif.Spec.Continuous Verif.Fourier Complex Matrix

variable {d : ℕ}

/-- The wavevectors of the functions with the given periods; there is no variation along the axes that have no period. -/
noncomputable def harmonic (period : Fin d → ℝ) (j : Fin d → ℤ) : Point := fun c => if h : (c : ℕ) < d then 2 * Real.pi * j ⟨c, h⟩ / period ⟨c, h⟩ else 0

/-- The square of the length of a wavevector. -/
def squared (kappa : Point) : ℝ := ∑ c, kappa c ^ 2

/-- The function is the sum of its Fourier series, which converges absolutely, as do the series of its second derivatives. -/
structure HasSeries (period : Fin d → ℝ) (f : Point → ℂ) (a : (Fin d → ℤ) → ℂ) : Prop where
  value : ∀ r, f r = ∑' j, a j * wave (harmonic period j) r
  summable : Summable fun j => ‖a j‖
  second : Summable fun j => squared (harmonic period j) * ‖a j‖

/-- The same for the first derivatives only. -/
structure HasFirstSeries (period : Fin d → ℝ) (f : Point → ℂ) (a : (Fin d → ℤ) → ℂ) : Prop where
  value : ∀ r, f r = ∑' j, a j * wave (harmonic period j) r
  summable : Summable fun j => ‖a j‖
  first : ∀ c, Summable fun j => |harmonic period j c| * ‖a j‖

/-- The terms of the Fourier series that vary slowly enough for `N` samples per period. -/
def Sampled (N : Fin d → ℕ) (j : Fin d → ℤ) : Prop := ∀ b, -(N b : ℤ) ≤ 2 * j b ∧ 2 * j b < N b

open Classical in
/-- The size of all other terms, after two derivatives. -/
noncomputable def remainder (N : Fin d → ℕ) (period : Fin d → ℝ) (a : (Fin d → ℤ) → ℂ) : ℝ := ∑' j, if Sampled N j then 0 else squared (harmonic period j) * ‖a j‖

open Classical in
/-- The size of all other terms, after one derivative. -/
noncomputable def firstRemainder (N : Fin d → ℕ) (period : Fin d → ℝ) (a : (Fin d → ℤ) → ℂ) : ℝ := ∑' j, if Sampled N j then 0 else (∑ c, |harmonic period j c|) * ‖a j‖

/-- `μ⁻¹ ∇ × ∇ × E - k₀² ε E = S` at all points of space. -/
def WaveEquationInSpace (k0 : ℝ) (epsilon : Point → Matrix (Fin 3) (Fin 3) ℂ) (mu : ℂ) (S E : Fin 3 → Point → ℂ) : Prop :=
  ∀ c r, mu⁻¹ * curl (curl E) c r - (k0 : ℂ) ^ 2 * (epsilon r).mulVec (fun j => E j r) c = S c r

/-- `- μ⁻¹ ∇² E - k₀² ε E = S` at all points of space. -/
def ScalarWaveEquationInSpace (k0 : ℝ) (epsilon : Point → ℂ) (mu : ℂ) (S E : Point → ℂ) : Prop :=
  ∀ r, -mu⁻¹ * laplacian E r - (k0 : ℂ) ^ 2 * (epsilon r * E r) = S r

/-- `∇ × E = i k₀ (ζ E + μ H)` and `∇ × H = - i k₀ (ε E + ξ H) - (i / k₀) S` at all points of space: Maxwell's equations for any linear material, in the units of the code. -/
def CoupledInSpace (k0 : ℝ) (epsilon xi zeta mu : Point → Matrix (Fin 3) (Fin 3) ℂ) (S E H : Fin 3 → Point → ℂ) : Prop :=
  (∀ c r, curl E c r = I * k0 * ((zeta r).mulVec (fun j => E j r) c + (mu r).mulVec (fun j => H j r) c)) ∧
    ∀ c r, curl H c r = -I * k0 * ((epsilon r).mulVec (fun j => E j r) c + (xi r).mulVec (fun j => H j r) c) - I / k0 * S c r

/-- The material absorbs at least `δ` of the square of both fields, at all points of space. -/
def AbsorbsBothInSpace (epsilon xi zeta mu : Point → Matrix (Fin 3) (Fin 3) ℂ) (δ : ℝ) : Prop :=
  ∀ r (e h : Fin 3 → ℂ), δ * (∑ i, ‖e i‖ ^ 2 + ∑ i, ‖h i‖ ^ 2) ≤
    (star e ⬝ᵥ ((epsilon r).mulVec e + (xi r).mulVec h) + star h ⬝ᵥ ((zeta r).mulVec e + (mu r).mulVec h)).im

/-- The samples are the values of a function of the position. -/
def SampledFrom {T : Type} (g : Grid.Obj d ℝ) (f : Point → T) (s : Idx g.shape → T) : Prop := ∀ x r, AtSample g x r → s x = f r

/-- The root of the mean square of a field. -/
noncomputable def rms {n : ℕ} {N : Fin d → ℕ} (F : Fin n → Idx N → ℂ) : ℝ := Real.sqrt ((∑ c, ∑ x, ‖F c x‖ ^ 2) / ∏ b, (N b : ℝ))

/-- The material property multiplies no vector by more than `b`, at all points of space. -/
def BoundedInSpace (A : Point → Matrix (Fin 3) (Fin 3) ℂ) (b : ℝ) : Prop := ∀ r (v : Fin 3 → ℂ), ∑ i, ‖(A r).mulVec v i‖ ^ 2 ≤ b ^ 2 * ∑ i, ‖v i‖ ^ 2

end Verif.Spec.Refinement
