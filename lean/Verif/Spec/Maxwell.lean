import Verif.Spec.Solver

/-!
# Maxwell's equations for monochromatic fields, in SI units (properties C43–C45)

The time dependence is `exp(-i ω t)`.  Derivatives are spectral, as in `Spec/Solver.lean`.
-/

namespace Verif.Spec.Maxwell

open Verif.Fourier Verif.Spec.Solver Complex

variable {d : ℕ} {N : Fin d → ℕ}

/-- `∇ × E = i ω B`. -/
def Faraday (k : Fin d → Idx N → ℝ) (omega : ℝ) (E B : Fin 3 → Idx N → ℂ) : Prop := ∀ c x, curl k E c x = I * omega * B c x

/-- `∇ × H = - i ω D - j`: the sign of the current density `j` is that of the code. -/
def Ampere (k : Fin d → Idx N → ℝ) (omega : ℝ) (H D j : Fin 3 → Idx N → ℂ) : Prop := ∀ c x, curl k H c x = -I * omega * D c x - j c x

/-- `B = ζ E / c + μ₀ μ H`. -/
def MagneticResponse (c mu0 : ℝ) (zeta mu : Idx N → Matrix (Fin 3) (Fin 3) ℂ) (E H B : Fin 3 → Idx N → ℂ) : Prop :=
  ∀ i x, B i x = act zeta E i x / c + mu0 * act mu H i x

/-- `D = ε₀ ε E + ξ H / c`. -/
def ElectricResponse (c epsilon0 : ℝ) (epsilon xi : Idx N → Matrix (Fin 3) (Fin 3) ℂ) (E H D : Fin 3 → Idx N → ℂ) : Prop :=
  ∀ i x, D i x = epsilon0 * act epsilon E i x + act xi H i x / c

/-- The energy that the response stores is not negative at any point. -/
def NonNegative {n : ℕ} (A : Idx N → Matrix (Fin n) (Fin n) ℂ) : Prop := ∀ x (v : Fin n → ℂ), 0 ≤ (star v ⬝ᵥ (A x).mulVec v).re

end Verif.Spec.Maxwell
