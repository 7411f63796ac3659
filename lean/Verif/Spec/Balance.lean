import Verif.Spec.Continuous
import Mathlib.LinearAlgebra.CrossProduct

/-!
# Flow of energy and of momentum in space (properties C125 and C126)
-/

namespace Verif.Spec.Balance

open Verif.Spec.Continuous Complex

variable {d : ℕ}

/-- The time-averaged flow of energy, `Re(E × H*) / 2`. -/
noncomputable def flow (E H : Fin 3 → Point → ℂ) (c : Fin 3) (r : Point) : ℝ := (crossProduct (fun c => E c r) (fun c => (starRingEnd ℂ) (H c r)) c).re / 2

/-- The power that the fields deliver to the material, per unit of volume and averaged over time: `ω Im(D · E* + B · H*) / 2` for fields that vary as `exp(-i ω t)`. -/
noncomputable def absorbed (omega : ℝ) (E D H B : Fin 3 → Point → ℂ) (r : Point) : ℝ :=
  omega / 2 * ((∑ c, D c r * (starRingEnd ℂ) (E c r)).im + (∑ c, B c r * (starRingEnd ℂ) (H c r)).im)

/-- The power that the currents deliver to the fields; the sign of the current density is that of the code. -/
noncomputable def delivered (E j : Fin 3 → Point → ℂ) (r : Point) : ℝ := (∑ c, j c r * (starRingEnd ℂ) (E c r)).re / 2

/-- The time-averaged flow of momentum in vacuum: Maxwell's stress tensor. -/
noncomputable def stress (epsilon0 mu0 : ℝ) (E H : Fin 3 → Point → ℂ) (i j : Fin 3) (r : Point) : ℝ :=
  (epsilon0 * (E i r * (starRingEnd ℂ) (E j r)).re + mu0 * (H i r * (starRingEnd ℂ) (H j r)).re) / 2 -
    if i = j then (epsilon0 * ∑ c, normSq (E c r) + mu0 * ∑ c, normSq (H c r)) / 4 else 0

/-- The time-averaged force `(ρ E* + J × B*) / 2` on charges and currents. -/
noncomputable def lorentz (rho : Point → ℂ) (E J B : Fin 3 → Point → ℂ) (c : Fin 3) (r : Point) : ℝ :=
  (rho r * (starRingEnd ℂ) (E c r) + crossProduct (fun c => J c r) (fun c => (starRingEnd ℂ) (B c r)) c).re / 2

/-- The time-averaged force `(ρ E* + μ₀ J × H* + ρₘ H* - ε₀ Jₘ × E*) / 2` on electric charges `ρ` and currents `J`, and on the magnetic charges `ρₘ` and currents `Jₘ` of a magnetized material. -/
noncomputable def forceOnMaterial (epsilon0 mu0 : ℝ) (rho rhoM : Point → ℂ) (E H J Jm : Fin 3 → Point → ℂ) (c : Fin 3) (r : Point) : ℝ :=
  (rho r * (starRingEnd ℂ) (E c r) + mu0 * crossProduct (fun c => J c r) (fun c => (starRingEnd ℂ) (H c r)) c +
    rhoM r * (starRingEnd ℂ) (H c r) - epsilon0 * crossProduct (fun c => Jm c r) (fun c => (starRingEnd ℂ) (E c r)) c).re / 2

/-- Wavenumbers up to half of those that the samples resolve. -/
def HalfHarmonic (N : ℕ) (step kappa : ℝ) : Prop := ∃ j : ℤ, -(N : ℤ) ≤ 4 * j ∧ 4 * j < N ∧ kappa = 2 * Real.pi * j / (N * step)

/-- The same for all axes of a grid. -/
def WellResolved (N : Fin d → ℕ) (step : Fin d → ℝ) (kappa : Point) : Prop :=
  ∀ c : Fin 3, (∀ h : (c : ℕ) < d, HalfHarmonic (N ⟨c, h⟩) (step ⟨c, h⟩) (kappa c)) ∧ (d ≤ (c : ℕ) → kappa c = 0)

/-- The functions that vary at most half as fast as the samples resolve. -/
def HalfBand (N : Fin d → ℕ) (step : Fin d → ℝ) : Submodule ℂ (Point → ℂ) := Submodule.span ℂ (wave '' {kappa | WellResolved N step kappa})

end Verif.Spec.Balance
