import Verif.Spec.Solver

/-!
# Maxwell's equations for materials with magneto-electric coupling (property C89)

Derivatives are spectral, as in `Spec/Solver.lean`.  `H` is in units in which the impedance of vacuum is 1, and the time dependence is `exp(-i ω t)`.
-/

namespace Verif.Spec.Solver

open Verif.Fourier Complex

variable {d : ℕ} {N : Fin d → ℕ}

/-- `∇ × E = i k₀ (ζ E + μ H)` and `∇ × H = - i k₀ (ε E + ξ H) - i S / k₀`. -/
def Coupled (k : Fin d → Idx N → ℝ) (k0 : ℝ) (epsilon xi zeta mu : Idx N → Matrix (Fin 3) (Fin 3) ℂ) (S E H : Fin 3 → Idx N → ℂ) : Prop :=
  (∀ c x, curl k E c x = I * k0 * (act zeta E c x + act mu H c x)) ∧
    ∀ c x, curl k H c x = -I * k0 * (act epsilon E c x + act xi H c x) - I / k0 * S c x

/-- `E` is the electric field of a solution of Maxwell's equations. -/
def CoupledEquation (k : Fin d → Idx N → ℝ) (k0 : ℝ) (epsilon xi zeta mu : Idx N → Matrix (Fin 3) (Fin 3) ℂ) (S E : Fin 3 → Idx N → ℂ) : Prop :=
  ∃ H, Coupled k k0 epsilon xi zeta mu S E H

/-- The power that the material absorbs at a point, for the fields `e` and `h`. -/
noncomputable def absorbed (epsilon xi zeta mu : Matrix (Fin 3) (Fin 3) ℂ) (e h : Fin 3 → ℂ) : ℝ :=
  (star e ⬝ᵥ (epsilon.mulVec e + xi.mulVec h) + star h ⬝ᵥ (zeta.mulVec e + mu.mulVec h)).im

/-- At no point does the material do work on the fields. -/
def PassiveCoupled (epsilon xi zeta mu : Idx N → Matrix (Fin 3) (Fin 3) ℂ) : Prop := ∀ x e h, 0 ≤ absorbed (epsilon x) (xi x) (zeta x) (mu x) e h

/-- A little absorption of electric fields everywhere. -/
def AbsorbingCoupled (epsilon xi zeta mu : Idx N → Matrix (Fin 3) (Fin 3) ℂ) : Prop :=
  ∃ δ : ℝ, 0 < δ ∧ ∀ x e h, δ * ∑ i, ‖e i‖ ^ 2 ≤ absorbed (epsilon x) (xi x) (zeta x) (mu x) e h

/-- What the differences between two materials and between two sources add to the displacement of the fields `E` and `H` (property C121). -/
noncomputable def electricDifference (k0 : ℝ) (epsilon epsilon' xi xi' : Idx N → Matrix (Fin 3) (Fin 3) ℂ) (S S' E H : Fin 3 → Idx N → ℂ) : Fin 3 → Idx N → ℂ :=
  fun c x => act (fun x => epsilon' x - epsilon x) E c x + act (fun x => xi' x - xi x) H c x + (S' c x - S c x) / (k0 : ℂ) ^ 2

/-- What they add to the magnetic flux density. -/
noncomputable def magneticDifference (zeta zeta' mu mu' : Idx N → Matrix (Fin 3) (Fin 3) ℂ) (E H : Fin 3 → Idx N → ℂ) : Fin 3 → Idx N → ℂ :=
  fun c x => act (fun x => zeta' x - zeta x) E c x + act (fun x => mu' x - mu x) H c x

end Verif.Spec.Solver
