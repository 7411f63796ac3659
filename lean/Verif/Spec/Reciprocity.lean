import Verif.Spec.Physics

/-!
# Reciprocity of materials with magneto-electric coupling (property C74)
-/

namespace Verif.Spec.Physics

open Verif.Fourier Matrix

variable {d : ℕ} {N : Fin d → ℕ}

/-- A reciprocal material: permittivity and permeability are symmetric, and the coupling tensors are opposite transposes, such as in chiral materials. -/
structure ReciprocalCoupled (epsilon xi zeta mu : Idx N → Matrix (Fin 3) (Fin 3) ℂ) : Prop where
  epsilon : Reciprocal epsilon
  mu : Reciprocal mu
  coupling : ∀ x, zeta x = -(xi x)ᵀ

end Verif.Spec.Physics
