import Mathlib.Data.Complex.Basic
import Mathlib.Data.Matrix.Mul

/-!
# Vectors in three dimensions at one sample point (properties C24 and C25)
-/

namespace Verif.Spec.Backend

variable {d m : ℕ} {X : Type}

/-- The k-vector at a sample point: fields do not vary along the axes that the grid does not have. -/
noncomputable def kVector (k : Fin d → X → ℝ) (x : X) : Fin 3 → ℂ := fun c => if h : (c : ℕ) < d then (k ⟨c, h⟩ x : ℂ) else 0

/-- The field vector at a sample point: missing components are zero. -/
noncomputable def vector (F : Fin m → X → ℂ) (x : X) : Fin 3 → ℂ := fun c => if h : (c : ℕ) < m then F ⟨c, h⟩ x else 0

end Verif.Spec.Backend
