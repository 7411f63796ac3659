import Verif.Model.Fourier
import Mathlib.Data.Matrix.Mul

/-!
# Physical laws that solutions should respect: reciprocity and conservation of energy (properties C74, C75)
-/

namespace Verif.Spec.Physics

open Verif.Fourier

variable {d n : ℕ} {N : Fin d → ℕ}

/-- The reaction of a field `E` on a source `S`: the sum of `S · E`, without complex conjugate. -/
noncomputable def reaction (S E : Fin n → Idx N → ℂ) : ℂ := ∑ x, (fun c => S c x) ⬝ᵥ fun c => E c x

/-- A reciprocal material: its tensors are symmetric. -/
def Reciprocal (A : Idx N → Matrix (Fin n) (Fin n) ℂ) : Prop := ∀ x, (A x).transpose = A x

/-- The sum over all points of `E* · F`. -/
noncomputable def overlap (E F : Fin n → Idx N → ℂ) : ℂ := ∑ x, (fun c => star (E c x)) ⬝ᵥ fun c => F c x

/-- A material that neither absorbs nor amplifies: its tensors are Hermitian. -/
def Lossless (A : Idx N → Matrix (Fin n) (Fin n) ℂ) : Prop := ∀ x, (A x).conjTranspose = A x

end Verif.Spec.Physics
