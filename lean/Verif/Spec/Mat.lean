import Mathlib.Algebra.Field.Basic
import Mathlib.Logic.Function.Basic
import Mathlib.Data.Fintype.Basic

/-!
# Specification of matrix operators
-/

namespace Verif.Spec.Mat

variable {K : Type} [Field K] {n m : ℕ}

/-- The vector with element `a` at `i` and zero elsewhere. -/
def single (i : Fin n) (a : K) : Fin n → K := fun j => if j = i then a else 0

/-- A function is compatible with scaling of the basis vectors; linear functions are. -/
def BasisHomogeneous (f : (Fin n → K) → Fin m → K) : Prop :=
  (∀ r, f (fun _ => 0) r = 0) ∧ ∀ i a r, f (single i a) r = a * f (single i 1) r

end Verif.Spec.Mat
