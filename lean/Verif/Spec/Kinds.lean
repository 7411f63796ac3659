import Mathlib.Data.Fin.Tuple.Basic

/-!
# What the kinds of fields are

A field has a number of rows and columns at each point of the grid: 1 and 1 for a scalar, 1 column for a vector.
-/

namespace Verif.Spec.Kinds

/-- A value per point. -/
def Scalar {d : ℕ} (shape : Fin (d + 2) → ℕ) : Prop := shape 0 = 1 ∧ shape 1 = 1

/-- A vector per point. -/
def VectorField {d : ℕ} (shape : Fin (d + 2) → ℕ) : Prop := 1 < shape 0 ∧ shape 1 = 1

/-- An argument with these axes gives a value per point, when axes are added on the left: all axes in front of those of the grid have length 1. -/
def GivesScalar (d : ℕ) (shape : List ℕ) : Prop := ∀ i, i + d < shape.length → shape.getD i 0 = 1

end Verif.Spec.Kinds
