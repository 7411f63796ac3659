import Verif.Model.MatOp

/-!
# What it means for two arrays to be the same, and for a matrix object to be consistent
-/

namespace Verif.Spec.Mat

open Verif.Mat

/-- The indices are within the shape. -/
def InRange (shape idx : List ℕ) : Prop := List.Forall₂ (· < ·) idx shape

/-- The arrays have the same shape and the same elements. -/
def Same {K : Type} (a b : NdArr K) : Prop := a.shape = b.shape ∧ ∀ idx, InRange a.shape idx → a.get idx = b.get idx

/-- Both raise an exception, or both give the same array. -/
def Agree {K : Type} (a b : Except PyErr (NdArr K)) : Prop :=
  ((∃ e, a = .error e) ∧ ∃ e, b = .error e) ∨ ∃ x y, a = .ok x ∧ b = .ok y ∧ Same x y

/-- The `_matvec` of a matrix with an array is the product with that array, as is that of `Matrix` itself. -/
def Consistent {K : Type} [Field K] (M : LinOp K) : Prop := ∀ a, M.array = some a → M.matvec = fun v i => ∑ j, a i j * v j

end Verif.Spec.Mat
