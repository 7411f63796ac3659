import Mathlib.Algebra.BigOperators.Group.List.Basic
import Mathlib.Data.List.Basic

/-!
# What it means to add or remove singleton dimensions, and to look up an element (properties C11 and C12)
-/

namespace Verif.Spec.Dim

/-- Position, in row-major order, of the element with the given multi-index. -/
def position : List ℕ → List ℕ → ℕ
  | _ :: ds, i :: is => i * ds.prod + position ds is
  | _, _ => 0

/-- `index` is a valid multi-index for an array of shape `shape`. -/
def Valid (shape index : List ℕ) : Prop := List.Forall₂ (fun d i => i < d) shape index

/-- The array with the given shape and elements in row-major order has the element `v` at `index`. -/
def ElementAt {α : Type} (shape : List ℕ) (data : List α) (index : List ℕ) (v : α) : Prop :=
  Valid shape index ∧ data[position shape index]? = some v

/-- `k` axes of length one. -/
def ones (k : ℕ) : List ℕ := List.replicate k 1

end Verif.Spec.Dim
