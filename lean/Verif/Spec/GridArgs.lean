import Verif.Model.Grid
import Verif.Spec.Grid

/-!
# Specification of the sets of arguments that determine a grid
-/

namespace Verif.Grid

open Verif Verif.Spec.Grid

section
variable {n : ℕ} {K : Type} [Field K]

/-- The optional argument is absent, or it is the given vector of floats. -/
def Agrees (o : Option (Vec n K)) (x : Fin n → K) : Prop := ∀ v ∈ o, v.dt = .float ∧ v.v = x

/-- A set of arguments all of which (as far as given) are attributes of the grid with `N` samples, spacing `s` and centre `c`. -/
structure Attributes (a : Args n K) (N : Fin n → ℕ) (s c : Fin n → K) : Prop where
  shape : ∀ v ∈ a.shape, v.v = fun i => (N i : K)
  step : Agrees a.step s
  extent : Agrees a.extent fun i => (N i : K) * s i
  center : Agrees a.center c
  first : Agrees a.first fun i => firstSample (N i) (s i) (c i) (a.centerAtIndex i)
  last : Agrees a.last fun i =>
    firstSample (N i) (s i) (c i) (a.centerAtIndex i) + ((N i : K) - if a.includeLast i then 1 else 0) * s i

/-- The sets of arguments from which the constructor can find the grid, other than by the defaults. -/
inductive Sufficient (a : Args n K) (N : Fin n → ℕ) : Prop
  /-- shape, step, and the position of any one of the first, central or last sample -/
  | shapeStep (h1 : a.shape.isSome) (h2 : a.step.isSome) (h3 : a.center.isSome ∨ a.first.isSome ∨ a.last.isSome)
  /-- shape, extent, and the position of any one of the first, central or last sample -/
  | shapeExtent (h1 : a.shape.isSome) (h2 : a.extent.isSome) (h3 : a.center.isSome ∨ a.first.isSome ∨ a.last.isSome)
  /-- step, extent, and the position of any one of the first, central or last sample -/
  | stepExtent (h1 : a.step.isSome) (h2 : a.extent.isSome) (h3 : a.center.isSome ∨ a.first.isSome ∨ a.last.isSome)
  /-- shape, first and last, if these are different samples -/
  | shapeFirstLast (h1 : a.shape.isSome) (h2 : a.first.isSome) (h3 : a.last.isSome)
      (h4 : ∀ i, a.includeLast i = true → 1 < N i)
  /-- shape, first and center, if these are different samples -/
  | shapeFirstCenter (h1 : a.shape.isSome) (h2 : a.first.isSome) (h3 : a.center.isSome) (h4 : a.last = none)
      (h5 : ∀ i, 1 < N i)
  /-- shape, center and last, if these are different samples -/
  | shapeCenterLast (h1 : a.shape.isSome) (h2 : a.first = none) (h3 : a.center.isSome) (h4 : a.last.isSome)
      (h5 : ∀ i, a.includeLast i = true → if a.centerAtIndex i then 2 < N i else 1 < N i)
  /-- step, first and last -/
  | stepFirstLast (h1 : a.step.isSome) (h2 : a.first.isSome) (h3 : a.last.isSome)
  /-- step, first and center, for even shapes with the centre at an index -/
  | stepFirstCenter (h1 : a.step.isSome) (h2 : a.first.isSome) (h3 : a.center.isSome) (h4 : a.last = none)
      (h5 : ∀ i, a.centerAtIndex i = true ∧ N i % 2 = 0)
  /-- step, center and last: even shapes if the last is not included and odd ones if it is, or the centre is between samples and the
  last is not included -/
  | stepCenterLast (h1 : a.step.isSome) (h2 : a.first = none) (h3 : a.center.isSome) (h4 : a.last.isSome)
      (h5 : ∀ i, if a.centerAtIndex i then (N i % 2 = 1 ↔ a.includeLast i = true) else a.includeLast i = false)

end
end Verif.Grid
