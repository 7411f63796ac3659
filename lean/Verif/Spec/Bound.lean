import Verif.Spec.Grid

/-!
# Which points are in the boundary of the simulation volume (properties C20 and C21)
-/

namespace Verif.Spec.Bound

open Verif.Spec.Grid

section
variable {K : Type} [Field K] [LinearOrder K]

/-- The axis with `N` samples at the given spacing, around the given centre. -/
structure Axis (K : Type) where
  N : ℕ
  step : K
  center : K
  centerAtIndex : Bool

/-- The coordinate of the first sample. -/
def Axis.first (a : Axis K) : K := firstSample a.N a.step a.center a.centerAtIndex

/-- The coordinate of the last sample. -/
def Axis.last (a : Axis K) : K := a.first + ((a.N : K) - 1) * a.step

/-- A sample of the axis. -/
def Axis.IsSample (a : Axis K) (x : K) : Prop := ∃ j : ℕ, j < a.N ∧ x = a.first + j * a.step

/-- The distance of `x` from the edge of the volume at the front (`false`) or at the back. -/
def Axis.fromEdge (a : Axis K) (back : Bool) (x : K) : K := if back then |a.last - x| else |x - a.first|

end

end Verif.Spec.Bound
