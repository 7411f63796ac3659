import Verif.Model.GridArg

/-!
# Model of slices as arguments of `Grid.from_ranges` (python/macromax/utils/ft/grid.py 201–217)

Slices have a start and an end.  In exact arithmetic.
-/

namespace Verif.GridArg

open Verif Verif.Assign Verif.Grid

variable {K : Type} [Field K] [LinearOrder K] [FloorRing K]

/-- An argument of `from_ranges`: a slice, where the step can be None, or something else. -/
inductive RangeArg (K : Type)
  | item (i : Item K)
  | slice (start stop : K) (step : Option K)

/-- `np.arange(start, stop, step)`: ⌈(stop - start) / step⌉ numbers, if this is positive. -/
def arange (start stop step : K) : Except PyErr (Arr K) :=
  if step = 0 then .error .zeroDivision
  else .ok ⟨[(⌈(stop - start) / step⌉).toNat], fun j => start + (j.headD 0 : ℕ) * step⟩

/-- grid.py 212. -/
def RangeArg.toItem : RangeArg K → Except PyErr (Item K)
  | .item i => .ok i
  | .slice start stop step => (arange start stop (step.getD 1)).map Item.array

/-- grid.py 201–236: `Grid.from_ranges(*ranges)`. -/
def fromArgs (dt : DType) (args : List (RangeArg K)) : Except PyErr (AnyGrid K) := do
  let items ← args.mapM RangeArg.toItem
  fromItems dt items

end Verif.GridArg
