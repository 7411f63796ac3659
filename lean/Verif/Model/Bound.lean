import Verif.Model.GridOps
import Mathlib.Analysis.SpecialFunctions.Pow.Complex

/-!
# Model of `python/macromax/bound.py`

The arrays are modelled by their value at one point of the plaid grid; a point has one coordinate for each axis.
The axes of the grid are non-flat, as they are by default for multidimensional grids.
-/

namespace Verif.Bound

open Verif.Grid

section
variable {n : ℕ} {K : Type} [Field K] [LinearOrder K] [FloorRing K]

/-- An absorbing bound: its grid, `thickness[axis, side]` (after broadcasting, bound.py 71), and the extinction coefficient
functions (bound.py 152).  Side `false` is the front, `true` the back. -/
structure Absorbing (n : ℕ) (K : Type) where
  grid : Obj n K
  thickness : Fin n → Bool → K
  kappaFunction : Fin n → Bool → K → K

/-- `rng.ravel()[0]` for the coordinates of an axis (an axis has at least one). -/
def firstOf (b : Absorbing n K) (axis : Fin n) : K := (b.grid.coords axis).headD 0

/-- `rng.ravel()[-1]` for the coordinates of an axis. -/
def lastOf (b : Absorbing n K) (axis : Fin n) : K := (b.grid.coords axis).getLastD 0

/-- bound.py 107–117: `between` at the point with coordinates `p`, for a grid that was made of sequences. -/
def between (b : Absorbing n K) (p : Fin n → K) : Bool :=
  (List.finRange n).foldl (fun result axis =>
    result && (decide (firstOf b axis + b.thickness axis false ≤ p axis) &&
      decide (p axis ≤ lastOf b axis - b.thickness axis true))) true

/-- bound.py 119–124: `beyond`. -/
def beyond (b : Absorbing n K) (p : Fin n → K) : Bool := !between b p

/-- bound.py 172: the thickness with the sign of the step. -/
def signedThickness (b : Absorbing n K) (axis : Fin n) (backSide : Bool) : K :=
  b.thickness axis backSide * signK (b.grid.step axis)

/-- bound.py 173–177: `new_depth_in_boundary` at the coordinate `x`. -/
def depth (b : Absorbing n K) (axis : Fin n) (backSide : Bool) (x : K) : K :=
  (if !backSide then (firstOf b axis + signedThickness b axis backSide) - x
    else x - (lastOf b axis - signedThickness b axis backSide)) * signK (b.grid.step axis)

/-- bound.py 178–182: the update of `kappa` for one side.  A positive depth with a thickness of zero is only possible if the coordinates are not in
increasing order, i.e. if the origin is not at the center; it gives an infinite relative depth in the code and 0 here. -/
def update (b : Absorbing n K) (p : Fin n → K) (kappa : K) (side : Fin n × Bool) : K :=
  let inBoundary := fun x => decide (depth b side.1 side.2 x > 0)
  if (b.grid.coords side.1).any inBoundary then
    let relDepth := b2k (inBoundary (p side.1)) * depth b side.1 side.2 (p side.1) / signedThickness b side.1 side.2
    max kappa (b.kappaFunction side.1 side.2 relDepth * b2k (inBoundary (p side.1)))
  else kappa

/-- The order of the loops in bound.py 170–171. -/
def sides (n : ℕ) : List (Fin n × Bool) := (List.finRange n).flatMap fun axis => [(axis, false), (axis, true)]

/-- bound.py 158–183: `extinction` at the point with coordinates `p`, for a grid of one or more axes made of sequences.  The
iteration over a grid that was made of scalars yields its coordinates one by one: `thickness[1, 0]` then raises. -/
def extinction (b : Absorbing n K) (p : Fin n → K) : Except PyErr K :=
  if b.grid.multidimensional then .ok ((sides n).foldl (update b p) 0)
  else if h : 0 < n then
    (if 2 ≤ b.grid.shape ⟨0, h⟩ then .error .indexError else .ok ((sides n).foldl (update b p) 0))
  else .ok 0

/-- bound.py 196–215: `LinearBound`: the extinction coefficient function of every side is linear. -/
def linear (grid : Obj n K) (thickness kappaMax : Fin n → Bool → K) : Absorbing n K :=
  { grid := grid, thickness := thickness, kappaFunction := fun a s relDepth => kappaMax a s * relDepth }

end

/-- bound.py 185–193: `electric_susceptibility` for the extinction `kappa`. `np.lib.scimath.sqrt` is the principal square root. -/
noncomputable def susceptibility (backgroundPermittivity : ℂ) (kappa : ℝ) : ℂ :=
  let n := backgroundPermittivity ^ (1 / 2 : ℂ)
  let epsilon := (n + Complex.I * kappa) ^ 2
  epsilon - backgroundPermittivity

/-- bound.py 30–36: `permittivity`. -/
noncomputable def permittivity (backgroundPermittivity : ℂ) (kappa : ℝ) : ℂ :=
  backgroundPermittivity + susceptibility backgroundPermittivity kappa

end Verif.Bound
