import Verif.Model.Bound
import Verif.Model.Assign

/-!
# Model of how grids and thicknesses are passed as arguments

* `Grid.from_ranges` (python/macromax/utils/ft/grid.py 201–236) from its arguments, on top of `Grid.fromRanges`;
* the argument `grid` of `Solution` (python/macromax/solver.py 142–147) and of `Bound` (python/macromax/bound.py 68–70);
* the arguments `thickness` and `max_extinction_coefficient` of the boundaries (bound.py 71, 152, 211–215).

Arguments are numbers or arrays with any number of axes.  Python's lists are the arrays that they are converted to.  Slices (grid.py 212) are in `Model/GridSlice.lean`; complex
coordinates are not modelled.  All ranges have the same data type.
-/

namespace Verif.GridArg

open Verif Verif.Assign Verif.Grid

section
variable {K : Type} [Field K] [LinearOrder K] [FloorRing K]

/-- An element of the argument: a number, for which `np.isscalar` is True, or an array. -/
inductive Item (K : Type)
  | number (x : K)
  | array (a : Arr K)

/-- grid.py 213: `np.array([rng] if np.isscalar(rng) else rng)`. -/
def Item.toRange : Item K → Arr K
  | .number x => ⟨[1], fun _ => x⟩
  | .array a => a

/-- The number of elements of an array. -/
def size (a : Arr K) : ℕ := a.shape.prod

/-- grid.py 216–217: for `axis = i - n` (counted from the last), `rng.swapaxes(0, axis).reshape(rng.shape[axis], -1)[:, 0]` if there are several axes.
`AxisError` is a `ValueError`. -/
def lineOf (n i : ℕ) (a : Arr K) : Except PyErr (Arr K) :=
  if 1 < a.shape.length then
    if n - i ≤ a.shape.length then
      let axis := a.shape.length - (n - i)
      .ok ⟨[a.shape.getD axis 0], fun j => a.val ((List.replicate a.shape.length 0).set axis (j.headD 0))⟩
    else .error .valueError
  else .ok a

/-- The elements of an array with one axis.  Indexing an array without axes raises (grid.py 223). -/
def elements (a : Arr K) : Except PyErr (List K) :=
  match a.shape with
  | [] => .error .indexError
  | l :: _ => .ok ((List.range l).map fun j => a.val [j])

/-- grid.py 216–223: the ranges of all axes. -/
def lines (n : ℕ) : ℕ → List (Arr K) → Except PyErr (List (List K))
  | _, [] => .ok []
  | i, a :: rest => do
    let line ← lineOf n i a
    let r ← elements line
    let rs ← lines n (i + 1) rest
    pure (r :: rs)

/-- A grid of any number of axes. -/
abbrev AnyGrid (K : Type) := Σ n, Obj n K

/-- `Grid.fromRanges` for a list of ranges. -/
def ofLines (dt : DType) (rs : List (List K)) : Except PyErr (AnyGrid K) :=
  (fromRanges dt fun i : Fin rs.length => rs.get i).map fun g => ⟨rs.length, g⟩

/-- grid.py 201–236: `Grid.from_ranges(*ranges)`. -/
def fromItems (dt : DType) (items : List (Item K)) : Except PyErr (AnyGrid K) :=
  let ranges := items.map Item.toRange
  if ranges.any fun a => size a < 1 then .error .attributeError
  else do
    let rs ← lines ranges.length 0 ranges
    ofLines dt rs

/-- The shape of an element of a sequence in `np.array(sequence)`. -/
def Item.shape : Item K → List ℕ
  | .number _ => []
  | .array a => a.shape

/-- The value of an element of a sequence. -/
def Item.val : Item K → List ℕ → K
  | .number x => fun _ => x
  | .array a => a.val

/-- `np.array(sequence)`: the elements must have the same shape (a `ValueError` in NumPy 1.24 and later). -/
def stack (items : List (Item K)) : Except PyErr (Arr K) :=
  match items with
  | [] => .ok ⟨[0], fun _ => 0⟩
  | first :: rest =>
    if rest.all fun b => decide (b.shape = first.shape) then
      .ok ⟨items.length :: first.shape, fun i => (items.getD (i.headD 0) first).val i.tail⟩
    else .error .valueError

/-- The argument `grid`: a `Grid`, or a sequence (also: an array with at least one axis, of which the elements are the items). -/
inductive Arg (K : Type) [Field K] [LinearOrder K] [FloorRing K]
  | grid (g : AnyGrid K)
  | sequence (dt : DType) (items : List (Item K))

/-- solver.py 142–147: the grid of a `Solution`. -/
def solutionGrid : Arg K → Except PyErr (AnyGrid K)
  | .grid g => .ok g
  | .sequence _ [] => .error .indexError
  | .sequence dt (.number x :: rest) => do
    let a ← stack (.number x :: rest)
    fromItems dt [.array a]
  | .sequence dt (.array a :: rest) => fromItems dt (.array a :: rest)

/-- bound.py 68–70: the grid of a `Bound`. -/
def boundGrid : Arg K → Except PyErr (AnyGrid K)
  | .grid g => .ok g
  | .sequence dt items => do
    let a ← stack items
    fromItems dt [.array a]

end

/-! ### Thickness -/

section
variable {K : Type} {n : ℕ}

/-- `np.broadcast_to(a, shape)`, with the last axis first: every axis of the array must have one element or as many as the shape has. -/
def fitsRev : List ℕ → List ℕ → Bool
  | [], _ => true
  | _ :: _, [] => false
  | l :: s, m :: t => (l = 1 || l = m) && fitsRev s t

/-- The index of the array for an index of the result, with the last axis first. -/
def pickRev (s i : List ℕ) : List ℕ := List.zipWith (fun l j => if l = 1 then 0 else j) s i

/-- bound.py 71 and 152: `np.broadcast_to(a, (ndim, 2))`. -/
def perSide (n : ℕ) (a : Arr K) : Except PyErr (Fin n → Bool → K) :=
  if fitsRev a.shape.reverse [2, n] then
    .ok fun axis side => a.val (pickRev a.shape.reverse [if side then 1 else 0, axis.val]).reverse
  else .error .valueError

variable [Field K] [LinearOrder K] [FloorRing K]

/-- bound.py 60–72, 135–152: `AbsorbingBound(grid, thickness, functions)`, for a function (an array without axes) or an array of functions. -/
def absorbingBound (grid : Obj n K) (thickness : Arr K) (kappaFunctions : Arr (K → K)) : Except PyErr (Bound.Absorbing n K) := do
  let t ← perSide n thickness
  let f ← perSide n kappaFunctions
  pure { grid := grid, thickness := t, kappaFunction := f }

/-- bound.py 196–215: `LinearBound(grid, thickness, max_extinction_coefficient)`.  `np.vectorize` raises for an array without elements. -/
def linearBound (grid : Obj n K) (thickness kappaMax : Arr K) : Except PyErr (Bound.Absorbing n K) := do
  if size kappaMax = 0 then throw .valueError
  let t ← perSide n thickness
  let k ← perSide n kappaMax
  pure (Bound.linear grid t k)

end

end Verif.GridArg
