import Verif.Num
import Verif.Model.Round125
import Mathlib.Algebra.Order.Field.Basic

/-!
# Model of `python/macromax/utils/display/colormap.py` and `format_image_axes.py`

Matplotlib's `LinearSegmentedColormap` is cited as `matplotlib` (colors.py, `_create_lookup_table`).  Figures, fonts and positions are left out.
-/

namespace Verif.Display

open Verif

section
variable {K : Type} [Field K] [LinearOrder K]

/-- The rows `(x, y0, y1)` for a channel: position, and the values below and above that position. -/
abbrev Rows (K : Type) := List (K × K × K)

/-- colormap.py 34–35: the positions for `n` colours.  For a single colour 0 is divided by 0; matplotlib raises a ValueError for positions that are not a number. -/
def positionsOf (n : ℕ) (points : Option (List K)) : Except PyErr (List K) :=
  match points with
  | some p => .ok p
  | none => if n = 1 then .error .valueError else .ok ((List.range n).map fun i : ℕ => (i : K) / ((n : K) - 1))

/-- colormap.py 36: `stack`. -/
def stackRows (points channel : List K) : Except PyErr (Rows K) :=
  if points.length = channel.length then .ok (List.zipWith (fun x y => (x, y, y)) points channel) else .error .valueError

/-- colormap.py 33–40: the rows for red, green, blue, and alpha if there is a fourth column, for an array of colours with `n` rows and `m` columns. -/
def colorRows (n m : ℕ) (colors : ℕ → ℕ → K) (points : Option (List K)) : Except PyErr (List (Rows K)) := do
  let points ← positionsOf n points
  if m < 3 then .error .indexError
  else (List.range (min m 4)).mapM fun c => stackRows points ((List.range n).map fun i => colors i c)

/-- `np.clip(y, 0, 1)` -/
def clipUnit (y : K) : K := min (max y 0) 1

/-- matplotlib: the table with `N` values of a channel, for at least two values, of which `gamma` is 1. -/
def lookupTable (N : ℕ) (rows : Rows K) : Except PyErr (List K) :=
  let x : ℕ → K := fun k => (rows.getD k (0, 0, 0)).1
  let y0 : ℕ → K := fun k => (rows.getD k (0, 0, 0)).2.1
  let y1 : ℕ → K := fun k => (rows.getD k (0, 0, 0)).2.2
  let n := rows.length
  if n = 0 then .error .indexError
  else if x 0 ≠ 0 ∨ x (n - 1) ≠ 1 then .error .valueError
  else if ∃ k ∈ List.range (n - 1), x (k + 1) < x k then .error .valueError
  else .ok ((List.range N).map fun i =>
    if i = 0 then clipUnit (y1 0)
    else if i = N - 1 then clipUnit (y0 (n - 1))
    else
      let ind := (List.range n).countP fun k => x k * ((N : K) - 1) < (i : K)
      let distance := ((i : K) - x (ind - 1) * ((N : K) - 1)) / (x ind * ((N : K) - 1) - x (ind - 1) * ((N : K) - 1))
      clipUnit (distance * (y0 ind - y1 (ind - 1)) + y1 (ind - 1)))

/-- The tables of all channels of `InterpolatedColorMap(name, colors, points)`; matplotlib calculates these when the map is first used, with `N = 256` by default. -/
def colorTables (N n m : ℕ) (colors : ℕ → ℕ → K) (points : Option (List K)) : Except PyErr (List (List K)) := do
  let rows ← colorRows n m colors points
  rows.mapM (lookupTable N)

end

/-! ### format_image_axes -/

/-- The scale bar: its length, its label, and its height. -/
structure ScaleBar where
  size : ℝ
  label : List Char
  height : ℝ

/-- What is added to the axes: a title, a scale bar, and the colour of both: red, green, blue, and alpha. -/
structure Annotation where
  title : Option (List Char)
  bar : Option ScaleBar
  colour : ℝ × ℝ × ℝ × ℝ

open Classical in
/-- format_image_axes.py 22–46, for a scale that is a number; `str` is the conversion of numbers to text. -/
noncomputable def formatImageAxes (str : ℝ → List Char) (title : Option (List Char)) (scale : ℝ) (unit : List Char) (whiteBackground : Bool) : Annotation where
  title := title.filter fun t => 0 < t.length
  bar := if 0 < scale then
      let size := Round125.round125 scale
      some ⟨size, str size ++ unit, size / 5⟩
    else none
  colour := if whiteBackground then (0, 0, 0, 1) else (1, 1, 1, 1)

end Verif.Display
