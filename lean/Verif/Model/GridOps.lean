import Verif.Model.Grid

/-!
# Model of the methods of `Grid` and `MutableGrid` in `python/macromax/utils/ft/grid.py`
-/

namespace Verif.Grid

open Verif

section
variable {n : ℕ} {K : Type} [Field K] [LinearOrder K] [FloorRing K]

/-! ## Coordinates -/

/-- The raveled coordinates along axis `i`, `Grid.__getitem__`, grid.py 544–554. -/
def Obj.coords (g : Obj n K) (i : Fin n) : List K :=
  let sh := g.shape i
  -- 547: np.arange(sh) - (sh // 2)
  let rng : List K := (List.range sh).map fun (j : ℕ) => (j : K) - ((sh / 2 : ℕ) : K)
  -- 548-549
  let rng := if 1 < sh then rng.map (· * g.step i) else rng
  -- 550
  let rng := rng.map (· + g.center i)
  -- 551-552
  let rng := if ¬ g.centerAtIndex i ∧ sh % 2 = 0 then rng.map (· + g.step i / 2) else rng
  -- 553-554
  if g.originAtCenter i then rng else ifftshift rng

/-- The shape of the array that is returned for axis `i`, `Grid.__getitem__`, grid.py 555–556 and `dim.to_axis`. -/
def Obj.axisShape (g : Obj n K) (i : Fin n) : List ℕ :=
  if g.flat i then [g.shape i] else (List.finRange n).map fun j => if j = i then g.shape i else 1

/-- `np.arange(m)[key]` for a scalar key: negative keys count from the end, `IndexError` outside of the range. -/
def pyIndex (m : ℕ) (key : ℤ) : Except PyErr (Fin m) :=
  if h : 0 ≤ key ∧ key < m then .ok ⟨key.toNat, by omega⟩
  else if h : -(m : ℤ) ≤ key ∧ key < 0 then .ok ⟨(key + m).toNat, by omega⟩
  else .error .indexError

/-- `grid[key]` of a multi-dimensional grid for a scalar key, grid.py 532–563: the coordinates of one axis. The steps of axes that
the stored vector lacks raise an `IndexError` (545–546). -/
def Obj.getAxis (g : Obj n K) (key : ℤ) : Except PyErr (List K) :=
  match pyIndex n key with
  | .error e => .error e
  | .ok i => if g.stepShort ∧ 0 < i.val then .error .indexError else .ok (g.coords i)

/-- `grid[key]` of a grid that is not multi-dimensional for a scalar key, grid.py 538–558: an element of the first axis. -/
def getElement (g : Obj 1 K) (key : ℤ) : Except PyErr K :=
  match pyIndex (g.shape 0) key with
  | .error e => .error e
  | .ok i => match (g.coords 0)[i.val]? with
    | some x => .ok x
    | none => .error .indexError

/-- `len(grid)`, grid.py 522–530. -/
def len (g : Obj n K) : ℕ := if g.multidimensional then n else if h : 0 < n then g.shape ⟨0, h⟩ else 0

/-- `Grid.first`, grid.py 393–401. -/
def Obj.first (g : Obj n K) (i : Fin n) : K :=
  let result := g.center i - g.step i * ((g.shape i / 2 : ℕ) : K)
  if ¬ g.centerAtIndex i ∧ g.shape i % 2 = 0 then
    -- 399
    result + (if ∀ j, pyMod (g.step j) 2 = 0 then (⌊g.step i / 2⌋ : K) else g.step i / 2)
  else result

/-- `Grid.extent`, grid.py 403–406. -/
def Obj.extent (g : Obj n K) (i : Fin n) : K := (g.shape i : K) * g.step i

/-- `Grid.size`, grid.py 412–415. -/
def Obj.size (g : Obj n K) : ℕ := ((List.finRange n).map g.shape).prod

/-! ## Derived grids: all call the constructor again with shape, step and center -/

/-- `Grid(shape=..., step=..., center=..., flat=..., origin_at_center=..., center_at_index=...)` as it is called by the methods
of the class; scalars are passed when the grid is not multi-dimensional, so that this property is inherited. -/
def rebuild (multidimensional : Bool) (shape : Fin n → ℕ) (step center : Vec n K)
    (flat originAtCenter centerAtIndex : Fin n → Bool) : Except PyErr (Obj n K) :=
  init multidimensional
    { shape := some ⟨.int, fun i => (shape i : K)⟩, step := some step, center := some center,
      flat := flat, originAtCenter := originAtCenter, centerAtIndex := centerAtIndex }

/-- `Grid.as_flat`, grid.py 288–299. -/
def asFlat (g : Obj n K) : Except PyErr (Obj n K) :=
  rebuild g.multidimensional g.shape ⟨g.dt, g.step⟩ ⟨g.dt, g.center⟩ (fun _ => true) g.originAtCenter g.centerAtIndex

/-- `Grid.as_non_flat`, grid.py 301–312. -/
def asNonFlat (g : Obj n K) : Except PyErr (Obj n K) :=
  rebuild g.multidimensional g.shape ⟨g.dt, g.step⟩ ⟨g.dt, g.center⟩ (fun _ => false) g.originAtCenter g.centerAtIndex

/-- `Grid.as_origin_at_0`, grid.py 314–323. -/
def asOriginAt0 (g : Obj n K) : Except PyErr (Obj n K) :=
  rebuild g.multidimensional g.shape ⟨g.dt, g.step⟩ ⟨g.dt, g.center⟩ g.flat (fun _ => false) g.centerAtIndex

/-- `Grid.as_origin_at_center`, grid.py 325–334. -/
def asOriginAtCenter (g : Obj n K) : Except PyErr (Obj n K) :=
  rebuild g.multidimensional g.shape ⟨g.dt, g.step⟩ ⟨g.dt, g.center⟩ g.flat (fun _ => true) g.centerAtIndex

/-- `Grid.immutable` and `Grid.mutable`, grid.py 583–591, through `__dict__`, 573–581. -/
def copy (g : Obj n K) : Except PyErr (Obj n K) :=
  rebuild g.multidimensional g.shape ⟨g.dt, g.step⟩ ⟨g.dt, g.center⟩ g.flat g.originAtCenter g.centerAtIndex

/-- `Grid.__add__`, grid.py 444–451; the term was broadcast to one number per axis. -/
def add (g : Obj n K) (term : Vec n K) : Except PyErr (Obj n K) :=
  rebuild g.multidimensional g.shape ⟨g.dt, g.step⟩ ⟨g.dt.promote term.dt, fun i => g.center i + term.v i⟩
    g.flat g.originAtCenter g.centerAtIndex

/-- `Grid.__mul__` and `__rmul__`, grid.py 453–483. -/
def mul (g : Obj n K) (factor : Vec n K) : Except PyErr (Obj n K) :=
  rebuild g.multidimensional g.shape ⟨g.dt.promote factor.dt, fun i => g.step i * factor.v i⟩
    ⟨g.dt.promote factor.dt, fun i => g.center i * factor.v i⟩ g.flat g.originAtCenter g.centerAtIndex

/-- `Grid.__sub__`, grid.py 500–502. -/
def sub (g : Obj n K) (term : Vec n K) : Except PyErr (Obj n K) := add g ⟨term.dt, fun i => - term.v i⟩

/-- `Grid.__truediv__`, grid.py 504–512. `1 / 0` is infinite or raises: `nonFinite`. -/
def truediv (g : Obj n K) (denominator : Vec n K) : Except PyErr (Obj n K) :=
  if ∃ i, denominator.v i = 0 then .error .nonFinite
  else mul g ⟨.float, fun i => 1 / denominator.v i⟩

/-- `Grid.__neg__`, grid.py 514–516. -/
def neg (g : Obj n K) : Except PyErr (Obj n K) := mul g ⟨.int, fun _ => -1⟩

/-- `Grid.__matmul__`, grid.py 485–498: the axes of both grids. -/
def matmul {m : ℕ} (g : Obj n K) (h : Obj m K) : Except PyErr (Obj (n + m) K) :=
  rebuild true (Fin.addCases g.shape h.shape)
    ⟨g.dt.promote h.dt, Fin.addCases g.step h.step⟩ ⟨g.dt.promote h.dt, Fin.addCases g.center h.center⟩
    (Fin.addCases g.flat h.flat) (Fin.addCases g.originAtCenter h.originAtCenter)
    (Fin.addCases g.centerAtIndex h.centerAtIndex)

/-- `Grid.f`, grid.py 426–434. The step `1 / extent` is infinite when the step is zero. For an axis of a single point it is never
used by `__getitem__` and represented by 0 here; for longer axes the coordinates are undefined: `nonFinite`. -/
def freq (g : Obj n K) : Except PyErr (Obj n K) :=
  if ∃ i, 1 < g.shape i ∧ g.step i = 0 then .error .nonFinite
  else init g.multidimensional
    { shape := some ⟨.int, fun i => (g.shape i : K)⟩, step := some ⟨.float, fun i => 1 / g.extent i⟩,
      flat := g.flat, originAtCenter := fun _ => false, centerAtIndex := fun _ => true }

/-- `Grid.k`, grid.py 436–439; the factor stands for `2 * np.pi`. -/
def kGrid (twoPi : K) (g : Obj n K) : Except PyErr (Obj n K) :=
  match freq g with
  | .error e => .error e
  | .ok f => mul f ⟨.float, fun _ => twoPi⟩

/-! ## from_ranges -/

/-- The step, the center, and whether the origin is at the center, for one range, grid.py 219–234. -/
def rangeParams (r : List K) (h : r ≠ []) : K × K × Bool :=
  have hl : 0 < r.length := List.length_pos_iff.mpr h
  let size := r.length
  let first := r[0]
  let beforeCenter := r[(size - 1) / 2]'(by omega)
  -- rng[-int(size / 2)], where -0 is the first element
  let afterCenter := if h2 : size / 2 = 0 then r[0] else r[size - size / 2]'(by omega)
  let last := r[size - 1]'(by omega)
  let oac : Bool := |beforeCenter - afterCenter| ≤ |last - first|
  let extentM1 := b2k oac * (last - first) + (1 - b2k oac) * (beforeCenter - afterCenter)
  let singleton : Bool := size ≤ 1
  let step := extentM1 / ((size : K) - 1 + b2k singleton)
  let odd : Bool := size % 2 = 1
  let center := b2k oac * (b2k odd * beforeCenter + (1 - b2k odd) * afterCenter) + (1 - b2k oac) * first
  (step, center, oac)

/-- `Grid.from_ranges`, grid.py 201–236, for raveled ranges of one data type. Slices, scalars and multi-dimensional arrays were
converted to such ranges in lines 212–217. -/
def fromRanges (dt : DType) (ranges : Fin n → List K) : Except PyErr (Obj n K) :=
  if h : ∀ i, ranges i ≠ [] then
    init true
      { shape := some ⟨.int, fun i => ((ranges i).length : K)⟩,
        step := some ⟨.float, fun i => (rangeParams (ranges i) (h i)).1⟩,
        center := some ⟨dt, fun i => (rangeParams (ranges i) (h i)).2.1⟩,
        originAtCenter := fun i => (rangeParams (ranges i) (h i)).2.2 }
  else .error .attributeError

/-! ## Selection of axes -/

/-- The axes of a grid with the given indices as a new grid, grid.py 381–385. -/
def select (g : Obj n K) (axes : List (Fin n)) : Except PyErr (Obj axes.length K) :=
  rebuild true (fun j => g.shape (axes.get j)) ⟨g.dt, fun j => g.step (axes.get j)⟩ ⟨g.dt, fun j => g.center (axes.get j)⟩
    (fun j => g.flat (axes.get j)) (fun j => g.originAtCenter (axes.get j)) (fun j => g.centerAtIndex (axes.get j))

/-- `axis % self.ndim` for all axes, grid.py 376–377. -/
def modAxes (n : ℕ) (hn : 0 < n) (axes : List ℤ) : List (Fin n) :=
  axes.map fun (a : ℤ) => ⟨(a % (n : ℤ)).toNat, by have := Int.emod_lt_of_pos a (by omega : (0 : ℤ) < n); have := Int.emod_nonneg a (by omega : (n : ℤ) ≠ 0); omega⟩

/-- `Grid.project`, grid.py 349–387, for index lists; slices were converted to index lists in lines 361–369.
`% 0` raises a `ZeroDivisionError` for a grid without axes. -/
def project (g : Obj n K) (keep : Option (List ℤ)) (remove : List ℤ) : Except PyErr (Σ m, Obj m K) :=
  let keep : List ℤ := keep.getD ((List.range n).map (fun (i : ℕ) => (i : ℤ)))
  if ∃ a ∈ keep, (n : ℤ) ≤ a ∨ a < -n then .error .indexError
  else if hn : 0 < n then
    let remove := modAxes n hn remove
    let kept := (modAxes n hn keep).filter (fun a => a ∉ remove)
    match select g kept with
    | .error e => .error e
    | .ok r => .ok ⟨kept.length, r⟩
  else if remove ≠ [] then .error .zeroDivision
  else match init true ({ shape := some ⟨.float, fun i => i.elim0⟩ } : Args 0 K) with
    | .error e => .error e
    | .ok r => .ok ⟨0, r⟩

/-- `Grid.transpose`, grid.py 343–347. -/
def transpose (g : Obj n K) (axes : Option (List ℤ)) : Except PyErr (Σ m, Obj m K) :=
  project g (some (axes.getD ((List.range n).reverse.map (fun (i : ℕ) => (i : ℤ))))) []

/-- The assignment `all_axes[index] = value` for one element; NumPy checks the bounds. -/
def assignAxis (all : List ℤ) (index value : ℤ) : Except PyErr (List ℤ) :=
  match pyIndex all.length index with
  | .error e => .error e
  | .ok i => .ok (all.set i.val value)

/-- `Grid.swapaxes`, grid.py 336–341, for a list of axes.  An empty list is converted to an array of floating point numbers (338), which is not accepted as index (340). -/
def swapaxes (g : Obj n K) (axes : List ℤ) : Except PyErr (Σ m, Obj m K) :=
  if axes = [] then .error .indexError
  else match (axes.zip axes.reverse).foldlM (fun all p => assignAxis all p.1 p.2) ((List.range n).map (fun (i : ℕ) => (i : ℤ))) with
  | .error e => .error e
  | .ok all => transpose g (some all)

/-- The axes that the methods accept, grid.py 336, 343, 349–350: a list, or a slice, given by the start, the end and the step. -/
inductive AxesArg
  | list (axes : List ℤ)
  | slice (start stop step : Option ℤ)

/-- `Grid.swapaxes`, grid.py 336–341: a slice is converted to an array with a Python object (338), which is not accepted as index (340). -/
def swapaxesArg (g : Obj n K) : AxesArg → Except PyErr (Σ m, Obj m K)
  | .list axes => swapaxes g axes
  | .slice _ _ _ => .error .indexError

/-! ## Equality and hash -/

/-- `np.all(a == b)` for vectors, grid.py 610–613: vectors of a single element are broadcast, other lengths do not match. -/
def allEq {α : Type} [DecidableEq α] {m : ℕ} (a : Fin n → α) (b : Fin m → α) : Except PyErr Bool :=
  if h : n = m then .ok (decide (∀ i : Fin n, a i = b (i.cast h)))
  else if h : n = 1 then .ok (decide (∀ j : Fin m, a ⟨0, by omega⟩ = b j))
  else if h : m = 1 then .ok (decide (∀ i : Fin n, a i = b ⟨0, by omega⟩))
  else .error .valueError

/-- `Grid.__eq__` of two objects of the same class, grid.py 608–613, with the short-circuit evaluation of `and`. -/
def eq {m : ℕ} (g : Obj n K) (h : Obj m K) : Except PyErr Bool := do
  unless ← allEq g.shape h.shape do return false
  unless ← allEq g.step h.step do return false
  unless ← allEq g.center h.center do return false
  unless ← allEq g.flat h.flat do return false
  unless ← allEq g.centerAtIndex h.centerAtIndex do return false
  unless ← allEq g.originAtCenter h.originAtCenter do return false
  return decide (g.dt = h.dt)

/-- What `repr` prints of one attribute, grid.py 573–582 and 598–603: a scalar, or an array of values. -/
inductive ReprAttr (α : Type)
  | scalar (x : α)
  | array (xs : List α)
  deriving DecidableEq

/-- A scalar if the grid is not multi-dimensional, an array otherwise, grid.py 577–579. -/
def reprAttr {α : Type} (multidimensional : Bool) (x : Fin n → α) : ReprAttr α :=
  if multidimensional then .array ((List.finRange n).map x)
  else match (List.finRange n).map x with
    | [] => .array []
    | y :: _ => .scalar y

/-- The text of `repr(grid)` as a data structure, grid.py 598–603: `hash(grid)` is a function of this, grid.py 615–616. -/
structure ReprText (K : Type) where
  shape : ReprAttr ℕ
  step : ReprAttr K
  center : ReprAttr K
  flat : ReprAttr Bool
  centerAtIndex : ReprAttr Bool
  originAtCenter : ReprAttr Bool
  dtype : DType
  deriving DecidableEq

/-- `Grid.__repr__`, grid.py 598–603. -/
def reprOf (g : Obj n K) : ReprText K :=
  ⟨reprAttr g.multidimensional g.shape, reprAttr g.multidimensional g.step, reprAttr g.multidimensional g.center,
   reprAttr g.multidimensional g.flat, reprAttr g.multidimensional g.centerAtIndex,
   reprAttr g.multidimensional g.originAtCenter, g.dt⟩

/-- `Grid.__hash__`, grid.py 615–616, for an arbitrary hash function of strings. -/
def hashOf {H : Type} (hash : ReprText K → H) (g : Obj n K) : H := hash (reprOf g)

/-! ## MutableGrid -/

/-- The attributes of a `MutableGrid`, grid.py 652–766. The data types of `_step` and `_center` can differ after an assignment. -/
structure MObj (n : ℕ) (K : Type) where
  shape : Fin n → ℤ
  step : Vec n K
  center : Vec n K
  flat : Fin n → Bool
  originAtCenter : Fin n → Bool
  centerAtIndex : Fin n → Bool

/-- `arr.astype(dtype)`. -/
def Vec.astype (x : Vec n K) : DType → Vec n K
  | .float => ⟨.float, x.v⟩
  | .int => match x.dt with
    | .int => x
    | .float => ⟨.int, fun i => truncK (x.v i)⟩

/-- `MutableGrid.dtype`, grid.py 743–746. -/
def MObj.dtype (g : MObj n K) : DType := g.step.dt.promote g.center.dt

/-- `first` of a `MutableGrid`, grid.py 393–401 and 732–737, with the data type of the result. -/
def MObj.first (g : MObj n K) : Vec n K :=
  let notAtIndex (i : Fin n) : Bool := ¬ g.centerAtIndex i ∧ g.shape i % 2 = 0
  let result (i : Fin n) : K := g.center.v i - g.step.v i * ((g.shape i / 2 : ℤ) : K)
  if ∃ i, notAtIndex i then
    if ∀ j, pyMod (g.step.v j) 2 = 0 then
      ⟨g.center.dt.promote g.step.dt, fun i => result i + b2k (notAtIndex i) * (⌊g.step.v i / 2⌋ : K)⟩
    else ⟨.float, fun i => result i + b2k (notAtIndex i) * (g.step.v i / 2)⟩
  else ⟨g.center.dt.promote g.step.dt, result⟩

/-- The assignments and the in-place operations that a `MutableGrid` offers. -/
inductive MOp (n : ℕ) (K : Type)
  | setShape (s : Fin n → ℤ)
  | setStep (s : Vec n K)
  | setCenter (c : Vec n K)
  | setFirst (f : Vec n K)
  | setFlat (b : Fin n → Bool)
  | setOrigin (b : Fin n → Bool)
  | setDtype (t : DType)
  | iadd (x : Vec n K)
  | isub (x : Vec n K)
  | imul (x : Vec n K)

/-- NumPy's in-place arithmetic `arr op= x`: raises a `UFuncTypeError` if a float result would go into an integer array. -/
def inPlace (op : K → K → K) (arr x : Vec n K) : Except PyErr (Vec n K) :=
  if arr.dt = .int ∧ x.dt = .float then .error .typeError
  else .ok ⟨arr.dt, fun i => op (arr.v i) (x.v i)⟩

/-- The setter of `step`, grid.py 703–706. -/
def MObj.setStep (g : MObj n K) (s : Vec n K) : MObj n K :=
  let g := { g with step := s }
  { g with center := g.center.astype g.dtype }

/-- The setter of `center`, grid.py 712–714. -/
def MObj.setCenter (g : MObj n K) (c : Vec n K) : MObj n K := { g with center := c.astype g.dtype }

/-- The setter of `first`, grid.py 739–741. -/
def MObj.setFirst (g : MObj n K) (f : Vec n K) : MObj n K :=
  { g with center := ⟨(g.center.dt.promote f.dt).promote g.first.dt, fun i => g.center.v i + f.v i - g.first.v i⟩ }

/-- One operation on a `MutableGrid`. The result is the new state, and what the statement leaves in the variable: `some` grid for
an assignment to a property, `none` (Python's `None`) for an in-place operator, since these do not return the object (754–762). -/
def MObj.apply (g : MObj n K) : MOp n K → Except PyErr (MObj n K × Option (MObj n K))
  | .setShape s => let g' := { g with shape := s }; .ok (g', some g')
  | .setStep s => let g' := g.setStep s; .ok (g', some g')
  | .setCenter c => let g' := g.setCenter c; .ok (g', some g')
  | .setFirst f => let g' := g.setFirst f; .ok (g', some g')
  | .setFlat b => let g' := { g with flat := b }; .ok (g', some g')
  | .setOrigin b => let g' := { g with originAtCenter := b }; .ok (g', some g')
  | .setDtype t => let g' := { g with step := g.step.astype t, center := g.center.astype t }; .ok (g', some g')
  -- 754-755
  | .iadd x => match inPlace (· + ·) g.center x with
    | .error e => .error e
    | .ok c => .ok (g.setCenter c, none)
  -- 761-762
  | .isub x => match inPlace (· - ·) g.center x with
    | .error e => .error e
    | .ok c => .ok (g.setCenter c, none)
  -- 757-759
  | .imul x => match inPlace (· * ·) g.step x with
    | .error e => .error e
    | .ok s =>
      let g := g.setStep s
      match inPlace (· * ·) g.center x with
      | .error e => .error e
      | .ok c => .ok (g.setCenter c, none)

/-- A sequence of statements on a variable that is bound to a `MutableGrid`. After an in-place operator the variable holds `None`
and every further statement fails with an `AttributeError`. -/
def runOps : Option (MObj n K) → List (MOp n K) → Except PyErr (Option (MObj n K))
  | v, [] => .ok v
  | none, _ :: _ => .error .attributeError
  | some g, op :: ops => match g.apply op with
    | .error e => .error e
    | .ok (_, v) => runOps v ops

end

end Verif.Grid
