import Verif.Num

/-!
# Model of `python/macromax/utils/dim.py`

An array is its shape together with its elements in row-major (C) order, which is the order in which
`np.reshape` reads and writes elements whatever the memory layout.  Element values are of an arbitrary type.
-/

namespace Verif.Dim

/-- A numpy array: shape and elements in C order.  (Simplification: strides, i.e. whether the result is a view or a
copy, are not modelled.) -/
structure ND (α : Type) where
  shape : List ℕ
  data : List α
deriving DecidableEq

variable {α : Type}

/-- An array as numpy would hold it: as many elements as the product of its shape. -/
def ND.WF (a : ND α) : Prop := a.data.length = a.shape.prod

/-- `arr.ndim` -/
def ND.ndim (a : ND α) : ℕ := a.shape.length

/-- `arr.reshape(shape)`, used in dim.py lines 42 and 48.  The shapes are slices of existing shapes, hence
never contain a negative entry; numpy raises `ValueError` when the number of elements differs. -/
def reshape (a : ND α) (shape : List ℕ) : Except PyErr (ND α) :=
  if shape.prod = a.data.length then .ok ⟨shape, a.data⟩ else .error .valueError

/-- numpy's `normalize_axis_index`: negative axes count from the end. -/
def normAxis (ax : ℤ) (n : ℕ) : ℕ := (if ax < 0 then ax + n else ax).toNat

/-- The shape constructed by `np.expand_dims`: `[1 if ax in axis else next(shape_it) for ax in range(out_ndim)]`. -/
def fillShape (axes : List ℕ) : List ℕ → List ℕ → List ℕ
  | [], _ => []
  | ax :: axs, sh =>
    if ax ∈ axes then 1 :: fillShape axes axs sh
    else match sh with
      | [] => 0 :: fillShape axes axs []  -- `next` of an exhausted iterator: never reached for distinct valid axes
      | d :: ds => d :: fillShape axes axs ds

/-- `np.expand_dims(arr, axis)`, used in dim.py lines 40 and 46.  (The axes passed there are always distinct and in
range so that numpy's checks on these do not fire.) -/
def expandDims (a : ND α) (axis : List ℤ) : Except PyErr (ND α) :=
  let outNdim := axis.length + a.ndim
  reshape a (fillShape (axis.map fun ax => normAxis ax outNdim) (List.range outNdim) a.shape)

/-- Python's `seq[start:]` -/
def sliceFrom (l : List ℕ) (start : ℤ) : List ℕ :=
  if 0 ≤ start then l.drop start.toNat else l.drop (l.length - (-start).toNat)

/-- Python's `seq[:stop]` -/
def sliceTo (l : List ℕ) (stop : ℤ) : List ℕ :=
  if 0 ≤ stop then l.take stop.toNat else l.take (l.length - (-stop).toNat)

/-- `range(a, b)` of Python integers. -/
def pyRange (a b : ℤ) : List ℤ := (List.range (b - a).toNat).map fun (i : ℕ) => a + i

/-- dim.py lines 28–36: work out `left` and `right` from the total number of dimensions. -/
def padding (arrNdim : ℕ) (left right ndim : Option ℤ) : Option ℤ × Option ℤ :=
  match ndim with
  | none => (left, right)
  | some n =>
    match right with
    | none => (left, some (n - arrNdim - left.getD 0))
    | some r =>
      match left with
      | none => (some (n - arrNdim - r), some r)
      | some l => (some l, some r)

/-- dim.py lines 37–42 -/
def addLeft (a : ND α) : Option ℤ → Except PyErr (ND α)
  | none => .ok a
  | some left =>
    if left > 0 then expandDims a (pyRange 0 left)
    else if left < 0 then reshape a (sliceFrom a.shape (-left))
    else .ok a

/-- dim.py lines 43–48 -/
def addRight (a : ND α) : Option ℤ → Except PyErr (ND α)
  | none => .ok a
  | some right =>
    if right > 0 then expandDims a (pyRange (-right) 0)
    else if right < 0 then reshape a (sliceTo a.shape (-right))
    else .ok a

/-- dim.py lines 8–50: `add(arr, left, right, ndim)` -/
def add (a : ND α) (left right ndim : Option ℤ) : Except PyErr (ND α) := do
  let p := padding a.ndim left right ndim
  let a ← addLeft a p.1
  addRight a p.2

/-- dim.py lines 53–64: `right_to(arr, ndim)` -/
def rightTo (a : ND α) (ndim : ℤ) : Except PyErr (ND α) := add a none none (some ndim)

/-- dim.py lines 67–77: `left_to(arr, ndim)` -/
def leftTo (a : ND α) (ndim : ℤ) : Except PyErr (ND α) := add a none (some 0) (some ndim)

/-- dim.py lines 80–97: `to_axis(arr, axis, ndim)`.  Python's `%` by zero raises `ZeroDivisionError`. -/
def toAxis (a : ND α) (axis : ℤ) (ndim : Option ℤ) : Except PyErr (ND α) :=
  let ndim := ndim.getD (a.ndim + max axis (-axis - 1))
  if ndim = 0 then .error .zeroDivision
  else add a (some (Int.fmod axis ndim)) none (some ndim)

end Verif.Dim
