import Verif.Model.Subpixel
import Verif.Model.MatOp

/-!
# Model of the arguments `axes` and `ndim` of `Reference` (python/macromax/utils/ft/subpixel.py 124–280)

`Model/Subpixel.lean` is the registration of images over all their axes.  This is what happens to the shapes of the arrays for other arguments.  Values are left out, but for the position of the peak.
-/

namespace Verif.Subpixel

open Verif

/-- The shape of the result of a point-wise operation on two arrays, from the last axis to the first. -/
def broadcastRev : List ℕ → List ℕ → Except PyErr (List ℕ)
  | [], s => .ok s
  | s, [] => .ok s
  | a :: s, b :: t => if a = b ∨ b = 1 then (broadcastRev s t).map (a :: ·) else if a = 1 then (broadcastRev s t).map (b :: ·) else .error .valueError

/-- The shape of the result of a point-wise operation on two arrays. -/
def broadcastShapes (s t : List ℕ) : Except PyErr (List ℕ) := (broadcastRev s.reverse t.reverse).map List.reverse

/-- The axes as numbers that are not negative, for an array with `n` axes. -/
def axisPositions (n : ℕ) (axes : List ℤ) : Except PyErr (List ℕ) := axes.mapM (Mat.position n)

/-- `np.mean(array, axis=tuple(axes)).shape`: axes cannot be given twice. -/
def meanShape (shape : List ℕ) (axes : List ℤ) : Except PyErr (List ℕ) :=
  match axisPositions shape.length axes with
  | .error e => .error e
  | .ok pos => if pos.Nodup then .ok (((List.range shape.length).filter (· ∉ pos)).map fun i => shape.getD i 0) else .error .valueError

/-- A `Reference`: `__roll_axes` and the shape of `__reference_ft_conj` (164, 174). -/
structure RefShape where
  axes : List ℤ
  shape : List ℕ
  deriving DecidableEq, Repr

/-- subpixel.py 128–176: `Reference(image, axes=axes, ndim=ndim)` for an image with the given shape, or for its Fourier transform.  The number of axes is None when nothing is given, which has no
negative (163). -/
def newReference (image : Option (List ℕ)) (axes : Option (List ℤ)) (ndim : Option ℕ) : Except PyErr RefShape :=
  match axes.map List.length, ndim, image.map List.length with
  | none, none, none => .error .typeError
  | na, nd, ni =>
    let n := na.getD (nd.getD (ni.getD 0))
    let axes := axes.getD (defaultAxes n)
    let shape := image.getD (List.replicate n 1)
    match meanShape shape axes with
    | .error e => .error e
    | .ok norm => match broadcastShapes shape norm with
      | .error e => .error e
      | .ok s => .ok ⟨axes, s⟩

/-- The ranges of the argument `precision`: 0, other whole numbers, at least 1/2, and less than 1/2. -/
inductive Precision
  | zero
  | whole
  | half
  | fine (M : ℕ)
  deriving DecidableEq

/-- subpixel.py 272–280: the shape of `zoomed`, for the given numbers of the axes.  The ranges of `input_grid` have the sizes in `working`, and are indexed with the number of the axis of the array. -/
def zoomAxes (M : ℕ) (working : List ℕ) (pos : List ℕ) (shape : List ℕ) : Except PyErr (List ℕ) :=
  pos.foldlM (fun s i => if i < working.length then (matmulShape M (working.getD i 0) (swapaxes i s)).map (swapaxes i) else .error .indexError) shape

/-- subpixel.py 226–227: whether the indices along an axis with `s` samples, around the center `w`, are within an array with `2 w` elements.  Negative indices count from the end. -/
def indexFits (w s : ℕ) : Prop := s / 2 ≤ 3 * w ∧ s - s / 2 ≤ w

instance (w s : ℕ) : Decidable (indexFits w s) := inferInstanceAs (Decidable (_ ∧ _))

/-- subpixel.py 203–253 for the shape of the cross correlation: the number of elements of `shift`, and the shape of `cross_corr_max`. -/
def peakShape (axes : List ℤ) (cross : List ℕ) (precision : Precision) : Except PyErr (ℕ × List ℕ) :=
  match axisPositions cross.length axes with
  | .error e => .error e
  | .ok pos =>
    let working := pos.map fun i => cross.getD i 0
    match precision with
    | .zero => (meanShape cross axes).map fun s => (axes.length, s)  -- 207–209
    | .whole =>  -- 211–218: an array with one element per axis of the image is compared with one with one element per axis to operate on
      if cross.prod = 0 then .error .valueError else if cross.length ≠ axes.length then .error (if axes.length = 1 then .indexError else .valueError) else .ok (cross.length, [])
    | .half =>  -- 220–237
      if cross.prod = 0 then .error .valueError
      else if cross.length ≠ axes.length then .error (if axes.length = 1 then .indexError else .valueError)
      else if List.Forall₂ indexFits working cross then .ok (cross.length, []) else .error .indexError
    | .fine M =>  -- 220–253
      if cross.prod = 0 then .error .valueError
      else if cross.length ≠ axes.length then .error (if axes.length = 1 then .indexError else .valueError)
      else if List.Forall₂ indexFits working cross then (zoomAxes M working pos cross).map fun s => (s.length, []) else .error .indexError

/-- subpixel.py 182–266: `reference.register(subject)` for a subject with the given shape: the number of elements of `shift`.  The truth value of an array with several elements (258) raises a
ValueError. -/
def registerShape (r : RefShape) (subject : List ℕ) (precision : Precision) : Except PyErr ℕ :=
  match axisPositions subject.length r.axes with
  | .error e => .error e
  | .ok _ => match broadcastShapes r.shape subject with
    | .error e => .error e
    | .ok cross => match peakShape r.axes cross precision with
      | .error e => .error e
      | .ok (n, max) => match meanShape subject r.axes with
        | .error e => .error e
        | .ok _ => if max.prod = 1 then .ok n else .error .valueError

/-- `Reference(image, axes=axes, ndim=ndim).register(subject)` -/
def registerArgs (image : Option (List ℕ)) (axes : Option (List ℤ)) (ndim : Option ℕ) (subject : List ℕ) (precision : Precision) : Except PyErr ℕ :=
  match newReference image axes ndim with
  | .error e => .error e
  | .ok r => registerShape r subject precision

/-- subpixel.py 216–218: `shift` for the position of the peak of the correlation, to the nearest pixel. -/
def wholeShift (axes : List ℤ) (cross location : List ℕ) : Except PyErr (List ℕ) :=
  match axisPositions cross.length axes with
  | .error e => .error e
  | .ok pos => .ok (List.zipWith (fun l i => if cross.getD i 0 / 2 < l then l + cross.getD i 0 else l) location pos)

end Verif.Subpixel
