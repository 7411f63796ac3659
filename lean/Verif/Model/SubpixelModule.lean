import Verif.Model.Subpixel

/-!
# Model of the function `register` (python/macromax/utils/ft/subpixel.py 357–377)

The images are arrays with an order in memory, because the default images are made with `np.zeros_like`, which keeps the order of the array that is given, and changed through `ravel()`, which is a copy unless
the elements are in raster order.  As in `Model/Subpixel.lean`: the images have the same shape, and one or two axes if the precision is less than 1/2.  The call without images is left out.
-/

namespace Verif.Subpixel

open Verif.Fourier

variable {d : ℕ} {N : Fin d → ℕ}

/-- An array: its elements, and its axes from the one with the largest to the one with the smallest distance in memory between neighbouring elements. -/
structure Image (N : Fin d → ℕ) where
  value : Idx N → ℂ
  order : Fin d ≃ Fin d

/-- The elements of a new array with this order of its axes are in raster order (`flags.c_contiguous`).  Axes with a single element do not count. -/
def RowMajor (N : Fin d → ℕ) (order : Fin d ≃ Fin d) : Prop := ∀ i j, i < j → 1 < N (order i) → 1 < N (order j) → order i < order j

open Classical in
/-- subpixel.py 370–371 and 373–374: `np.zeros_like(image)` after `ravel()[0] = 1`. -/
noncomputable def pointLike (image : Image N) : Idx N → ℂ := fun x => if RowMajor N image.order ∧ ∀ a, (x a : ℕ) = 0 then 1 else 0

/-- The observable result of `register`: `shift`, `factor`, and `error`; None stands for a result that is not a number. -/
structure Outcome (d : ℕ) where
  shift : Fin d → ℝ
  factor : Option Factor
  error : Option ℝ

open Classical in
/-- subpixel.py 174 and 205–266 for a reference that is zero: 0 / 0 is not a number, nor is any element of the correlation, of which the first is found (212, 232, 250). -/
noncomputable def undefinedOutcome (d : ℕ) (precision : ℝ) : Outcome d :=
  ⟨fun _ => if |precision - roundHalfEven precision| ≤ 1e-8 then 0
    else if 0 < precision ∧ precision < 1 / 2 then roundHalfEven (0 / precision) * precision + (-0 + (⌈1.5 / precision⌉.toNat / 2 : ℕ)) * precision else 0, none, none⟩

open Classical in
/-- `Reference(reference_image=reference, precision=precision).register(subject)`: as `register` where this is a number.  The error of a subject that is zero is the root of 1 - (0 / 0)² (263–264). -/
noncomputable def registerImages (hN : ∀ a, 0 < N a) (reference subject : Idx N → ℂ) (precision : ℝ) : Outcome d :=
  if norm (ft reference) = 0 then undefinedOutcome d precision
  else ⟨(register hN reference subject precision).shift, some (register hN reference subject precision).factor,
    if norm (ft subject) = 0 then none else some (register hN reference subject precision).error⟩

/-- The images that are given. -/
inductive Images (N : Fin d → ℕ)
  | both (subject reference : Image N)
  | subject (subject : Image N)
  | reference (reference : Image N)

/-- subpixel.py 357–377: `register(subject, reference, precision)`; 147–148 is the default of the precision. -/
noncomputable def registerModule (hN : ∀ a, 0 < N a) (images : Images N) (precision : Option ℝ) : Outcome d :=
  match images with
  | .both subject reference => registerImages hN reference.value subject.value (precision.getD defaultPrecision)
  | .subject subject => registerImages hN (pointLike subject) subject.value (precision.getD defaultPrecision)
  | .reference reference => registerImages hN reference.value (pointLike reference) (precision.getD defaultPrecision)

end Verif.Subpixel
