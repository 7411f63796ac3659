import Mathlib.Algebra.Order.Field.Basic
import Mathlib.Algebra.Order.Floor.Ring

/-!
# Specification of grids, independent of the model

These definitions transcribe the documentation of `Grid` (grid.py 31–41), not the code.
-/

namespace Verif.Spec.Grid

variable {K : Type} [Field K]

/-- The position of the centre in units of the step, counted from the first sample: at index `N // 2`, or halfway between the first
and the last sample if the centre is not aligned to a sample. -/
def centerPos (N : ℕ) (centerAtIndex : Bool) : K :=
  if centerAtIndex then ((N / 2 : ℕ) : K) else ((N : K) - 1) / 2

/-- "center == first + shape // 2 * step if center_at_index, center == first + (shape - 1) / 2 * step if not". -/
def CenterRelation (N : ℕ) (step first center : K) (centerAtIndex : Bool) : Prop :=
  center = first + centerPos N centerAtIndex * step

/-- "shape * step == last + step - first if include_last, shape * step == last - first if not". -/
def LastRelation (N : ℕ) (step first last : K) (includeLast : Bool) : Prop :=
  if includeLast then (N : K) * step = last + step - first else (N : K) * step = last - first

/-- "shape * step == extent". -/
def ExtentRelation (N : ℕ) (step extent : K) : Prop := (N : K) * step = extent

/-- The first sample of the grid with `N` samples, spacing `step`, and the given centre. -/
def firstSample (N : ℕ) (step center : K) (centerAtIndex : Bool) : K := center - centerPos N centerAtIndex * step

/-- The samples in increasing order of their index. -/
def samples (N : ℕ) (step center : K) (centerAtIndex : Bool) : List K :=
  (List.range N).map fun (j : ℕ) => firstSample N step center centerAtIndex + j * step

/-- The order in which a discrete Fourier transform lists the indices of `N` samples: the index `N // 2` comes first, then the
following ones, then the first ones. -/
def fftOrder (N : ℕ) : List ℕ := (List.range N).map fun (j : ℕ) => (j + N / 2) % N

/-- The frequencies of the discrete Fourier transform of `N` samples over the given extent: 0, 1, ..., -2, -1 times 1 / extent;
for even `N` the frequency at `N / 2` is the negative one. -/
def fftFrequencies (N : ℕ) (extent : K) : List K :=
  (List.range N).map fun (j : ℕ) => (((if 2 * j < N then (j : ℤ) else (j : ℤ) - N) : ℤ) : K) / extent

end Verif.Spec.Grid
