import Verif.Model.Fourier
import Verif.Model.Assign

/-!
# Model of the Fourier transforms of `BackEndNumpy` by the shape of the array (python/macromax/backend/numpy.py 34–96, 113–137)

The grid has at least one dimension, and arrays have the axes (row, column, space ...) and elements.  Transforms are as in `Model/Fourier.lean`.  That FFTW uses the same arrays over again
is in `Model/WorkArrays.lean`.
-/

namespace Verif.FtArray

open Verif Verif.Assign Verif.Fourier

variable {d : ℕ}

/-- `E.shape[2:]`, which is `E.shape[-ndim:]`. -/
def space (E : Field d ℂ) : Fin d → ℕ := fun a => E.shape a.succ.succ

/-- The index of an element. -/
def place (r c : ℕ) (x : Fin d → ℕ) : Fin (d + 2) → ℕ := Fin.cons r (Fin.cons c x)

/-- `fftn(E, axes=self.ft_axes)` -/
noncomputable def fftn (E : Field d ℂ) : Field d ℂ :=
  ⟨E.shape, fun i => ∑ x : Idx (space E), E.val (place (i 0) (i 1) fun a => x a) * ∏ a, twiddle (space E a) (i a.succ.succ) (x a)⟩

/-- `ifftn(E, axes=self.ft_axes)` -/
noncomputable def ifftn (E : Field d ℂ) : Field d ℂ :=
  ⟨E.shape, fun i => (∑ k : Idx (space E), E.val (place (i 0) (i 1) fun a => k a) * ∏ a, untwiddle (space E a) (k a) (i a.succ.succ)) / ∏ a, (space E a : ℂ)⟩

/-- 46–96: whether the module `pyfftw` is found. -/
inductive Library
  | fftw
  | stock

/-- 69, 80: the `assert` statements. -/
inductive AssertionError
  | assertion

/-- 67–76, 92: `ft`, for a grid with the shape `N`.  Arrays of another number of rows are transformed by `ft.fftn` (74). -/
noncomputable def ft (lib : Library) (N : Fin d → ℕ) (E : Field d ℂ) : Except AssertionError (Field d ℂ) :=
  match lib with
  | .stock => .ok (fftn E)
  | .fftw => if ∃ a, 1 < space E a then if space E = N then .ok (fftn E) else .error .assertion else .ok E

/-- 78–87, 93: `ift`. -/
noncomputable def ift (lib : Library) (N : Fin d → ℕ) (E : Field d ℂ) : Except AssertionError (Field d ℂ) :=
  match lib with
  | .stock => .ok (ifftn E)
  | .fftw => if ∃ a, 1 < space E a then if space E = N then .ok (ifftn E) else .error .assertion else .ok E

end Verif.FtArray
