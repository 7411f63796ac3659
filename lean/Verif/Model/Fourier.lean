import Mathlib.Analysis.SpecialFunctions.Complex.Log
import Mathlib.Algebra.BigOperators.Pi
import Mathlib.Data.Fintype.BigOperators

/-!
# Model of the Fourier transforms of the back end (python/macromax/backend/numpy.py, torch.py)

The transforms of the back ends are those of NumPy, FFTW or PyTorch over the spatial axes.  They are modelled by the definition of the
multi-dimensional discrete Fourier transform in the documentation of `numpy.fft`, with exact arithmetic.
-/

namespace Verif.Fourier

open Complex

variable {d : ℕ}

/-- The sample points of a grid with shape `N`, as indices of an array (backend/__init__.py 45–56, the final axes of all arrays). -/
abbrev Idx (N : Fin d → ℕ) : Type := ∀ a : Fin d, Fin (N a)

/-- The factor `exp(-2πi k x / n)` of a transform of length `n`. -/
noncomputable def twiddle (n k x : ℕ) : ℂ := exp (-(2 * Real.pi * I * ((k : ℂ) * (x : ℂ) / (n : ℂ))))

/-- The factor `exp(+2πi k x / n)` of an inverse transform of length `n`. -/
noncomputable def untwiddle (n k x : ℕ) : ℂ := exp (2 * Real.pi * I * ((k : ℂ) * (x : ℂ) / (n : ℂ)))

/-- backend/numpy.py 67–75, 92, 98–117, backend/torch.py `ft`: `fftn(_, axes=self.ft_axes)` for one component of the field. -/
noncomputable def ft {N : Fin d → ℕ} (f : Idx N → ℂ) (k : Idx N) : ℂ :=
  ∑ x : Idx N, f x * ∏ a, twiddle (N a) (k a) (x a)

/-- backend/numpy.py 78–87, 93, 119–131, backend/torch.py `ift`: `ifftn(_, axes=self.ft_axes)` for one component of the field. -/
noncomputable def ift {N : Fin d → ℕ} (F : Idx N → ℂ) (x : Idx N) : ℂ :=
  (∑ k : Idx N, F k * ∏ a, untwiddle (N a) (k a) (x a)) / ∏ a, (N a : ℂ)

/-- backend/__init__.py 306–319: `convolve` for an operation on fields with `n` components. -/
noncomputable def convolve {n m : ℕ} {N : Fin d → ℕ} (op : (Fin n → Idx N → ℂ) → (Fin m → Idx N → ℂ))
    (f : Fin n → Idx N → ℂ) : Fin m → Idx N → ℂ :=
  fun c => ift (op (fun c' => ft (f c')) c)

end Verif.Fourier
