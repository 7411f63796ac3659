import Verif.Spec.Refinement

/-!
# Materials and sources that vary smoothly (properties C130 and C132)
-/

namespace Verif.Spec.Existence

open Verif.Spec.Continuous Verif.Spec.Refinement

variable {d : ℕ}

/-- The function is the sum of its Fourier series, which converges absolutely, as do the series of its derivatives of order `n`. -/
structure HasOrderSeries (n : ℕ) (period : Fin d → ℝ) (f : Point → ℂ) (a : (Fin d → ℤ) → ℂ) : Prop where
  value : ∀ r, f r = ∑' j, a j * wave (harmonic period j) r
  summable : Summable fun j => ‖a j‖
  highest : ∀ c, Summable fun j => |harmonic period j c| ^ n * ‖a j‖

/-- A function that is periodic and varies smoothly, to the order `n`. -/
def SmoothTo (n : ℕ) (period : Fin d → ℝ) (f : Point → ℂ) : Prop := ∃ a, HasOrderSeries n period f a

/-- A function that is periodic and varies smoothly. -/
abbrev Smooth (period : Fin d → ℝ) (f : Point → ℂ) : Prop := SmoothTo 5 period f

/-- The derivatives up to the second have themselves derivatives of the order `n`. -/
def Steep (n : ℕ) (period : Fin d → ℝ) (a : (Fin d → ℤ) → ℂ) : Prop := ∀ b, Summable fun j => |harmonic period j b| ^ n * ((1 + squared (harmonic period j)) * ‖a j‖)

end Verif.Spec.Existence
