import Mathlib.Analysis.SpecialFunctions.Complex.Log
import Mathlib.Data.Fintype.BigOperators

/-!
# Circular shifts by pixels and by fractions of pixels
-/

namespace Verif.Spec.Subpixel

open Complex

variable {d : ℕ} {N : Fin d → ℕ}

/-- Position `i` in a periodic array of `n` elements. -/
def wrap (n : ℕ) (h : 0 < n) (i : ℤ) : Fin n := ⟨(i % n).toNat, by have := Int.emod_lt_of_pos i (Int.natCast_pos.2 h); have := Int.emod_nonneg i (by omega : (n : ℤ) ≠ 0); omega⟩

/-- `numpy.roll(f, shift, axis=all)`: element `x` of the result is element `x - shift` of `f`, circularly. -/
def circular {α : Type} (f : (∀ a, Fin (N a)) → α) (s : Fin d → ℤ) : (∀ a, Fin (N a)) → α :=
  fun x => f fun a => wrap (N a) (Nat.zero_lt_of_lt (x a).isLt) (((x a : ℕ) : ℤ) - s a)

/-- The number of periods of component `k` of the Fourier transform of `n` samples, counted such that it is at most half of the samples. -/
def cycles (n k : ℕ) : ℤ := if 2 * k < n then k else (k : ℤ) - n

/-- The value at the position `x`, between the samples, of the trigonometric function with the Fourier components `F`. -/
noncomputable def interpolate (F : (∀ a, Fin (N a)) → ℂ) (x : Fin d → ℝ) : ℂ :=
  (∑ k : ∀ a, Fin (N a), F k * exp (2 * Real.pi * I * ((∑ a, cycles (N a) (k a) * x a / N a : ℝ) : ℂ))) / ∏ a, (N a : ℂ)

/-- The sum of squares of an image. -/
noncomputable def energy (f : (∀ a, Fin (N a)) → ℂ) : ℝ := ∑ x, ‖f x‖ ^ 2

end Verif.Spec.Subpixel
