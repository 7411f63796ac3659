import Mathlib.Data.Real.Basic

/-!
# The 1-2-5 series (property C13)
-/

namespace Verif.Spec.Round125

/-- The positive numbers 1, 2, or 5 times an integer power of ten. -/
def InSeries (y : ℝ) : Prop := ∃ n : ℤ, y = 1 * 10 ^ n ∨ y = 2 * 10 ^ n ∨ y = 5 * 10 ^ n

end Verif.Spec.Round125
