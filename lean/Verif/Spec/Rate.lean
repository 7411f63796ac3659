import Mathlib.Analysis.SpecialFunctions.Log.Basic
import Mathlib.Analysis.Real.Sqrt

/-!
# How fast the iteration converges at least
-/

namespace Verif.Spec.Solver

/-- The part of the square of the error that an iteration removes at least, for bias `A`, contrast `σ`, and absorption `δ`. -/
noncomputable def gainOf (A σ δ : ℝ) : ℝ := 2 * δ * (A - σ) ^ 3 / (A ^ 3 * (A - σ + 4 * δ))

/-- The factor by which an iteration reduces the error at least. -/
noncomputable def rateOf (A σ δ : ℝ) : ℝ := Real.sqrt (1 - gainOf A σ δ)

/-- The number of iterations after which `solve` has returned, for a relative tolerance `rtol`. -/
noncomputable def iterationsOf (A σ δ rtol : ℝ) : ℝ := 1 + A ^ 3 * (A - σ + 4 * δ) / (δ * (A - σ) ^ 3) * Real.log ((2 + rtol) / rtol)

/-- The number of iterations after which `solve` has returned even if there are rounding errors. -/
noncomputable def iterationsRounded (A σ δ rtol : ℝ) : ℝ := 1 + A ^ 3 * (A - σ + 4 * δ) / (δ * (A - σ) ^ 3) * Real.log (2 * (2 + rtol) / rtol)

end Verif.Spec.Solver
