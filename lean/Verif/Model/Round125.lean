import Verif.Num
import Mathlib.Analysis.SpecialFunctions.Log.Base
import Mathlib.Analysis.SpecialFunctions.Pow.Real

/-!
# Model of `python/macromax/utils/round125.py`
-/

namespace Verif.Round125

/-- round125.py lines 12–21: the result for one array element (the function works element by element).
Floating-point numbers are modelled by real numbers. -/
noncomputable def round125 (v : ℝ) : ℝ :=
  let valuesAbs := max |v| (1 / 10 ^ 10)
  let scale := Real.logb 10 valuesAbs
  let scale := roundHalfEven (3 * scale) / 3
  let orderOfMagnitude : ℝ := (10 : ℝ) ^ (⌊scale⌋ : ℤ)
  let preFactor := roundHalfEven ((10 : ℝ) ^ pyMod scale 1)
  signK v * preFactor * orderOfMagnitude

/-- round125.py lines 22–29: a Python `int` argument gives `int(rounded_value)`. -/
noncomputable def round125Int (v : ℤ) : ℝ := truncK (round125 v)

end Verif.Round125
