import Mathlib.Algebra.Order.Round
import Mathlib.Algebra.Order.Floor.Ring
import Mathlib.Algebra.Order.Field.Basic
import Mathlib.Data.Rat.Floor
import Mathlib.Tactic.Ring
import Mathlib.Tactic.Linarith
import Mathlib.Tactic.LinearCombination
import Mathlib.Tactic.NormNum
import Mathlib.Tactic.FieldSimp
import Mathlib.Tactic.Positivity
import Mathlib.Tactic.Push

/-!
# Numeric primitives of Python and NumPy

Floating-point numbers are modelled by the elements of an arbitrary linearly ordered field with a floor function
(`ℚ` for the executable examples, `ℝ` for the theorems that need it). Rounding errors are not modelled.
-/

namespace Verif

/-- Exceptions as values. `nonFinite` marks the points where NumPy would silently produce `inf` or `nan` and carry on:
the model stops there and makes no claim about what follows. -/
inductive PyErr
  | valueError | typeError | attributeError | indexError | keyError | zeroDivision | overflow | importError | nonFinite | recursion
  deriving DecidableEq, Repr

/-- The two NumPy data types that the grid code distinguishes: `int` and `float` (complex grids are not modelled). -/
inductive DType
  | int | float
  deriving DecidableEq, Repr

/-- NumPy's type promotion for `+`, `-` and `*`. -/
def DType.promote : DType → DType → DType
  | .int, .int => .int
  | _, _ => .float

section
variable {K : Type*} [Field K] [LinearOrder K] [FloorRing K]

/-- `arr.astype(int)` on a float: truncation towards zero. -/
def truncK (x : K) : K := if 0 ≤ x then (⌊x⌋ : K) else (⌈x⌉ : K)

/-- `np.round`: to the nearest integer, ties to even. -/
def roundHalfEven (x : K) : K :=
  if x - ⌊x⌋ < 1 / 2 then (⌊x⌋ : K)
  else if 1 / 2 < x - ⌊x⌋ then (⌊x⌋ : K) + 1
  else if ⌊x⌋ % 2 = 0 then (⌊x⌋ : K) else (⌊x⌋ : K) + 1

/-- `np.isclose(a, b)` with the default tolerances `rtol=1e-5`, `atol=1e-8`. -/
def isclose (a b : K) : Prop := |a - b| ≤ 1 / 10 ^ 8 + 1 / 10 ^ 5 * |b|

instance (a b : K) : Decidable (isclose a b) := inferInstanceAs (Decidable (_ ≤ _))

/-- Python's and NumPy's `%` on numbers: the result has the sign of the divisor. -/
def pyMod (x y : K) : K := x - ⌊x / y⌋ * y

/-- `np.sign` of a real number. -/
def signK (x : K) : K := if 0 < x then 1 else if x < 0 then -1 else 0

/-- A boolean that is used as a number. -/
def b2k (b : Bool) : K := if b then 1 else 0

end

/-- `np.fft.ifftshift` of a vector: a rotation to the left by `n // 2`. -/
def ifftshift {α : Type*} (l : List α) : List α := l.drop (l.length / 2) ++ l.take (l.length / 2)

/-- `np.fft.fftshift` of a vector: a rotation to the right by `n // 2`. -/
def fftshift {α : Type*} (l : List α) : List α :=
  l.drop (l.length - l.length / 2) ++ l.take (l.length - l.length / 2)

end Verif
