import Verif.Model.Dtype

/-!
# Specification: which values the data types have
-/

namespace Verif.Spec.Dtype

open Verif.Dtype

/-- The number of binary digits of the values of a type (IEEE 754, x86 for extended precision; the sign is not counted). -/
def digits : NumType → ℕ
  | .bool => 1
  | .int => 63
  | .float16 => 11
  | .float32 | .complex64 => 24
  | .float64 | .complex128 => 53
  | .longdouble | .clongdouble => 64

/-- A number with at most `p` binary digits, for any exponent. -/
def HasDigits (p : ℕ) (x : ℝ) : Prop := ∃ m e : ℤ, |m| < 2 ^ p ∧ x = m * (2 : ℝ) ^ e

/-- The values of booleans, integers, floating point numbers, and complex numbers. -/
def IsValue : NumType → ℂ → Prop
  | .bool, z => z = 0 ∨ z = 1
  | .int, z => ∃ m : ℤ, |m| < 2 ^ 63 ∧ z = m
  | .float16, z => z.im = 0 ∧ HasDigits 11 z.re
  | .float32, z => z.im = 0 ∧ HasDigits 24 z.re
  | .float64, z => z.im = 0 ∧ HasDigits 53 z.re
  | .longdouble, z => z.im = 0 ∧ HasDigits 64 z.re
  | .complex64, z => HasDigits 24 z.re ∧ HasDigits 24 z.im
  | .complex128, z => HasDigits 53 z.re ∧ HasDigits 53 z.im
  | .clongdouble, z => HasDigits 64 z.re ∧ HasDigits 64 z.im

/-- The kinds of numbers, regardless of their digits: booleans and integers, reals, and complex numbers. -/
def IsKind : NumType → ℂ → Prop
  | .bool, z => z = 0 ∨ z = 1
  | .int, z => ∃ m : ℤ, z = m
  | .float16, z | .float32, z | .float64, z | .longdouble, z => z.im = 0
  | .complex64, _ | .complex128, _ | .clongdouble, _ => True

/-- The types of real numbers, integers and booleans. -/
def RealType (t : NumType) : Prop := t ≠ .complex64 ∧ t ≠ .complex128 ∧ t ≠ .clongdouble

/-- The type that the caller of the solver asks for: the argument `dtype`, else that of the array with the source. -/
def requested (dtype : Option NumType) : Source → Option NumType
  | .none => dtype
  | .current t | .distribution t => some (dtype.getD t)

end Verif.Spec.Dtype
