import Verif.Model.Assign

/-!
# Model of the tests of the back end on arrays (python/macromax/backend/__init__.py 69–90, 195–197, 218–228, 321–349)
-/

namespace Verif.Kinds

open Verif Verif.Assign

variable {α : Type*} {d : ℕ}

/-- What the tests are called with: a Python number, or an array. -/
inductive Argument (α : Type*)
  | number (z : α)
  | array (a : Arr α)

/-- backend/__init__.py 321–329: `is_scalar`. -/
def isScalar : Argument α → Bool
  | .number _ => true
  | .array a => decide (a.shape.length = 0) || (decide (a.shape.getD 0 0 = 1) && (decide (a.shape.length = 1) || decide (a.shape.getD 1 0 = 1)))

/-- backend/__init__.py 331–339: `is_vector`, for a grid with `d` dimensions (57).  Python numbers do not have `ndim`. -/
def isVector (d : ℕ) : Argument α → Except PyErr Bool
  | .number _ => .error .attributeError
  | .array a => .ok (decide ((a.shape.length : ℤ) = (2 + d : ℤ) - 1))

/-- backend/__init__.py 341–349: `is_matrix`. -/
def isMatrix (d : ℕ) : Argument α → Except PyErr Bool
  | .number _ => .error .attributeError
  | .array a => .ok (decide (a.shape.length = 2 + d))

/-- The array that is the result of `to_matrix_field`. -/
def stored (f : Field d α) : Argument α := .array ⟨List.ofFn f.shape, fun i => f.val fun a => i.getD a 0⟩

/-- backend/__init__.py 56–57, 77–80: `ft_axes`. -/
def ftAxes (d : ℕ) : List ℕ := (List.range (2 + d)).drop 2

/-- backend/__init__.py 87–90: `vectorial`, for the vector length `n`. -/
def vectorial (n : ℕ) : Bool := decide (1 < n)

/-- backend/__init__.py 218–220: `any`, for the values of all elements. -/
def any (values : List Bool) : Bool := values.any id

end Verif.Kinds
