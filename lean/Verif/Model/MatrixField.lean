import Verif.Num
import Mathlib.Data.Complex.Basic
import Mathlib.LinearAlgebra.Matrix.NonsingularInverse

/-!
# Model of the matrix-field algebra of the back end (python/macromax/backend/__init__.py and numpy.py)

An array in canonical form has two matrix axes and then the axes of the grid (`to_matrix_field`).  Here `X` is the set of sample points; axes of
the grid that have length 1 and are broadcast by NumPy are taken to be expanded, except in `ldivideVarying1D` where it matters.
-/

namespace Verif.MatrixField

open Verif

/-- A field of `rows × cols` matrices.  Only `val i j` with `i < rows` and `j < cols` has a meaning. -/
structure MF (X : Type) where
  rows : ℕ
  cols : ℕ
  val : ℕ → ℕ → X → ℂ

variable {X : Type}

/-- backend/__init__.py 321–329: `is_scalar`, for arrays in canonical form. -/
def MF.isScalar (a : MF X) : Bool := a.rows == 1 && a.cols == 1

/-- A scalar argument in canonical form (backend/__init__.py 355–385). -/
def ofScalar (f : X → ℂ) : MF X := { rows := 1, cols := 1, val := fun _ _ => f }

/-- backend/__init__.py 202–214: `eye`. -/
def eye (n : ℕ) : MF X := { rows := n, cols := n, val := fun i j _ => if i = j then 1 else 0 }

/-- The length of an axis after NumPy broadcasting. -/
def bLen (a b : ℕ) : Except PyErr ℕ :=
  if a = b then .ok a else if a = 1 then .ok b else if b = 1 then .ok a else .error .valueError

/-- The index in an axis of the given length, which is broadcast when it is 1. -/
def bIdx (len i : ℕ) : ℕ := if len = 1 then 0 else i

/-- An elementwise NumPy operation with broadcasting of the matrix axes. -/
def elementwise (op : ℂ → ℂ → ℂ) (a b : MF X) : Except PyErr (MF X) := do
  let rows ← bLen a.rows b.rows
  let cols ← bLen a.cols b.cols
  return { rows := rows, cols := cols
           val := fun i j x => op (a.val (bIdx a.rows i) (bIdx a.cols j) x) (b.val (bIdx b.rows i) (bIdx b.cols j) x) }

/-- backend/__init__.py 387–395: `adjoint`. -/
noncomputable def adjoint (a : MF X) : MF X :=
  { rows := a.cols, cols := a.rows, val := fun i j x => (starRingEnd ℂ) (a.val j i x) }

/-- backend/__init__.py 397–413: `subtract` for a back end with `vector_length = n`. -/
noncomputable def subtract (n : ℕ) (left right : MF X) : Except PyErr (MF X) := do
  if !left.isScalar || !right.isScalar then
    let left ← if left.isScalar then elementwise (· * ·) (eye n) left else .ok left
    let right ← if right.isScalar then elementwise (· * ·) (eye n) right else .ok right
    elementwise (· - ·) left right
  else elementwise (· - ·) left right

/-- `np.einsum('ij...,jk...->ik...', left, right)`: the axis `j` is broadcast if either length is 1. -/
noncomputable def einsum (left right : MF X) : Except PyErr (MF X) := do
  let len ← bLen left.cols right.rows
  return { rows := left.rows, cols := right.cols
           val := fun i k x => ∑ j ∈ Finset.range len, left.val i (bIdx left.cols j) x * right.val (bIdx right.rows j) k x }

/-- backend/__init__.py 415–444: `mul` without the argument `out`. -/
noncomputable def mul (left right : MF X) : Except PyErr (MF X) :=
  if left.isScalar || right.isScalar then elementwise (· * ·) left right else einsum left right

/-- backend/__init__.py 415–444: `mul` with the argument `out`: the value that `out` has afterwards.  In the scalar case `out *= left_factor`
is evaluated without looking at the right factor, and fails unless `out` already has the shape of the product. -/
noncomputable def mulOut (left right out : MF X) : Except PyErr (MF X) :=
  if left.isScalar || right.isScalar then
    match elementwise (· * ·) out left with
    | .ok r => if r.rows = out.rows ∧ r.cols = out.cols then .ok r else .error .valueError
    | .error e => .error e
  else
    match einsum left right with
    | .ok r => if r.rows = out.rows ∧ r.cols = out.cols then .ok r else .error .valueError
    | .error e => .error e

/-- The matrix at one point. -/
def MF.toMatrix (n m : ℕ) (a : MF X) (x : X) : Matrix (Fin n) (Fin m) ℂ := fun i j => a.val i j x

/-- A field of matrices, as an array. -/
def ofMatrix {n m : ℕ} (A : X → Matrix (Fin n) (Fin m) ℂ) : MF X :=
  { rows := n, cols := m, val := fun i j x => if h : i < n ∧ j < m then A x ⟨i, h.1⟩ ⟨j, h.2⟩ else 0 }

open Classical in
/-- backend/numpy.py 135–170: `ldivide` for denominators that are square or scalar, and numerators that do not vary in space if they are
scalar.  `np.linalg.inv` and `np.linalg.solve` are exact and raise (here: ValueError) when a matrix is singular; division of a complex array by zero gives
`nan` or `inf` (here: nonFinite). -/
noncomputable def ldivide (denominator numerator : MF X) : Except PyErr (MF X) :=
  if denominator.isScalar then
    if ∀ x, denominator.val 0 0 x ≠ 0 then elementwise (· / ·) numerator denominator else .error .nonFinite
  else if denominator.rows ≠ denominator.cols then .error .typeError
  else if ∃ x, (denominator.toMatrix denominator.rows denominator.rows x).det = 0 then .error .valueError
  else if numerator.isScalar then
    elementwise (· * ·) (ofMatrix fun x => (denominator.toMatrix denominator.rows denominator.rows x)⁻¹) numerator
  else if numerator.rows ≠ denominator.rows then .error .valueError
  else .ok (ofMatrix fun x => (denominator.toMatrix denominator.rows denominator.rows x)⁻¹ *
    numerator.toMatrix denominator.rows numerator.cols x)

/-- backend/__init__.py 462–470: `inv`. -/
noncomputable def inv (a : MF X) : Except PyErr (MF X) := ldivide a (ofScalar fun _ => 1)

/-- backend/numpy.py 152–170 for a one-dimensional grid with `N` points, an `n × n` denominator and a scalar numerator that varies in
space: the inverse has the axes of the grid in front of the matrix axes, the numerator, of shape `(1, 1, N)`, has not been transposed.
The result before it is transposed back, at the point `x`, row `i` and column `j`. -/
noncomputable def ldivideVarying1D {n N : ℕ} (denominator : Fin N → Matrix (Fin n) (Fin n) ℂ) (numerator : Fin N → ℂ) :
    Except PyErr (Fin N → Matrix (Fin n) (Fin n) ℂ) :=
  if h : N = n then .ok fun x i j => (denominator x)⁻¹ i j * numerator (h ▸ j)
  else if h : N = 1 then .ok fun x i j => (denominator x)⁻¹ i j * numerator (h ▸ 0)
  else .error .valueError

end Verif.MatrixField
