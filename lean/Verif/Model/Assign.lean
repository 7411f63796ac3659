import Verif.Num

/-!
# Model of `BackEnd.assign` and `to_matrix_field` (python/macromax/backend/__init__.py 146–162, 355–385)

An array has a shape with one length per axis, and a value for every multi-index.  The values at indices outside the shape are not used.
The grid has `d ≥ 1` dimensions and shape `N`, there are `rows` field components (1 or 3).
-/

namespace Verif.Assign

open Verif

/-- An array with any number of axes. -/
structure Arr (α : Type*) where
  shape : List ℕ
  val : List ℕ → α

/-- An array with the axes (row, column, space ...). -/
structure Field (d : ℕ) (α : Type*) where
  shape : Fin (d + 2) → ℕ
  val : (Fin (d + 2) → ℕ) → α

variable {α : Type*} {d : ℕ}

/-- backend/__init__.py 380–382: singleton axes are added on the left. -/
def expand (d : ℕ) (a : Arr α) : Field d α where
  shape i := if (i : ℕ) < d + 2 - a.shape.length then 1 else a.shape.getD (i - (d + 2 - a.shape.length)) 1
  val i := a.val ((List.ofFn i).drop (d + 2 - a.shape.length))

/-- Exchange the first two of the axes. -/
def swap01 (i : Fin (d + 2) → ℕ) : Fin (d + 2) → ℕ := i ∘ Equiv.swap 0 1

/-- backend/__init__.py 355–385: `to_matrix_field`, of arrays with at most `d + 2` axes. -/
def toMatrixField (d : ℕ) (a : Arr α) : Field d α :=
  let f := expand d a
  if f.shape 0 = 1 ∧ 1 < f.shape 1 then ⟨swap01 f.shape, fun i => f.val (swap01 i)⟩ else f

/-- `np.tile(arr, reps)`. -/
def tile (f : Field d α) (reps : Fin (d + 2) → ℕ) : Field d α :=
  ⟨fun a => f.shape a * reps a, fun i => f.val fun a => i a % f.shape a⟩

/-- The shape of a field on the grid: (rows, 1, N ...). -/
def full (rows : ℕ) (N : Fin d → ℕ) : Fin (d + 2) → ℕ := Fin.cons rows (Fin.cons 1 N)

/-- `assign_exact`, `out[:] = arr` in NumPy: the new values of `out`. -/
def assignExact (f : Field d α) (out : Fin (d + 2) → ℕ) : Except PyErr ((Fin (d + 2) → ℕ) → α) :=
  if ∀ a, f.shape a = out a ∨ f.shape a = 1 then .ok fun i => f.val fun a => if f.shape a = 1 then 0 else i a
  else .error .valueError

/-- backend/__init__.py 146–162: `assign`, to an array with the shape `out`.  (The integer division by a length 0 is 0 in both NumPy and Lean.) -/
def assign (rows : ℕ) (N : Fin d → ℕ) (a : Arr α) (out : Fin (d + 2) → ℕ) : Except PyErr ((Fin (d + 2) → ℕ) → α) :=
  let f := toMatrixField d a
  let f := if (∃ b : Fin d, f.shape b.succ.succ ≠ N b) ∨ f.shape 0 ≠ rows then tile f fun b => full rows N b / f.shape b else f
  assignExact f out

end Verif.Assign
