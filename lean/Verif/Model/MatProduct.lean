import Verif.Model.MatOp
import Verif.Model.MatNumpy
import Mathlib.Analysis.Complex.Basic

/-!
# Model of the products with matrix objects, of their adjoints, and of assignments to their elements (python/macromax/matrix.py)

The right-hand sides with several axes that the documentation describes (195–206, 770–820), products from the left (101), `_adjoint` (208–210), `__setitem__` (153–160, 822–829).
`scipy.sparse.linalg.LinearOperator` is the base class; what it does is cited as `scipy`.
-/

namespace Verif.Mat

open Verif

variable {K : Type} [Field K]

/-! ### Right-hand sides with several axes -/

/-- An array by its shape and its elements in raster order. -/
structure Raster (K : Type) where
  shape : List ℕ
  get : ℕ → K

/-- 782: the number of columns: the length of the last axis if there are at least two. -/
def numCols (shape : List ℕ) : ℕ := if 1 < shape.length then shape.getLastD 1 else 1

/-- 780–820: `_matvec` of a ScatteringMatrix with `n` modes, of which `product` is the product with a vector.  `reshape` cannot determine the number of rows for zero columns. -/
def ndMatvec {n : ℕ} (product : (Fin n → K) → Fin n → K) (right : Raster K) : Except PyErr (Raster K) :=
  let p := numCols right.shape
  if p = 0 then .error .valueError
  else if n ≠ right.shape.prod / p then .error .typeError
  else .ok ⟨right.shape, fun e => if h : e / p < n then product (fun k => right.get (k * p + e % p)) ⟨e / p, h⟩ else 0⟩

/-- 206: the shape of `array @ right`, for an array with `m` rows and `n` columns. -/
def literalNd (m n : ℕ) (shape : List ℕ) : Except PyErr (List ℕ) :=
  match shape.reverse with
  | [] => .error .valueError
  | [k] => if k = n then .ok [m] else .error .valueError
  | q :: k :: batch => if k = n then .ok (batch.reverse ++ [m, q]) else .error .valueError

/-! ### Adjoints, and products from the left -/

/-- What the attribute `H` of a LinearOperator can be. -/
inductive Adjoint
  | array (a : NdArr ℂ)
  | operator (M : LinOp ℂ)

/-- 208–210: `_adjoint`, and scipy: `H` is what it returns. -/
noncomputable def LinOp.H (M : LinOp ℂ) : Adjoint :=
  .array ⟨[M.cols, M.rows], fun idx => match idx with
    | [j, i] => (starRingEnd ℂ) (M.asarray.get [i, j])
    | _ => 0⟩

/-- scipy: `_rmatvec` returns `self.H.matvec(x)` for classes that implement `_adjoint`.  Arrays do not have this method. -/
noncomputable def LinOp.rmatvec (M : LinOp ℂ) (v : NdArr ℂ) : Except PyErr (NdArr ℂ) :=
  match M.H with
  | .operator H => H.matmul v
  | .array _ => .error .attributeError

/-- The conjugates of the elements of an array. -/
def NdArr.conj (a : NdArr ℂ) : NdArr ℂ := ⟨a.shape, fun idx => (starRingEnd ℂ) (a.get idx)⟩

/-- The transpose of a vector is that vector. -/
def NdArr.transpose (a : NdArr ℂ) : NdArr ℂ := ⟨a.shape.reverse, fun idx => a.get idx.reverse⟩

/-- The left factor of a product: an array, a list of numbers as an array, or a LinearOperator. -/
inductive Left
  | array (a : NdArr ℂ)
  | sequence (a : NdArr ℂ)
  | operator (L : LinOp ℂ)

/-- The result of a product: an array, or a LinearOperator. -/
inductive Product
  | array (a : NdArr ℂ)
  | operator (M : LinOp ℂ)

/-- `left @ M`.  For an array this is the NumPy function `matmul`, which calls `__array_ufunc__` (176–178) of `M`, for at most `limit` nested calls; `matmul` is that function for arrays.
For a list, scipy: `self.T.matvec(x.T).T`, where the product with the transpose is the conjugate of that with the adjoint for conjugate vectors; with a matrix it does so for every column.
For a LinearOperator, scipy returns the product of operators. -/
noncomputable def leftProduct (matmul : List (Value (NdArr ℂ) (LinOp ℂ) Unit) → Except PyErr (NdArr ℂ)) (limit : ℕ) (left : Left) (M : LinOp ℂ) : Except PyErr Product :=
  match left with
  | .array a => match callUfunc LinOp.asarray leftmost matmul limit [.array a, .matrix M] with
    | .error e => .error e
    | .ok r => r.map .array
  | .sequence a => (M.rmatvec a.transpose.conj).map fun r => .array r.conj.transpose
  | .operator L =>
    if L.cols ≠ M.rows then .error .valueError
    else .ok (.operator ⟨L.rows, M.cols, none, fun v i => L.apply (fun k => M.apply (fun j => if h : j < M.cols then v ⟨j, h⟩ else 0) k) i⟩)

/-! ### Assignment -/

/-- 153–160: `M[keys] = value` for a number.  A matrix without array has None in its place, which has no `__setitem__`. -/
noncomputable def LinOp.setItem (M : LinOp K) (keys : List Key) (value : K) : Except PyErr (LinOp K) :=
  match M.array with
  | none => .error .attributeError
  | some a => match indexAux keys [M.rows, M.cols] with
    | .error e => .error e
    | .ok (shape, source) =>
      open Classical in
      .ok (.literal fun i j => if ∃ idx, List.Forall₂ (· < ·) idx shape ∧ source idx = [(i : ℕ), (j : ℕ)] then value else a i j)

/-- 822–829: the same for a ScatteringMatrix. -/
def setItemScattering (_ : LinOp K) (_ : List Key) (_ : K) : Except PyErr (LinOp K) := .error .keyError

end Verif.Mat
