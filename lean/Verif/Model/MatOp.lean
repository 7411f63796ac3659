import Verif.Num
import Mathlib.Algebra.BigOperators.Fin
import Mathlib.Algebra.Field.Basic
import Mathlib.Data.List.Forall2

/-!
# Model of the classes `Matrix`, `SquareMatrix` and `QuarterMatrix` of python/macromax/matrix.py

A matrix object is a shape, its array if it has one, and the product with a vector.  `scipy.sparse.linalg.LinearOperator`, the base class, checks the length of vectors and calculates
the product with a matrix column by column.  Exceptions that are raised by the product itself are not modelled.
-/

namespace Verif.Mat

variable {K : Type} [Field K]

/-! ### NumPy -/

/-- A NumPy array: its shape, and its elements as a function of the indices.  The elements for indices outside the shape have no meaning. -/
structure NdArr (K : Type) where
  shape : List ℕ
  get : List ℕ → K

/-- An element of an index: an integer, a slice, or `np.newaxis`. -/
inductive Key
  | int (i : ℤ)
  | slice (start stop step : Option ℤ)
  | newaxis

/-- `slice(None)` -/
def Key.all : Key := .slice none none none

/-- The position of a Python index in a sequence of length `n`. -/
def position (n : ℕ) (i : ℤ) : Except PyErr ℕ :=
  if 0 ≤ i ∧ i < n then .ok i.toNat
  else if -(n : ℤ) ≤ i ∧ i < 0 then .ok (i + n).toNat
  else .error .indexError

/-- The positions in a sequence of length `n` that a Python slice selects: `range(*slice(start, stop, step).indices(n))`. -/
def positions (n : ℕ) (start stop step : Option ℤ) : Except PyErr (List ℕ) :=
  let step := step.getD 1
  if step = 0 then .error .valueError
  else
    let lower : ℤ := if 0 < step then 0 else -1
    let upper : ℤ := if 0 < step then n else n - 1
    let clip : ℤ → ℤ := fun x => if x < 0 then max (x + n) lower else min x upper
    let first : ℤ := (start.map clip).getD (if 0 < step then lower else upper)
    let last : ℤ := (stop.map clip).getD (if 0 < step then upper else lower)
    let count : ℤ := if 0 < step then (last - first + step - 1) / step else (first - last - step - 1) / (-step)
    .ok ((List.range count.toNat).map fun (i : ℕ) => (first + i * step).toNat)

/-- NumPy's basic indexing: the shape of the result, and the indices in the array of each of its elements. -/
def indexAux : List Key → List ℕ → Except PyErr (List ℕ × (List ℕ → List ℕ))
  | [], shape => .ok (shape, fun idx => idx)
  | .newaxis :: keys, shape =>
    match indexAux keys shape with
    | .error e => .error e
    | .ok (sh, f) => .ok (1 :: sh, fun idx => f idx.tail)
  | .int _ :: _, [] => .error .indexError
  | .int i :: keys, n :: shape =>
    match position n i with
    | .error e => .error e
    | .ok p => match indexAux keys shape with
      | .error e => .error e
      | .ok (sh, f) => .ok (sh, fun idx => p :: f idx)
  | .slice _ _ _ :: _, [] => .error .indexError
  | .slice a b c :: keys, n :: shape =>
    match positions n a b c with
    | .error e => .error e
    | .ok ps => match indexAux keys shape with
      | .error e => .error e
      | .ok (sh, f) => .ok (ps.length :: sh, fun idx => ps.getD (idx.headD 0) 0 :: f idx.tail)

/-- `arr[keys]` -/
def NdArr.index (a : NdArr K) (keys : List Key) : Except PyErr (NdArr K) :=
  match indexAux keys a.shape with
  | .error e => .error e
  | .ok (sh, f) => .ok ⟨sh, fun idx => a.get (f idx)⟩

/-- `np.expand_dims`: the shape from axis `q` on, `[1 if ax in axis else next(shape_it) for ax in range(out_ndim)]`; the first argument counts the axes. -/
def expandShape (axes : List ℕ) : ℕ → ℕ → List ℕ → List ℕ
  | 0, _, _ => []
  | count + 1, q, shape => if q ∈ axes then 1 :: expandShape axes count (q + 1) shape else shape.headD 0 :: expandShape axes count (q + 1) shape.tail

/-- The indices without those of the new axes, from axis `q` on. -/
def dropAxes (axes : List ℕ) : ℕ → List ℕ → List ℕ
  | _, [] => []
  | q, i :: idx => if q ∈ axes then dropAxes axes (q + 1) idx else i :: dropAxes axes (q + 1) idx

/-- `np.expand_dims(arr, axes)`, for different axes in range. -/
def NdArr.expandDims (a : NdArr K) (axes : List ℕ) : NdArr K :=
  ⟨expandShape axes (axes.length + a.shape.length) 0 a.shape, fun idx => a.get (dropAxes axes 0 idx)⟩

/-- `np.eye(n)` -/
def eye (n : ℕ) : NdArr K := ⟨[n, n], fun idx => match idx with
  | [i, j] => if i = j then 1 else 0
  | _ => 0⟩

/-! ### Matrix -/

/-- A matrix object: 103–115. -/
structure LinOp (K : Type) where
  rows : ℕ
  cols : ℕ
  array : Option (Fin rows → Fin cols → K)
  matvec : (Fin cols → K) → Fin rows → K

/-- 103–115, 195–206: a matrix with an array. -/
def LinOp.literal {r c : ℕ} (a : Fin r → Fin c → K) : LinOp K := ⟨r, c, some a, fun v i => ∑ j, a i j * v j⟩

/-- A subclass that has no array and implements `_matvec`. -/
def LinOp.operator {r c : ℕ} (f : (Fin c → K) → Fin r → K) : LinOp K := ⟨r, c, none, f⟩

/-- `LinearOperator.matvec`: elements of the product, for a vector with elements `v`. -/
def LinOp.apply (M : LinOp K) (v : ℕ → K) (i : ℕ) : K := if h : i < M.rows then M.matvec (fun j => v j) ⟨i, h⟩ else 0

/-- `self @ right`: `LinearOperator.dot` calculates the product with a vector using `matvec`, and that with a matrix column by column using `np.hstack`, which raises a ValueError when there
are no columns.  When the number of rows of the right-hand side differs from the number of columns of the matrix a ValueError is raised. -/
def LinOp.matmul (M : LinOp K) (right : NdArr K) : Except PyErr (NdArr K) :=
  match right.shape with
  | [n] => if n ≠ M.cols then .error .valueError else .ok ⟨[M.rows], fun idx => match idx with
      | [i] => M.apply (fun k => right.get [k]) i
      | _ => 0⟩
  | [n, p] => if n ≠ M.cols ∨ p = 0 then .error .valueError else .ok ⟨[M.rows, p], fun idx => match idx with
      | [i, j] => M.apply (fun k => right.get [k, j]) i
      | _ => 0⟩
  | _ => .error .valueError

/-- 162–174: `__array__`, i.e. `np.asarray(M)`: the array, or the products with the basis vectors as the rows of an array that is transposed. -/
def LinOp.asarray (M : LinOp K) : NdArr K :=
  match M.array with
  | some a => ⟨[M.rows, M.cols], fun idx => match idx with
      | [i, j] => if h : i < M.rows ∧ j < M.cols then a ⟨i, h.1⟩ ⟨j, h.2⟩ else 0
      | _ => 0⟩
  | none =>
    let fullArray : ℕ → ℕ → K := fun j i => M.apply (fun k => if k = j then 1 else 0) i
    ⟨[M.rows, M.cols], fun idx => match idx with
      | [i, j] => fullArray j i
      | _ => 0⟩

/-- The argument of `__getitem__`: a tuple, or something else. -/
inductive Item
  | tuple (keys : List Key)
  | single (key : Key)

/-- 129–130: the argument as a tuple. -/
def Item.keys : Item → List Key
  | .tuple keys => keys
  | .single key => [key, .all]

/-- 133–139: `slices`. -/
def slicesOf (keys : List Key) : List Key := keys.filter fun k => match k with
  | .newaxis => false
  | _ => true

/-- 132–141: `new_dims`, from element number `p` of the tuple on, when there have been `dropped` integers. -/
def newDims : ℕ → ℕ → List Key → List ℕ
  | _, _, [] => []
  | p, dropped, .newaxis :: keys => (p - dropped) :: newDims (p + 1) dropped keys
  | p, dropped, .int _ :: keys => newDims (p + 1) (dropped + 1) keys
  | p, dropped, .slice _ _ _ :: keys => newDims (p + 1) dropped keys

/-- 121–151: `__getitem__`. -/
def LinOp.getItem (M : LinOp K) (item : Item) : Except PyErr (NdArr K) :=
  let keys := item.keys
  match slicesOf keys with
  | [k0, k1] =>
    match (eye M.rows : NdArr K).index [.all, k1] with
    | .error e => .error e
    | .ok right => match M.matmul right with
      | .error e => .error e
      | .ok arr => match arr.index [k0] with
        | .error e => .error e
        | .ok arr => .ok (arr.expandDims (newDims 0 0 keys))
  | _ :: _ :: _ :: _ => .error .typeError
  | _ => M.asarray.index keys

/-! ### SquareMatrix -/

/-- 231–247: the shape of a SquareMatrix, for an array of the given shape and an argument `side`.  `LinearOperator` raises a ValueError for the shape (None, None). -/
def squareShape (array : Option (List ℕ)) (side : Option ℕ) : Except PyErr (ℕ × ℕ) :=
  match array with
  | none => match side with
    | none => .error .valueError
    | some s => .ok (s, s)
  | some shape => match shape with
    | [] => .error (if side = none then .indexError else .valueError)
    | [_] => .error .valueError
    | n :: m :: _ => if m ≠ side.getD n then .error .valueError else .ok (side.getD n, side.getD n)

/-- 258–269, 206: the product of a LiteralScatteringMatrix with a vector.  The product of None with an array raises a ValueError. -/
def literalProduct {n : ℕ} (array : Option (Fin n → Fin n → K)) (v : Fin n → K) : Except PyErr (Fin n → K) :=
  match array with
  | none => .error .valueError
  | some a => .ok fun i => ∑ j, a i j * v j

/-! ### QuarterMatrix -/

/-- 850–881: a QuarterMatrix of a matrix with equal numbers of rows and columns. -/
def quarter (M : LinOp K) (backwardsOutput backwardsInput : Bool) : Except PyErr (LinOp K) :=
  if M.rows % 2 > 0 then .error .typeError
  else
    let side := M.rows / 2
    .ok ⟨side, side, none, fun v i =>
      -- 878–879: zeros except in the slice for the input
      let inVector : ℕ → K := fun k =>
        if backwardsInput then (if h : side ≤ k ∧ k - side < side then v ⟨k - side, h.2⟩ else 0)
        else (if h : k < side then v ⟨k, h⟩ else 0)
      -- 880–881
      M.apply inVector (if backwardsOutput then side + i else i)⟩

/-- 884–917, 315–353 -/
def forwardTransmission (M : LinOp K) := quarter M false false
def frontReflection (M : LinOp K) := quarter M true false
def backReflection (M : LinOp K) := quarter M false true
def backwardTransmission (M : LinOp K) := quarter M true true

end Verif.Mat
