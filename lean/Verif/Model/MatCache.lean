import Verif.Num
import Mathlib.Algebra.Field.Basic
import Mathlib.Data.Fintype.Basic
import Mathlib.Data.List.FinRange
import Mathlib.Logic.Function.Basic

/-!
# Model of the caching of columns in python/macromax/matrix.py

`CachingMatrix._cache` (lines 49–97), which `DepositionMatrix._matvec` uses, and `ScatteringMatrix._matvec` (770–820), which has a copy of it.  What is calculated without the
cache is a function `f` of a vector: in `DepositionMatrix` that is `calc_op_product` (983–985), in `ScatteringMatrix` the lines 799–811.  It is assumed to be a function: that
the result depends only on the vector.  The elements are of a field `K`; arithmetic is exact.  Arrays are copied where they are stored and returned ("Make sure to not return a
reference to the internal cache!"), as the comments in lines 82, 84, 814 and 816 say: a quotient, a product and an assignment to a column make copies.
-/

namespace Verif.Mat

variable {K : Type} [Field K] [DecidableEq K] {n m : ℕ}

/-- A vector of `n` elements. -/
abbrev Vec (K : Type) (n : ℕ) : Type := Fin n → K

/-- The attributes `__caching` and `__cached_columns` (33–34, 482–483).  The list `calls` is not an attribute: it records the vectors for which `f` has been
calculated, most recent first, i.e. the field propagations. -/
structure Cache (K : Type) (m n : ℕ) where
  caching : Bool
  columns : Fin n → Option (Vec K m)
  calls : List (Vec K n)

/-- 33–34: a new object. -/
def Cache.init (caching : Bool) : Cache K m n := ⟨caching, fun _ => none, []⟩

/-- 487–492: the constructor of ScatteringMatrix with the argument `array`, given as a function of row and column. -/
def Cache.ofArray (caching : Bool) (array : Fin m → Fin n → K) : Cache K m n := ⟨caching, fun j => some fun i => array i j, []⟩

/-- 45–47, 515–517: the setter of `caching`. -/
def Cache.setCaching (c : Cache K m n) (b : Bool) : Cache K m n := { c with caching := b }

/-- 68, 791: the indices where `non_zeros` is True. -/
def nonZeros (v : Vec K n) : List (Fin n) := (List.finRange n).filter fun i => v i ≠ 0

/-- 71–73, 794–796: `basis_index`; `none` is None. -/
def basisIndex (c : Cache K m n) (v : Vec K n) : Option (Fin n) :=
  if c.caching ∧ (nonZeros v).length = 1 then (nonZeros v).head? else none

/-- 74, 84, 797, 816: the index and the cached column, if it has been cached and will be used. -/
def Cache.lookup (c : Cache K m n) (v : Vec K n) : Option (Fin n × Vec K m) :=
  if c.caching then
    match basisIndex c v with
    | some i => (c.columns i).map fun column => (i, column)
    | none => none
  else none

/-- 75–82, 798–814: a column is calculated and stored. -/
def Cache.calculate (f : Vec K n → Vec K m) (c : Cache K m n) (v : Vec K n) : Vec K m × Cache K m n :=
  (f v, { c with
    calls := v :: c.calls
    columns := match basisIndex c v with
      | some i => if c.caching then Function.update c.columns i (some fun r => f v r / v i) else c.columns
      | none => c.columns })

/-- 789–818: the loop of `ScatteringMatrix._matvec` for one column. -/
def Cache.product (f : Vec K n → Vec K m) (c : Cache K m n) (v : Vec K n) : Vec K m × Cache K m n :=
  if 0 < (nonZeros v).length then
    match c.lookup v with
    | none => c.calculate f v
    | some (i, column) => (fun r => column r * v i, c)
  else (fun _ => 0, c)

/-- 781–820: `ScatteringMatrix._matvec` for an array with any number of columns. -/
def Cache.matvec (f : Vec K n → Vec K m) (c : Cache K m n) : List (Vec K n) → List (Vec K m) × Cache K m n
  | [] => ([], c)
  | v :: vs =>
    let (r, c') := c.product f v
    let (rs, c'') := Cache.matvec f c' vs
    (r :: rs, c'')

/-- 66–86: the loop of `_cache`; `hasOut` tells whether `out` is not None.  The column `none` is one of `zero_columns`, which are set after the loop.  The exception is
raised by the assignment to `out[:, column_idx]` when `out` is None. -/
def Cache.loop (f : Vec K n → Vec K m) (c : Cache K m n) (hasOut : Bool) : List (Vec K n) → Except PyErr (List (Option (Vec K m)) × Bool) × Cache K m n
  | [] => (.ok ([], hasOut), c)
  | v :: vs =>
    if 0 < (nonZeros v).length then
      match c.lookup v with
      | none =>
        let (r, c') := c.calculate f v
        match Cache.loop f c' true vs with
        | (.ok (rs, h), c'') => (.ok (some r :: rs, h), c'')
        | (.error e, c'') => (.error e, c'')
      | some (i, column) =>
        if hasOut then
          match Cache.loop f c true vs with
          | (.ok (rs, h), c') => (.ok (some (fun r => column r * v i) :: rs, h), c')
          | (.error e, c') => (.error e, c')
        else (.error .typeError, c)
    else
      match Cache.loop f c hasOut vs with
      | (.ok (rs, h), c') => (.ok (none :: rs, h), c')
      | (.error e, c') => (.error e, c')

/-- 49–97: `_cache(right, f, out)`, for `right` with the given columns.  Line 90 raises a TypeError because `dict.values()` cannot be indexed, line 92 an IndexError when
there are no columns. -/
def Cache.cache (f : Vec K n → Vec K m) (c : Cache K m n) (right : List (Vec K n)) (hasOut : Bool) : Except PyErr (List (Vec K m)) × Cache K m n :=
  match c.loop f hasOut right with
  | (.error e, c') => (.error e, c')
  | (.ok (rs, true), c') => (.ok (rs.map fun r => r.getD fun _ => 0), c')
  | (.ok (rs, false), c') =>
    if ∃ i, (c'.columns i).isSome then (.error .typeError, c')
    else match right with
      | [] => (.error .indexError, c')
      | v :: _ => (.ok (rs.map fun _ _ => 0), { c' with calls := v :: c'.calls })

/-- The uses of a matrix: products with the columns of an array, and assignments to `caching`. -/
inductive CacheOp (K : Type) (n : ℕ)
  | product (columns : List (Vec K n))
  | setCaching (b : Bool)

/-- The results of a history of uses of a ScatteringMatrix, and the final state. -/
def Cache.run (f : Vec K n → Vec K m) (c : Cache K m n) : List (CacheOp K n) → List (List (Vec K m)) × Cache K m n
  | [] => ([], c)
  | .product vs :: ops =>
    let (r, c') := c.matvec f vs
    let (rs, c'') := Cache.run f c' ops
    (r :: rs, c'')
  | .setCaching b :: ops => Cache.run f (c.setCaching b) ops

/-- The same with `_cache`, with or without the argument `out`; a DepositionMatrix uses it with `out` (line 987). -/
def Cache.runMixin (f : Vec K n → Vec K m) (hasOut : Bool) (c : Cache K m n) : List (CacheOp K n) → List (Except PyErr (List (Vec K m))) × Cache K m n
  | [] => ([], c)
  | .product vs :: ops =>
    let (r, c') := c.cache f vs hasOut
    let (rs, c'') := Cache.runMixin f hasOut c' ops
    (r :: rs, c'')
  | .setCaching b :: ops => Cache.runMixin f hasOut (c.setCaching b) ops

end Verif.Mat
