import Verif.Model.Backend
import Verif.Model.BeamArgs

/-!
# Model of the data types of arrays

solver.py 176–209, 646–648; backend/numpy.py 23–32, 98–104; backend/torch.py 36–40, 61–70, 115–128; `cross` of backend/__init__.py 511–529; beam.py 88–94, 149–151, 196–206, 220–228, 281–283,
311–318, 504–508; matrix.py 455; subpixel.py 323–329.

NumPy's rules for the types of results are modelled for one type of integers (64 bits; there is no difference between integer types in this code), and all types of floating point and complex numbers.
The rounding of values that are stored with fewer digits is not modelled, other than by the numbers of digits in `Verif.Spec.Dtype`.
-/

namespace Verif.Dtype

open Verif Complex

/-- The data types of NumPy that the code distinguishes: `np.bool_`, integers, `np.float16`, `np.float32`, `np.float64`, `np.longdouble`, `np.complex64`, `np.complex128`, `np.clongdouble`. -/
inductive NumType
  | bool | int | float16 | float32 | float64 | longdouble | complex64 | complex128 | clongdouble
  deriving DecidableEq, Repr

/-- NumPy's order of the kinds of types: booleans, integers, floating point numbers, complex numbers. -/
def NumType.kind : NumType → ℕ
  | .bool => 0
  | .int => 1
  | .float16 | .float32 | .float64 | .longdouble => 2
  | .complex64 | .complex128 | .clongdouble => 3

/-- The size of the floating point numbers that hold the values of the type: 0 (any), 1 (half), 2 (single), 3 (double), 4 (extended).  Integers with 64 bits are taken to be double. -/
def NumType.size : NumType → ℕ
  | .bool => 0
  | .float16 => 1
  | .float32 | .complex64 => 2
  | .int | .float64 | .complex128 => 3
  | .longdouble | .clongdouble => 4

/-- The floating point type of the given size. -/
def floating : ℕ → NumType
  | 0 | 1 => .float16
  | 2 => .float32
  | 3 => .float64
  | _ => .longdouble

/-- The complex type of the given size; there is none for half precision. -/
def complexType : ℕ → NumType
  | 0 | 1 | 2 => .complex64
  | 3 => .complex128
  | _ => .clongdouble

/-- `np.promote_types(a, b)`: the type of sums and products of arrays. -/
def promote (a b : NumType) : NumType :=
  match max a.kind b.kind with
  | 0 => .bool
  | 1 => .int
  | 2 => floating (max a.size b.size)
  | _ => complexType (max a.size b.size)

/-- The type of the product of an array and a Python number of type `complex`, which does not have a size of its own; with integers it has double precision. -/
def timesComplex (a : NumType) : NumType := complexType (if a.kind < 2 then 3 else a.size)

/-- `np.can_cast(a, b, 'same_kind')`: what operations in place allow.  `np.issubdtype(a, np.complexfloating)` is `3 ≤ a.kind`. -/
def canCast (a b : NumType) : Prop := a.kind ≤ b.kind

instance (a b : NumType) : Decidable (canCast a b) := inferInstanceAs (Decidable (a.kind ≤ b.kind))

open Classical in
/-- The value after an assignment to an element of an array of type `t`: NumPy drops the imaginary part (with a warning), cuts off the decimals, or compares with 0. -/
noncomputable def store (t : NumType) (z : ℂ) : ℂ :=
  match t.kind with
  | 0 => if z = 0 then 0 else 1
  | 1 => (truncK z.re : ℝ)
  | 2 => (z.re : ℝ)
  | _ => z

/-! ### The solver and the back ends -/

/-- The argument with the source: none, `current_density` or `source_distribution`, as an array of the given type. -/
inductive Source
  | none
  | current (t : NumType)
  | distribution (t : NumType)

/-- solver.py 176–187: the type of `source_distribution`, for the argument `dtype`.  Angular frequency and wavenumber are Python numbers. -/
def sourceType (dtype : Option NumType) : Source → NumType
  | .none => timesComplex (dtype.getD .complex128)
  | .current t => timesComplex t
  | .distribution t => t

/-- solver.py 205–209. -/
def toComplex (t : NumType) : NumType :=
  if 3 ≤ t.kind then t else if t = .float16 ∨ t = .float32 then .complex64 else .complex128

/-- solver.py 203–209: the type for the back end. -/
def calculation (dtype : Option NumType) (s : Source) : NumType := toComplex (dtype.getD (sourceType dtype s))

/-- The library of the back end. -/
inductive Engine
  | numpy | torch
  deriving DecidableEq

/-- The `hardware_dtype` of a back end: a type of NumPy or one of PyTorch. -/
inductive Hardware
  | numpy (t : NumType)
  | torchComplex64
  | torchComplex128
  deriving DecidableEq

/-- backend/numpy.py 23–32 and backend/torch.py 36–40. -/
def hardware : Engine → NumType → Hardware
  | .numpy, t => .numpy t
  | .torch, .complex64 => .torchComplex64
  | .torch, .complex128 => .torchComplex128
  | .torch, t => .numpy t

/-- backend/__init__.py 98–100 and backend/torch.py 61–70: `numpy_dtype`. -/
def numpyType : Engine → Hardware → NumType
  | .numpy, .numpy t => t
  | _, .torchComplex64 => .complex64
  | _, .torchComplex128 => .complex128
  | .torch, .numpy _ => .complex128

/-- backend/numpy.py 98–104 and backend/torch.py 115–128: `allocate_array()`; `torch.empty` does not accept the types of NumPy. -/
def allocate : Engine → Hardware → Except PyErr Hardware
  | .torch, .numpy _ => .error .typeError
  | _, h => .ok h

/-- solver.py 212, 215 and 646–648: `Solution(...).dtype`, or what the constructor raises when it allocates its first array. -/
def solutionType (e : Engine) (dtype : Option NumType) (s : Source) : Except PyErr NumType := do
  let h := hardware e (calculation dtype s)
  let _ ← allocate e h
  pure (numpyType e h)

/-- backend/__init__.py 521–528: `cross` for arrays of the types `a` and `b`.  The result has type `a`.  Line 526 assigns, whatever the types; line 528 is an operation in place, which must be
allowed for the type of the right-hand side, and is not for booleans. -/
noncomputable def crossTyped {n : ℕ} {X : Type*} (a b : NumType) (A B : Fin n → X → ℂ) : Except PyErr (Fin n → X → ℂ) :=
  if n ≠ 0 ∧ (¬ canCast (promote a b) a ∨ a = .bool) then .error .typeError
  else .ok fun dim x =>
    have hn : 0 < n := Nat.pos_of_ne_zero fun h => (h ▸ dim).elim0
    let o0 : Fin n := ⟨(Backend.otherDims n dim).1, Nat.mod_lt _ hn⟩
    let o1 : Fin n := ⟨(Backend.otherDims n dim).2, Nat.mod_lt _ hn⟩
    store a (store a (A o1 x * B o0 x) - A o0 x * B o1 x)

/-! ### `matrix.py` -/

/-- `np.finfo(t).eps` as a power of two, for floating point and complex types (x86 for extended precision). -/
def epsExponent : NumType → Option ℕ
  | .bool | .int => none
  | .float16 => some 10
  | .float32 | .complex64 => some 23
  | .float64 | .complex128 => some 52
  | .longdouble | .clongdouble => some 63

/-- matrix.py 455: `tol = np.sqrt(np.finfo(k_grid[0].dtype if dtype is None else dtype).eps)`. -/
noncomputable def modeTolerance (kType : NumType) (dtype : Option NumType) : Except PyErr ℝ :=
  match epsExponent (dtype.getD kType) with
  | none => .error .valueError
  | some e => .ok (Real.sqrt (1 / 2 ^ e))

/-! ### `beam.py` -/

/-- beam.py 282–283 and subpixel.py 327–328 (for those types that it converts). -/
def realToComplex (t : NumType) : NumType := if t = .float32 then .complex64 else .complex128

/-- What the type of a section follows from: `field_ft`, `field`, or `dtype` when neither is given (88–94). -/
inductive Start
  | fieldFt (t : NumType)
  | field (t : NumType)
  | zeros (dtype : Option NumType)

/-- beam.py 311–318: the type after the projection with the array `k_dir` of type `np.float64`. -/
def projectedType (vectorial : Bool) (t : NumType) : NumType := if vectorial then promote t .float64 else t

/-- beam.py 149–151: `BeamSection.dtype`, for grids on which `field` is Fourier transformed (223–224: the product with `shift_ft`, of type `np.complex128`).  The default type of `np.zeros` is
`np.float64`. -/
def sectionType (vectorial : Bool) : Start → NumType
  | .fieldFt t => projectedType vectorial (if t.kind < 3 then realToComplex t else t)
  | .field t => projectedType vectorial (promote t .complex128)
  | .zeros dtype => dtype.getD .float64

/-- beam.py 196–206: the type of what `BeamSection.field` returns, for the type of the section; `isZero` tells the outcome of line 202. -/
def fieldType (isZero : Bool) (t : NumType) : NumType := if isZero then t else promote t .complex128

/-- subpixel.py 298–329: the type of the result of `roll_ft`, for subjects of type `t`; `moves` tells whether there is an axis with a shift that is not taken to be zero (322–326). -/
def rollType (moves : Bool) (t : NumType) : NumType :=
  if moves then (if t = .complex64 ∨ t = .complex128 then t else realToComplex t) else t

end Verif.Dtype

namespace Verif.Beam

open Verif Complex

variable {o : Optics} {P : Projection}

/-- beam.py 488–489, 506–508: the loop of `Beam.field` for an array `out` of type `t`. -/
noncomputable def loopInto (t : Dtype.NumType) (step : ℝ) : List (Option Arg × Option Arg) → ℕ → Section o P → List (Arr o P) → Except PyErr (List (Arr o P) × Section o P)
  | [], _, s, out => .ok (out, s)
  | (e, n) :: rest, j, s, out => do
    let s ← propagateArgs s step e n
    let (value, s) := read s
    if j < out.length then loopInto t step rest (j + 1) s (out.set j fun c x => Dtype.store t (value c x)) else .error .indexError

/-- beam.py 491–508: `Beam.field(permittivity, refractive_index, out)` for lists of slices.  The array `out` of type `t` has the shape of the beam; its sections along the propagation axis. -/
noncomputable def beamFieldInto (N : ℕ) (step : ℝ) (s : Section o P) (eps n : Option (List (Option Arg))) (t : Dtype.NumType) (out : List (Arr o P)) :
    Except PyErr (List (Arr o P) × Section o P) :=
  loopInto t step (sections N eps n) 0 s out

end Verif.Beam
