import Verif.Num

/-!
# Model of how NumPy functions treat Matrix objects: python/macromax/matrix.py 176–192, and of the output operator of a DepositionMatrix, 951–962, 983–985

Python raises a RecursionError when calls are nested more deeply than a limit, which the user can set (`sys.setrecursionlimit`).  The limit is an argument of the functions of the model: the
number of nested calls that is left.  Calls that are not recursive are not counted.
-/

namespace Verif.Mat

/-- A Python object, as far as `convert_to_numpy` distinguishes them: an array, a Matrix, a string, another Sequence, something else.  The parameters are the types of arrays, of Matrix
objects, and of other objects. -/
inductive Value (A M O : Type)
  | array (a : A)
  | matrix (m : M)
  | text (s : List Char)
  | sequence (l : List (Value A M O))
  | other (o : O)

variable {A M O R : Type}

/-- 182–189: `convert_to_numpy`.  The elements of a string, which is a Sequence, are strings of one character. -/
def convertToNumpy (toArray : M → A) : ℕ → Value A M O → Except PyErr (Value A M O)
  | 0, _ => .error .recursion
  | _ + 1, .array a => .ok (.array a)
  | _ + 1, .matrix m => .ok (.array (toArray m))
  | k + 1, .text s => (s.mapM fun c => convertToNumpy toArray k (.text [c])).map .sequence
  | k + 1, .sequence l => (l.mapM fun v => convertToNumpy toArray k v).map .sequence
  | _ + 1, .other o => .ok (.other o)

/-- 192: a keyword and its value as an item of the dictionary of arguments.  A list cannot be a key: `dict` raises a TypeError. -/
def convertItem (toArray : M → A) (limit : ℕ) (item : List Char × Value A M O) : Except PyErr (Value A M O) :=
  match convertToNumpy toArray limit (.text item.1 : Value A M O) with
  | .error e => .error e
  | .ok _ => match convertToNumpy toArray limit item.2 with
    | .error e => .error e
    | .ok _ => .error .typeError

/-- 180–193: `__array_function__`: a NumPy function `func` of which some arguments are or contain Matrix objects. -/
def arrayFunction (toArray : M → A) (func : List (Value A M O) → List (Value A M O) → R) (limit : ℕ) (args : List (Value A M O)) (kwargs : List (List Char × Value A M O)) :
    Except PyErr R :=
  match args.mapM (convertToNumpy toArray limit) with
  | .error e => .error e
  | .ok args' => match kwargs.mapM (convertItem toArray limit) with
    | .error e => .error e
    | .ok kwargs' => .ok (func args' kwargs')

/-- 176–178: a point-wise NumPy function: NumPy calls `__array_ufunc__` of one of the arguments that are a Matrix, `choose` tells which, and calculates `ufunc` when none of them is.
`__array_ufunc__` calls the function with its own array in place of the first argument. -/
def callUfunc (toArray : M → A) (choose : List (Value A M O) → Option M) (ufunc : List (Value A M O) → R) : ℕ → List (Value A M O) → Except PyErr R
  | 0, _ => .error .recursion
  | k + 1, args => match choose args with
    | none => .ok (ufunc args)
    | some m => callUfunc toArray choose ufunc k (.array (toArray m) :: args.tail)

/-- NumPy's choice: one of the arguments that are a Matrix, if there are any.  (It prefers subclasses, and otherwise the leftmost.) -/
def Chooses (choose : List (Value A M O) → Option M) : Prop :=
  ∀ args, (choose args = none ∧ ∀ m, .matrix m ∉ args) ∨ ∃ m, choose args = some m ∧ .matrix m ∈ args

/-- NumPy's choice for objects of the same class. -/
def leftmost : List (Value A M O) → Option M
  | [] => none
  | .matrix m :: _ => some m
  | _ :: args => leftmost args

/-! ### The output operator of a DepositionMatrix -/

/-- An array: its shape and its elements in raster order. -/
structure Flat (K : Type) where
  shape : List ℕ
  elements : List K
  deriving DecidableEq, Repr

/-- What the variable `output_operator`, or the attribute of a LinearOperator in which it has its function `matvec`, refers to: the function that the user has given, the function of line 955, or
a LinearOperator. -/
inductive Callee
  | user
  | wrapper
  | linear (matvec : Callee)

/-- The call of such an object.  `cell` is what the variable `output_operator` refers to at the time of the call, i.e. after the constructor has ended.  A LinearOperator gives the result the
shape `(rows,)`, which raises a ValueError for another number of elements. -/
def Callee.call {K : Type} (f : List K → Flat K) (rows : ℕ) (cell : Callee) : ℕ → Callee → List K → Except PyErr (Flat K)
  | 0, _, _ => .error .recursion
  | _ + 1, .user, v => .ok (f v)
  | k + 1, .wrapper, v => match Callee.call f rows cell k cell v with
    | .error e => .error e
    | .ok r => .ok ⟨[r.elements.length], r.elements⟩
  | k + 1, .linear m, v => match Callee.call f rows cell k m v with
    | .error e => .error e
    | .ok r => if r.elements.length = rows then .ok ⟨[rows], r.elements⟩ else .error .valueError

/-- 951–959: the output operator for a function: its number of rows, and what the variable refers to in the end. -/
def outputOperator {K : Type} [Zero K] (f : List K → Flat K) (inputSize : ℕ) : ℕ × Callee :=
  let outputShape := (f (List.replicate inputSize 0)).shape
  (outputShape.prod, .linear (if 1 < outputShape.length then .wrapper else .user))

/-- 985: the product of the output operator with the field. -/
def outputProduct {K : Type} [Zero K] (f : List K → Flat K) (inputSize limit : ℕ) (v : List K) : Except PyErr (Flat K) :=
  Callee.call f (outputOperator f inputSize).1 (outputOperator f inputSize).2 limit (outputOperator f inputSize).2 v

end Verif.Mat
