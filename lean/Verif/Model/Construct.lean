import Verif.Model.Assign
import Mathlib.Data.Complex.Basic

/-!
# Model of the constructor of Solution (python/macromax/solver.py 90–268): shapes of its arguments, source, and boundary

Arguments are arrays with any number of axes (`Assign.Arr`), on a grid with `d ≥ 1` axes and shape `N`.  Callables are replaced by their values.  Data types are not modelled.
-/

namespace Verif.Construct

open Verif Verif.Assign

variable {d : ℕ}

/-! ### Arithmetic of arrays -/

/-- NumPy's rule for the shape of an elementwise operation, with the last axis first. -/
def bshapeRev : List ℕ → List ℕ → Option (List ℕ)
  | [], t => some t
  | s, [] => some s
  | a :: s, b :: t => if a = b ∨ a = 1 ∨ b = 1 then (bshapeRev s t).map fun r => (if a = 1 then b else a) :: r else none

/-- The index into an array with the given shape that is used for an index of the result, with the last axis first. -/
def bidxRev (s i : List ℕ) : List ℕ := List.zipWith (fun l j => if l = 1 then 0 else j) s i

/-- The value of an array, broadcast to more axes, at an index. -/
def bval (a : Arr ℂ) (i : List ℕ) : ℂ := a.val (bidxRev a.shape.reverse i.reverse).reverse

/-- An elementwise operation with broadcasting. -/
def bop (f : ℂ → ℂ → ℂ) (a b : Arr ℂ) : Except PyErr (Arr ℂ) :=
  match bshapeRev a.shape.reverse b.shape.reverse with
  | some r => .ok ⟨r.reverse, fun i => f (bval a i) (bval b i)⟩
  | none => .error .valueError

/-- backend/__init__.py 204–216: `eye`. -/
def eye (d rows : ℕ) : Arr ℂ := ⟨rows :: rows :: List.replicate d 1, fun i => if i.getD 0 0 = i.getD 1 0 then 1 else 0⟩

/-- solver.py 243, 250: `np.any(np.asarray(a.shape[:-self.grid.ndim]) > 1)`, for `d ≥ 1`. -/
def hasTensorAxes (d : ℕ) (a : Arr ℂ) : Bool := (a.shape.take (a.shape.length - d)).any fun l => 1 < l

/-- solver.py 241–246: `epsilon` with the susceptibility of an electric boundary. -/
def withElectric (d rows : ℕ) (epsilon chi : Arr ℂ) : Except PyErr (Arr ℂ) := do
  let chi ← if hasTensorAxes d epsilon then bop (· * ·) (eye d rows) chi else pure chi
  bop (· + ·) epsilon chi

/-- solver.py 248–253: `mu` with the susceptibility of a magnetic boundary. -/
def withMagnetic (d rows : ℕ) (mu chi : Arr ℂ) : Except PyErr (Arr ℂ) := do
  let chi ← if hasTensorAxes d mu then bop (· * ·) (eye d rows) chi else pure chi
  let chi ← bop (· * ·) (eye d rows) chi
  bop (· + ·) mu chi

/-- solver.py 298–301 with the conventions of the back end (backend/__init__.py 341–352, 415–444): the matrix at a point that the array for a material property is used as:
a field with one row and column is a multiple of the identity. -/
noncomputable def tensorAt (rows : ℕ) (f : Field d ℂ) (x : Fin d → ℕ) : Fin rows → Fin rows → ℂ := fun r c =>
  let value := fun (i : Fin (d + 2) → ℕ) => f.val fun a => if f.shape a = 1 then 0 else i a
  if f.shape 0 = 1 ∧ f.shape 1 = 1 then (if r = c then value (Fin.cons 0 (Fin.cons 0 x)) else 0) else value (Fin.cons (r : ℕ) (Fin.cons (c : ℕ) x))

/-! ### The source -/

/-- The arguments `vectorial`, `current_density` and `source_distribution`. -/
structure Args where
  vectorial : Option Bool
  current : Option (Arr ℂ)
  source : Option (Arr ℂ)

/-- `1 + 2 * vectorial` -/
def rowsOf (vectorial : Bool) : ℕ := if vectorial then 3 else 1

/-- solver.py 173–185: `vectorial` and the source, with `factor` for `-1j * self.angular_frequency * const.mu_0`. -/
def Args.resolve (a : Args) (N : List ℕ) (factor : ℂ) : Option Bool × Arr ℂ :=
  match a.source with
  | some s => (a.vectorial, s)
  | none => match a.current with
    | some j => (a.vectorial, ⟨j.shape, fun i => j.val i * factor⟩)
    | none => (some (a.vectorial.getD true), ⟨rowsOf (a.vectorial.getD true) :: N, fun _ => 0 * factor⟩)

/-- solver.py 187–195: `__vectorial`; the source is never None there. -/
def Args.isVectorial (a : Args) (N : List ℕ) (factor : ℂ) : Bool :=
  let (v, s) := a.resolve N factor
  match v with
  | some v => v
  | none => N.length < s.shape.length && s.shape.headD 0 == 3

/-- solver.py 703–720: the setter of `source_distribution`; `stored` is `__source_normalized`, with `none` for None. -/
def setSource (rows : ℕ) (N : Fin d → ℕ) (factor : ℂ) (stored : Option (Field d ℂ)) (s : Arr ℂ) : Except PyErr (Field d ℂ) :=
  let f := toMatrixField d s
  let f : Field d ℂ := ⟨f.shape, fun i => f.val i * factor⟩
  match stored with
  | none => .ok f
  | some out => (assign rows N ⟨List.ofFn f.shape, fun i => f.val fun a => i.getD a 0⟩ out.shape).map fun v => ⟨out.shape, v⟩

/-- solver.py 1072: `d_field += self.__source_normalized`: what is added at an index of `d_field`, which has the shape (rows, 1, N ...). -/
def addedSource (rows : ℕ) (N : Fin d → ℕ) (f : Field d ℂ) : Except PyErr ((Fin (d + 2) → ℕ) → ℂ) :=
  if ∀ a, f.shape a = full rows N a ∨ f.shape a = 1 then .ok fun i => f.val fun a => if f.shape a = 1 then 0 else i a
  else .error .valueError

end Verif.Construct
