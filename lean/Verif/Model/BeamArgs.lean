import Verif.Model.Beam
import Verif.Model.GridArg

/-!
# Model of the arguments of `BeamSection` and `Beam` (python/macromax/utils/beam.py)

The light and the background (66–71, 153–181), what is assigned to `field` and `field_ft` (201–228, 259–294), the materials of `propagate` (329–374), and `Beam.field` from its arguments (465–508),
on top of `Model/Beam.lean`, which starts from real numbers and from arrays with the shape of the section.

Arrays have any number of axes (`Assign.Arr`); fields with more than four axes are left out.  Functions have positional arguments without default values.
-/

namespace Verif.Beam

open Verif Verif.Fourier Verif.Backend Complex

/-! ### The light and the background -/

/-- beam.py 22–23: the arguments `vacuum_wavenumber`, `vacuum_wavelength`, `background_permittivity`, and `background_refractive_index`.  None for the first or third is left out. -/
structure Light where
  wavenumber : ℂ := 1
  wavelength : Option ℂ := none
  permittivity : ℂ := 1
  index : Option ℂ := none

/-- beam.py 70, 72: the attributes `__vacuum_wavenumber` and `__background_refractive_index`. -/
structure Chosen where
  k0 : ℂ
  index : ℂ

/-- beam.py 67–71.  The square root of Python is that with a real part that is not negative. -/
noncomputable def Light.choose (l : Light) : Except PyErr Chosen := do
  let k0 ← match l.wavelength with
    | some w => if w = 0 then .error .zeroDivision else .ok (2 * Real.pi / w)
    | none => .ok l.wavenumber
  pure ⟨k0, l.index.getD (l.permittivity ^ (1 / 2 : ℂ))⟩

/-- beam.py 158–161: `wavenumber`. -/
def Chosen.wavenumber (l : Chosen) : ℂ := l.k0 * l.index

/-- beam.py 163–166: `vacuum_wavelength`. -/
noncomputable def Chosen.vacuumWavelength (l : Chosen) : ℂ := 2 * Real.pi / l.k0

/-- beam.py 168–171: `wavelength`. -/
noncomputable def Chosen.wavelength (l : Chosen) : ℂ := l.vacuumWavelength / l.index

/-- beam.py 173–177: `background_permittivity`. -/
def Chosen.permittivity (l : Chosen) : ℂ := l.index ^ 2

/-- beam.py 52: the propagation axis of a section. -/
def sectionAxis (axis : Option ℤ) : ℤ := axis.getD 0 % 3 - 3

/-- beam.py 400: the propagation axis that a beam with a grid with `n` axes gives to its section. -/
def beamAxis (n : ℕ) (axis : Option ℤ) : ℤ := (axis.map (· % (n : ℤ))).getD 0 - n

/-! ### Arrays and functions -/

/-- A function, with the number of its parameters. -/
structure Fn where
  params : ℕ
  call : List (Assign.Arr ℂ) → Except PyErr (Assign.Arr ℂ)

/-- `f(*args)` -/
def Fn.apply (f : Fn) (args : List (Assign.Arr ℂ)) : Except PyErr (Assign.Arr ℂ) := if args.length = f.params then f.call args else .error .typeError

/-- beam.py 16: `array_or_callable` -/
inductive Arg
  | array (a : Assign.Arr ℂ)
  | function (f : Fn)

/-- `[-n:]`, which is everything for `n = 0`. -/
def lastOf {α : Type} (n : ℕ) (l : List α) : List α := if n = 0 then l else l.drop (l.length - n)

/-- ft/grid.py 532–565: the coordinates along an axis of a grid that is not flat. -/
noncomputable def coordinate (g : Grid.Obj 3 ℝ) (a : Fin 3) : Assign.Arr ℂ :=
  ⟨List.ofFn fun b => if b = a then g.shape a else 1, fun i => (((g.coords a).getD (i.getD a 0) 0 : ℝ) : ℂ)⟩

/-- `*grid` -/
noncomputable def coordinates (g : Grid.Obj 3 ℝ) : List (Assign.Arr ℂ) := List.ofFn (coordinate g)

/-- `np.broadcast_to(a, shape)` -/
def broadcastTo (a : Assign.Arr ℂ) (shape : List ℕ) : Except PyErr (List ℕ → ℂ) :=
  if GridArg.fitsRev a.shape.reverse shape.reverse then .ok fun i => a.val (GridArg.pickRev a.shape.reverse i.reverse).reverse else .error .valueError

/-! ### The field -/

/-- beam.py 218–219, 283–284: axes are added on the left, up to four. -/
def withPolarization (a : Assign.Arr ℂ) : Assign.Arr ℂ := ⟨List.replicate (4 - a.shape.length) 1 ++ a.shape, fun i => a.val (i.drop (4 - a.shape.length))⟩

variable (o : Optics)

/-- beam.py 305–317: whether a field with `c` components is scalar or vectorial.  The product of 309 raises for numbers of components other than three. -/
noncomputable def projectionOf : ℕ → Except PyErr Projection
  | 0 => .ok ⟨0, fun _ f => f⟩
  | 1 => .ok scalar
  | 3 => .ok vectorial
  | _ => .error .valueError

/-- beam.py 218–223, 283–288: the array with the shape of a section, for what is assigned to `field` or `field_ft`. -/
noncomputable def sectionArray (a : Assign.Arr ℂ) : Except PyErr (Σ P, Arr o P) := do
  let a := withPolarization a
  let c := a.shape.getD (a.shape.length - 4) 1
  let v ← broadcastTo a (a.shape.take (a.shape.length - 3) ++ List.ofFn o.grid.shape)
  let P ← projectionOf c
  pure ⟨P, fun c x => v ((c : ℕ) :: List.ofFn fun b => (x b : ℕ))⟩

/-- beam.py 201–228: `section.field = field`. -/
noncomputable def setField (field : Arg) : Except PyErr (Σ P, Section o P) := do
  let a ← match field with
    | .array a => pure a
    | .function f => f.apply (lastOf f.params (coordinates o.grid))
  let ⟨P, v⟩ ← sectionArray o a
  pure ⟨P, write v⟩

/-- beam.py 259–294: `section.field_ft = field_ft`. -/
noncomputable def setFieldFt (field : Arg) : Except PyErr (Σ P, Section o P) := do
  let a ← match field with
    | .array a => pure a
    | .function f => do
      let k ← Grid.kGrid (2 * Real.pi) o.grid
      f.apply (lastOf f.params (coordinates k))
  let ⟨P, v⟩ ← sectionArray o a
  pure ⟨P, writeFt v⟩

/-- A new section, with whether its array is complex. -/
structure New where
  P : Projection
  state : Section o P
  isComplex : Bool

/-- beam.py 87–96: the start values of a section.  The default data type of `np.zeros` is real (94). -/
noncomputable def newSection (field fieldFt : Option Arg) (vectorial? : Option Bool) (complexType : Bool) : Except PyErr (New o) :=
  match fieldFt, field, vectorial? with
  | some f, _, _ => do
    let ⟨P, s⟩ ← setFieldFt o f
    pure ⟨P, s, true⟩
  | none, some f, _ => do
    let ⟨P, s⟩ ← setField o f
    pure ⟨P, s, true⟩
  | none, none, some true => .ok ⟨vectorial, ⟨fun _ _ => 0, 0⟩, complexType⟩
  | none, none, some false => .ok ⟨scalar, ⟨fun _ _ => 0, 0⟩, complexType⟩
  | none, none, none => .error .typeError

open Classical in
/-- beam.py 245–257: reading `field_ft` of a new section that is propagated over a distance.  An array with real numbers cannot be multiplied in place with one with complex numbers. -/
noncomputable def New.readFt {o : Optics} (s : New o) (distance : ℝ) : Except PyErr (Arr o s.P) :=
  if |s.state.distance + distance| ≤ 1e-8 then .ok s.state.fieldFt
  else if s.isComplex then .ok (advance (s.state.distance + distance) s.state.fieldFt) else .error .typeError

/-! ### The material -/

variable {o} {P : Projection}

/-- `np.lib.scimath.sqrt(a)` -/
noncomputable def sqrtOf (a : Assign.Arr ℂ) : Assign.Arr ℂ := ⟨a.shape, fun i => a.val i ^ (1 / 2 : ℂ)⟩

/-- beam.py 347–353: the refractive index for the arguments of `propagate`, with all coordinates for functions. -/
noncomputable def indexOf (g : Grid.Obj 3 ℝ) (eps n : Option Arg) : Except PyErr (Option (Assign.Arr ℂ)) :=
  match n, eps with
  | none, none => .ok none
  | none, some (.array e) => .ok (some (sqrtOf e))
  | none, some (.function f) => do
    let e ← f.apply (coordinates g)
    pure (some (sqrtOf e))
  | some (.array n), _ => .ok (some n)
  | some (.function f), _ => do
    let n ← f.apply (coordinates g)
    pure (some n)

/-- Indices of an array with the given shape. -/
def Within (shape : List ℕ) : Type := {i : List ℕ // List.Forall₂ (· < ·) i shape}

open Classical in
/-- beam.py 358–369 for an array: its first element is taken before the check of the shape, which is that of the product in place (367). -/
noncomputable def interactArray (s : Section o P) (distance : ℝ) (n : Assign.Arr ℂ) : Except PyErr (Section o P) :=
  if n.shape.prod = 0 then .error .indexError
  else
    let n0 := n.val (n.shape.map fun _ => 0)
    if NearUniform n0 (fun i : Within n.shape => n.val i.1) then
      let deltaN := n0 / o.index - 1
      if ‖deltaN‖ ≤ 1e-8 then .ok s else .ok { s with fieldFt := fun c q => s.fieldFt c q * exp (I * o.k * deltaN * distance) }
    else do
      let v ← broadcastTo n (P.c :: List.ofFn o.grid.shape)
      pure (write fun c x => (read s).1 c x * exp (I * o.k * (v ((c : ℕ) :: List.ofFn fun b => (x b : ℕ)) / o.index - 1) * distance))

open Classical in
/-- beam.py 329–374: `propagate` from its arguments. -/
noncomputable def propagateArgs (s : Section o P) (distance : ℝ) (eps n : Option Arg) : Except PyErr (Section o P) := do
  let n ← indexOf o.grid eps n
  let s := if distance < 0 then { s with distance := s.distance + distance } else s
  let s ← match n with
    | none => pure s
    | some n => interactArray s distance n
  pure (if 0 < distance then { s with distance := s.distance + distance } else s)

/-! ### Beams -/

/-- The iteration over an array, along its first axis. -/
def iterate (a : Assign.Arr ℂ) : Except PyErr (List (Option Arg)) :=
  match a.shape with
  | [] => .error .typeError
  | l :: rest => .ok ((List.range l).map fun j => some (.array ⟨rest, fun i => a.val (j :: i)⟩))

/-- beam.py 478–482, 488: the materials of the sections, for a grid with `N` samples along the propagation axis. -/
def sections (N : ℕ) (eps n : Option (List (Option Arg))) : List (Option Arg × Option Arg) :=
  List.zip (eps.getD (List.replicate N none)) (n.getD (List.replicate N none))

/-- beam.py 488–489, 506–508: the loop, with the fields of the sections of the output, and the section of the beam afterwards. -/
noncomputable def loop (step : ℝ) : List (Option Arg × Option Arg) → ℕ → Section o P → List (Arr o P) → Except PyErr (List (Arr o P) × Section o P)
  | [], _, s, out => .ok (out, s)
  | (e, n) :: rest, j, s, out => do
    let s ← propagateArgs s step e n
    let (value, s) := read s
    if j < out.length then loop step rest (j + 1) s (out.set j value) else .error .indexError

/-- beam.py 491–508: `Beam.field` for lists of slices, for a grid with `N` samples along the propagation axis. -/
noncomputable def beamField (N : ℕ) (step : ℝ) (s : Section o P) (eps n : Option (List (Option Arg))) : Except PyErr (List (Arr o P) × Section o P) :=
  loop step (sections N eps n) 0 s (List.replicate N fun _ _ => 0)

/-- beam.py 491–508: `Beam.field(permittivity, refractive_index)` for arrays. -/
noncomputable def beamFieldArrays (N : ℕ) (step : ℝ) (s : Section o P) (eps n : Option (Assign.Arr ℂ)) : Except PyErr (List (Arr o P) × Section o P) := do
  let eps ← eps.mapM iterate
  let n ← n.mapM iterate
  beamField N step s eps n

/-- beam.py 505, 507: the element of the output at the indices of the grid with three axes, for the list of the sections along the propagation axis. -/
noncomputable def outputAt (h : ∀ a, 0 < o.grid.shape a) (out : List (Arr o P)) (c : Fin P.c) (x : Fin 3 → ℕ) : ℂ :=
  (out.getD (x o.axis) fun _ _ => 0) c fun a => if h' : a ≠ o.axis ∧ x a < o.grid.shape a then ⟨x a, h'.2⟩ else ⟨0, h a⟩

end Verif.Beam
