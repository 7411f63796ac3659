import Verif.Model.Backend
import Mathlib.Analysis.SpecialFunctions.Pow.Complex

/-!
# Model of python/macromax/utils/beam.py

Real wavenumber and background index (Model/BeamComplex.lean has complex values), exact arithmetic.  The grid of a section has three axes (54–59: axes are added on the left), the
propagation axis has a single sample (55).  Fields have the shape [component, *grid.shape]; the broadcasting of what is assigned to `field` and `field_ft`, and functions as arguments, are in Model/BeamArgs.lean; dtypes and additional axes on the left are left out.
-/

namespace Verif.Beam

open Verif.Fourier Verif.Backend Complex

/-- beam.py 54, 56, 57 and 401–403: axes are added on the left, up to three. -/
def pad {α : Type} {n : ℕ} (hn : n ≤ 3) (x : α) (f : Fin n → α) : Fin 3 → α := fun a => if h : 3 - n ≤ a then f ⟨a - (3 - n), by omega⟩ else x

/-- beam.py 401–404: the grid of a `Beam`.  Note that the positions of the centre and of the origin of the given grid are not passed on. -/
noncomputable def beamGrid {n : ℕ} (hn : n ≤ 3) (g : Grid.Obj n ℝ) : Except PyErr (Grid.Obj 3 ℝ) :=
  Grid.rebuild true (pad hn 1 g.shape) ⟨g.dt, pad hn 0 g.step⟩ ⟨g.dt, pad hn 0 g.center⟩ (fun _ => false) (fun _ => true) (fun _ => true)

/-- beam.py 54–59: the grid of a section for a grid with three axes. -/
noncomputable def sectionGrid (g : Grid.Obj 3 ℝ) (axis : Fin 3) : Except PyErr (Grid.Obj 3 ℝ) :=
  Grid.rebuild true (Function.update g.shape axis 1) ⟨g.dt, g.step⟩ ⟨.float, Function.update g.center axis 0⟩ (fun _ => false) (fun _ => true) (fun _ => true)

/-- beam.py 52–71: what a section knows about the light and the material. -/
structure Optics where
  grid : Grid.Obj 3 ℝ
  axis : Fin 3
  k0 : ℝ
  index : ℝ

/-- beam.py 158–161: `wavenumber`. -/
noncomputable def Optics.k (o : Optics) : ℝ := o.k0 * o.index

/-- beam.py 79–81: `k_projs` before the propagation axis is set. -/
noncomputable def Optics.transverse (o : Optics) (a : Fin 3) (q : Idx o.grid.shape) : ℝ := if 1 < o.grid.shape a then kOf o.grid a q / o.k else 0

/-- beam.py 82: `k_projs`; the real part of the square root of a negative number is 0. -/
noncomputable def Optics.kProj (o : Optics) (a : Fin 3) (q : Idx o.grid.shape) : ℝ :=
  if a = o.axis then Real.sqrt (1 - ∑ b, o.transverse b q ^ 2) else o.transverse a q

/-- beam.py 83–85: `__k_dir`. -/
noncomputable def Optics.kDir (o : Optics) (q : Idx o.grid.shape) (a : Fin 3) : ℝ := o.kProj a q / Real.sqrt (∑ b, o.kProj b q ^ 2)

/-- beam.py 62: `__shift_ft`. -/
noncomputable def Optics.shift (o : Optics) (q : Idx o.grid.shape) : ℂ := exp (I * (∑ a, kOf o.grid a q * o.grid.first a : ℝ))

/-- Scalar or vectorial: the number of components and what beam.py 296–317 does for each k-vector direction. -/
structure Projection where
  c : ℕ
  project : (Fin 3 → ℝ) → (Fin c → ℂ) → Fin c → ℂ

/-- beam.py 316–317: a scalar field is not projected. -/
abbrev scalar : Projection := ⟨1, fun _ f => f⟩

/-- beam.py 307–315: the part of a vector that is perpendicular to the direction `k`. -/
noncomputable def projectTransverse (k : Fin 3 → ℝ) (f : Fin 3 → ℂ) : Fin 3 → ℂ :=
  let longitudinal := ∑ i, k i * f i
  fun c => f c - k c * longitudinal

/-- beam.py 305, 307: three polarization components. -/
noncomputable abbrev vectorial : Projection := ⟨3, projectTransverse⟩

/-- An array with the shape of `BeamSection.field`. -/
abbrev Arr (o : Optics) (P : Projection) : Type := Fin P.c → Idx o.grid.shape → ℂ

/-- beam.py 73–75: the state. -/
structure Section (o : Optics) (P : Projection) where
  fieldFt : Arr o P
  distance : ℝ

variable {o : Optics} {P : Projection}

/-- beam.py 234–243 and 254: multiplication with `__calc_propagator_ft`. -/
noncomputable def advance (distance : ℝ) (F : Arr o P) : Arr o P := fun c q => F c q * exp (I * (distance * o.k * o.kDir q o.axis : ℝ))

/-- beam.py 194: `np.allclose(_, 0.0)` with the default absolute tolerance of numpy. -/
def AllClose0 (F : Arr o P) : Prop := ∀ c q, ‖F c q‖ ≤ 1e-8

/-- beam.py 319–327: `__update_field_ft`. -/
noncomputable def update (F : Arr o P) : Section o P := ⟨fun c q => P.project (o.kDir q) (fun c' => F c' q) c, 0⟩

/-- beam.py 192 and 220: `np.any(self.grid.shape > 1)`. -/
def Optics.Extended (o : Optics) : Prop := ∃ a, 1 < o.grid.shape a

open Classical in
/-- beam.py 245–257: reading `field_ft`; the value and the next state. -/
noncomputable def readFt (s : Section o P) : Arr o P × Section o P :=
  if |s.distance| ≤ 1e-8 then (s.fieldFt, s)
  else (advance s.distance s.fieldFt, ⟨advance s.distance s.fieldFt, 0⟩)

open Classical in
/-- beam.py 192–199: the field for the value of `field_ft`. -/
noncomputable def fieldOf (F : Arr o P) : Arr o P :=
  if o.Extended then (if AllClose0 F then fun _ _ => 0 else fun c => ift fun q => F c q * o.shift q)
  else F

/-- beam.py 185–199: reading `field`. -/
noncomputable def read (s : Section o P) : Arr o P × Section o P := (fieldOf (readFt s).1, (readFt s).2)

open Classical in
/-- beam.py 201–228: assigning to `field`. -/
noncomputable def write (f : Arr o P) : Section o P :=
  if o.Extended then update fun c q => ft (f c) q * (starRingEnd ℂ) (o.shift q) else update f

/-- beam.py 259–294: assigning to `field_ft`. -/
noncomputable def writeFt (F : Arr o P) : Section o P := update F

/-- beam.py 361: `np.allclose(refractive_index, refractive_index.ravel()[0])`, where `n0` is the first element. -/
def NearUniform {X : Type} (n0 : ℂ) (n : X → ℂ) : Prop := ∀ x, ‖n x - n0‖ ≤ 1e-8 + 1e-5 * ‖n0‖

/-- beam.py 361–362: the index of `ravel()[0]`. -/
def origin (o : Optics) (h : ∀ a, 0 < o.grid.shape a) : Idx o.grid.shape := fun a => ⟨0, h a⟩

open Classical in
/-- beam.py 358–369: the interaction with a material with refractive index `n`, the first element of which is `n0`. -/
noncomputable def interact (s : Section o P) (distance : ℝ) (n0 : ℂ) (n : Idx o.grid.shape → ℂ) : Section o P :=
  if NearUniform n0 n then
    let deltaN := n0 / o.index - 1
    if ‖deltaN‖ ≤ 1e-8 then s else { s with fieldFt := fun c q => s.fieldFt c q * exp (I * o.k * deltaN * distance) }
  else write fun c x => (read s).1 c x * exp (I * o.k * (n x / o.index - 1) * distance)

open Classical in
/-- beam.py 329–374: `propagate` for a refractive index, or none. -/
noncomputable def propagate (h : ∀ a, 0 < o.grid.shape a) (s : Section o P) (distance : ℝ) (n : Option (Idx o.grid.shape → ℂ)) : Section o P :=
  let s := if distance < 0 then { s with distance := s.distance + distance } else s
  let s := (n.map fun n => interact s distance (n (origin o h)) n).getD s
  if 0 < distance then { s with distance := s.distance + distance } else s

/-- beam.py 347–350: `propagate` for a permittivity. -/
noncomputable def propagatePermittivity (h : ∀ a, 0 < o.grid.shape a) (s : Section o P) (distance : ℝ) (eps : Idx o.grid.shape → ℂ) : Section o P :=
  propagate h s distance (some fun x => eps x ^ (1 / 2 : ℂ))

/-- beam.py 406–413: the section of a new `Beam` on a grid of which the propagation axis has the given step and first coordinate, with `s` the section at the origin. -/
noncomputable def entrance (h : ∀ a, 0 < o.grid.shape a) (s : Section o P) (first step : ℝ) : Section o P := propagate h s (first - step) none

/-- beam.py 491–508: `Beam.field` for the list of slices that the generators produce (478–489): the fields, and the section of the beam afterwards.  The `IndexError` for more slices than there are
in the grid, and the zeros in the output when there are fewer, are left out. -/
noncomputable def evaluate (h : ∀ a, 0 < o.grid.shape a) (step : ℝ) : Section o P → List (Option (Idx o.grid.shape → ℂ)) → List (Arr o P) × Section o P
  | s, [] => ([], s)
  | s, n :: ns =>
    let (value, s) := read (propagate h s step n)
    let (values, s) := evaluate h step s ns
    (value :: values, s)

/-- The objects that the generator of beam.py 465–489 yields when they are all collected before they are used: each is the section of the beam itself.  The fields that are read from them. -/
noncomputable def collect (h : ∀ a, 0 < o.grid.shape a) (step : ℝ) (s : Section o P) (slices : List (Option (Idx o.grid.shape → ℂ))) : List (Arr o P) :=
  let exit := slices.foldl (fun s n => propagate h s step n) s
  slices.map fun _ => (read exit).1

end Verif.Beam
