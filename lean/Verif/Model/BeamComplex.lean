import Verif.Model.Beam

/-!
# Model of python/macromax/utils/beam.py for complex wavenumbers and background indices

`vacuum_wavenumber`, `vacuum_wavelength`, `background_permittivity` and `background_refractive_index` are all declared as `Optional[Complex]` (20–21).  The same simplifications as in Model/Beam.lean.
-/

namespace Verif.BeamC

open Verif.Fourier Verif.Backend Complex

/-- beam.py 52–71: what a section knows about the light and the background. -/
structure Medium where
  grid : Grid.Obj 3 ℝ
  axis : Fin 3
  k0 : ℂ
  index : ℂ

/-- beam.py 64–69: the wavenumber and the background index that are kept, for the arguments `vacuum_wavenumber`, `vacuum_wavelength`, `background_permittivity`, and
`background_refractive_index`.  The powers of Python's complex numbers, and of negative floats, are principal values. -/
noncomputable def ofArgs (grid : Grid.Obj 3 ℝ) (axis : Fin 3) (wavenumber : ℂ) (wavelength : Option ℂ) (permittivity : ℂ) (index : Option ℂ) : Medium where
  grid := grid
  axis := axis
  k0 := (wavelength.map fun l : ℂ => ((2 * Real.pi : ℝ) : ℂ) / l).getD wavenumber
  index := index.getD (permittivity ^ (1 / 2 : ℂ))

/-- beam.py 158–161: `wavenumber`. -/
noncomputable def Medium.k (m : Medium) : ℂ := m.k0 * m.index

/-- beam.py 79–81: `k_projs` before the propagation axis is set. -/
noncomputable def Medium.transverse (m : Medium) (a : Fin 3) (q : Idx m.grid.shape) : ℂ := if 1 < m.grid.shape a then kOf m.grid a q / m.k else 0

/-- beam.py 82: `k_projs`; the imaginary part of the square root is dropped. -/
noncomputable def Medium.kProj (m : Medium) (a : Fin 3) (q : Idx m.grid.shape) : ℂ :=
  if a = m.axis then (((1 - ∑ b, m.transverse b q ^ 2) ^ (1 / 2 : ℂ)).re : ℂ) else m.transverse a q

/-- beam.py 83–85: `__k_dir`; `np.linalg.norm` is the root of the sum of the squares of the absolute values. -/
noncomputable def Medium.kDir (m : Medium) (q : Idx m.grid.shape) (a : Fin 3) : ℂ := m.kProj a q / (Real.sqrt (∑ b, ‖m.kProj b q‖ ^ 2) : ℝ)

/-- beam.py 62: `__shift_ft`. -/
noncomputable def Medium.shift (m : Medium) (q : Idx m.grid.shape) : ℂ := exp (I * (∑ a, kOf m.grid a q * m.grid.first a : ℝ))

/-- The number of components and what beam.py 296–317 does for each k-vector direction. -/
structure Projection where
  c : ℕ
  project : (Fin 3 → ℂ) → (Fin c → ℂ) → Fin c → ℂ

/-- beam.py 316–317: a scalar field is not projected. -/
abbrev scalar : Projection := ⟨1, fun _ f => f⟩

/-- beam.py 307–315: `np.einsum` does not take the complex conjugate of the direction. -/
noncomputable def projectTransverse (k : Fin 3 → ℂ) (f : Fin 3 → ℂ) : Fin 3 → ℂ :=
  let longitudinal := ∑ i, k i * f i
  fun c => f c - k c * longitudinal

/-- beam.py 305, 307: three polarization components. -/
noncomputable abbrev vectorial : Projection := ⟨3, projectTransverse⟩

/-- An array with the shape of `BeamSection.field`. -/
abbrev Arr (m : Medium) (P : Projection) : Type := Fin P.c → Idx m.grid.shape → ℂ

/-- beam.py 73–75: the state. -/
structure Section (m : Medium) (P : Projection) where
  fieldFt : Arr m P
  distance : ℝ

variable {m : Medium} {P : Projection}

/-- beam.py 234–243: the factor of `__calc_propagator_ft`. -/
noncomputable def Medium.propagator (m : Medium) (distance : ℝ) (q : Idx m.grid.shape) : ℂ := exp (I * distance * m.k * m.kDir q m.axis)

/-- beam.py 254 -/
noncomputable def advance (distance : ℝ) (F : Arr m P) : Arr m P := fun c q => F c q * m.propagator distance q

/-- beam.py 194: `np.allclose(_, 0.0)`. -/
def AllClose0 (F : Arr m P) : Prop := ∀ c q, ‖F c q‖ ≤ 1e-8

/-- beam.py 319–327: `__update_field_ft`. -/
noncomputable def update (F : Arr m P) : Section m P := ⟨fun c q => P.project (m.kDir q) (fun c' => F c' q) c, 0⟩

/-- beam.py 192 and 220: `np.any(self.grid.shape > 1)`. -/
def Medium.Extended (m : Medium) : Prop := ∃ a, 1 < m.grid.shape a

open Classical in
/-- beam.py 245–257: reading `field_ft`. -/
noncomputable def readFt (s : Section m P) : Arr m P × Section m P :=
  if |s.distance| ≤ 1e-8 then (s.fieldFt, s)
  else (advance s.distance s.fieldFt, ⟨advance s.distance s.fieldFt, 0⟩)

open Classical in
/-- beam.py 192–199: the field for the value of `field_ft`. -/
noncomputable def fieldOf (F : Arr m P) : Arr m P :=
  if m.Extended then (if AllClose0 F then fun _ _ => 0 else fun c => ift fun q => F c q * m.shift q)
  else F

/-- beam.py 185–199: reading `field`. -/
noncomputable def read (s : Section m P) : Arr m P × Section m P := (fieldOf (readFt s).1, (readFt s).2)

open Classical in
/-- beam.py 201–228: assigning to `field`. -/
noncomputable def write (f : Arr m P) : Section m P :=
  if m.Extended then update fun c q => ft (f c) q * (starRingEnd ℂ) (m.shift q) else update f

/-- beam.py 259–294: assigning to `field_ft`. -/
noncomputable def writeFt (F : Arr m P) : Section m P := update F

/-- beam.py 361: `np.allclose(refractive_index, refractive_index.ravel()[0])`, where `n0` is the first element. -/
def NearUniform {X : Type} (n0 : ℂ) (n : X → ℂ) : Prop := ∀ x, ‖n x - n0‖ ≤ 1e-8 + 1e-5 * ‖n0‖

/-- beam.py 361–362: the index of `ravel()[0]`. -/
def origin (m : Medium) (h : ∀ a, 0 < m.grid.shape a) : Idx m.grid.shape := fun a => ⟨0, h a⟩

open Classical in
/-- beam.py 358–369: the interaction with a material with refractive index `n`, the first element of which is `n0`. -/
noncomputable def interact (s : Section m P) (distance : ℝ) (n0 : ℂ) (n : Idx m.grid.shape → ℂ) : Section m P :=
  if NearUniform n0 n then
    let deltaN := n0 / m.index - 1
    if ‖deltaN‖ ≤ 1e-8 then s else { s with fieldFt := fun c q => s.fieldFt c q * exp (I * m.k * deltaN * distance) }
  else write fun c x => (read s).1 c x * exp (I * m.k * (n x / m.index - 1) * distance)

open Classical in
/-- beam.py 329–374: `propagate` for a refractive index, or none. -/
noncomputable def propagate (h : ∀ a, 0 < m.grid.shape a) (s : Section m P) (distance : ℝ) (n : Option (Idx m.grid.shape → ℂ)) : Section m P :=
  let s := if distance < 0 then { s with distance := s.distance + distance } else s
  let s := (n.map fun n => interact s distance (n (origin m h)) n).getD s
  if 0 < distance then { s with distance := s.distance + distance } else s

end Verif.BeamC
