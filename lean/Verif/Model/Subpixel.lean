import Verif.Model.Backend
import Mathlib.Order.PiLex
import Mathlib.Data.Finset.Max

/-!
# Model of python/macromax/utils/ft/subpixel.py

Images are functions of the indices of the axes that are rolled; where the code permits other axes it treats each of their indices separately.  Data types are not modelled.
-/

namespace Verif.Subpixel

open Verif.Fourier Verif.Backend Complex

variable {d : ℕ} {N : Fin d → ℕ}

/-- subpixel.py 318 and 348: the axes if none are specified, for the given number of shifts. -/
def defaultAxes (size : ℕ) : List ℤ := (List.range size).map fun i : ℕ => (i : ℤ) - size

/-- subpixel.py 321–324: `grid_k`. -/
noncomputable def rollGrid (N : Fin d → ℕ) (s : Fin d → ℝ) : Except PyErr (Grid.Obj d ℝ) :=
  Grid.init true { shape := some ⟨.int, fun a => (N a : ℝ)⟩, step := some ⟨.float, fun a => 2 * Real.pi * s a / N a⟩, originAtCenter := fun _ => false }

/-- subpixel.py 325: `phase_range` for axis `a`. -/
noncomputable def phaseRange (N : Fin d → ℕ) (s : Fin d → ℝ) (a : Fin d) (j : Fin (N a)) : ℝ :=
  match rollGrid N s with
  | .ok g => (g.coords a).getD j 0
  | .error _ => 0

open Classical in
/-- subpixel.py 283–331: `roll_ft`. -/
noncomputable def rollFt (F : Idx N → ℂ) (s : Fin d → ℝ) : Idx N → ℂ :=
  if ∀ a, |s a| ≤ 1e-8 then F
  else fun k => F k * ∏ a, if |2 * Real.pi * s a / N a| ≤ 1e-8 then 1 else exp (-I * phaseRange N s a (k a))

/-- subpixel.py 334–354: `roll`. -/
noncomputable def roll (f : Idx N → ℂ) (s : Fin d → ℝ) : Idx N → ℂ := ift (rollFt (ft f) s)

/-- The factor of a registration: a number, or `np.inf` (261). -/
inductive Factor
  | finite (z : ℂ)
  | inf

/-- subpixel.py 35–46: the attributes of a `Registration`. -/
structure Registration (N : Fin d → ℕ) where
  shift : Fin d → ℝ
  factor : Factor
  error : ℝ
  originalFt : Option (Idx N → ℂ)
  registeredFt : Option (Idx N → ℂ)

/-- subpixel.py 40–46: the constructor, with the image as a Fourier transform, as an array, or neither. -/
noncomputable def Registration.init (shift : Fin d → ℝ) (factor : Factor) (error : ℝ) (originalFt original registeredFt registered : Option (Idx N → ℂ)) : Registration N :=
  ⟨shift, factor, error, originalFt.or (original.map ft), registeredFt.or (registered.map ft)⟩

open Classical in
/-- subpixel.py 84–87; a number divided by infinity is 0. -/
noncomputable def registered (O : Idx N → ℂ) (shift : Fin d → ℝ) : Factor → Idx N → ℂ
  | .finite z => if ‖z‖ ≤ 1e-8 then fun _ => 0 else fun k => rollFt O (-shift) k / z
  | .inf => fun _ => 0

/-- subpixel.py 80–91: `image_ft`.  Without original (and registered) image this and `original_ft` call each other without end. -/
noncomputable def Registration.readImageFt (r : Registration N) : Except PyErr (Idx N → ℂ) × Registration N :=
  match r.registeredFt with
  | some F => (.ok F, r)
  | none =>
    match r.originalFt with
    | none => (.error .recursion, r)
    | some O => (.ok (registered O r.shift r.factor), { r with registeredFt := some (registered O r.shift r.factor) })

/-- subpixel.py 105–112: `original_ft`.  The result for an infinite factor is not a number. -/
noncomputable def Registration.readOriginalFt (r : Registration N) : Except PyErr (Idx N → ℂ) × Registration N :=
  match r.originalFt with
  | some O => (.ok O, r)
  | none =>
    match r.registeredFt with
    | none => (.error .recursion, r)
    | some F =>
      match r.factor with
      | .finite z => (.ok fun k => rollFt F r.shift k * z, { r with originalFt := some fun k => rollFt F r.shift k * z })
      | .inf => (.error .nonFinite, r)

/-- subpixel.py 93–99: `image`. -/
noncomputable def Registration.readImage (r : Registration N) : Except PyErr (Idx N → ℂ) × Registration N := (r.readImageFt.1.map ift, r.readImageFt.2)

/-- subpixel.py 114–117: `original`. -/
noncomputable def Registration.readOriginal (r : Registration N) : Except PyErr (Idx N → ℂ) × Registration N := (r.readOriginalFt.1.map ift, r.readOriginalFt.2)

/-- subpixel.py 55–63: assigning `shift`. -/
noncomputable def Registration.setShift (r : Registration N) (shift : Fin d → ℝ) : Except PyErr Unit × Registration N :=
  match r.registeredFt with
  | none => (.ok (), { r with shift := shift })
  | some _ =>
    match r.readOriginalFt with
    | (.ok O, r) => (.ok (), { r with originalFt := some O, registeredFt := none, shift := shift })
    | (.error e, r) => (.error e, r)

/-! ### Registration against a reference (all axes) -/

open Classical in
/-- `np.unravel_index(np.argmax(f), f.shape)` (212, 232, 250): the first of the largest elements in raster order. -/
noncomputable def argmax (hN : ∀ a, 0 < N a) (f : Idx N → ℝ) : Idx N :=
  ofLex ((Finset.univ.filter fun x : Lex (Idx N) => ∀ y, f y ≤ f (ofLex x)).min' (by
    obtain ⟨x, -, h⟩ := Finset.exists_max_image Finset.univ f ⟨fun a => ⟨0, hN a⟩, Finset.mem_univ _⟩
    exact ⟨toLex x, Finset.mem_filter.2 ⟨Finset.mem_univ _, fun y => h y (Finset.mem_univ _)⟩⟩))

/-- `np.mean` over all axes (173, 209, 255). -/
noncomputable def mean (F : Idx N → ℂ) : ℂ := (∑ k, F k) / ∏ a, (N a : ℂ)

/-- subpixel.py 173 and 255–256: the root of the mean square. -/
noncomputable def norm (F : Idx N → ℂ) : ℝ := Real.sqrt ((∑ k, ‖F k‖ ^ 2) / ∏ a, (N a : ℝ))

/-- subpixel.py 174 and 205: `cross_correlation_ft`. -/
noncomputable def crossFt (R S : Idx N → ℂ) : Idx N → ℂ := fun k => (starRingEnd ℂ) (R k) / norm R * S k

/-- What lines 207–253 find: `shift` and `cross_corr_max`. -/
structure Peak (d : ℕ) where
  shift : Fin d → ℝ
  max : ℂ

open Classical in
/-- subpixel.py 207–218: the peak to the nearest pixel. -/
noncomputable def integerPeak (hN : ∀ a, 0 < N a) (X : Idx N → ℂ) (precision : ℝ) : Peak d :=
  if precision = 0 then ⟨fun _ => 0, mean X⟩
  else
    let location := argmax hN fun x => ‖ift X x‖
    ⟨fun a => (location a : ℕ) + if N a / 2 < location a then (N a : ℝ) else 0, ift X location⟩

/-- `numpy.fft.fftshift` (227). -/
def fftshift (X : Idx N → ℂ) : Idx N → ℂ := fun k => X fun a => ⟨((k a : ℕ) + (N a - N a / 2)) % N a, Nat.mod_lt _ (Nat.zero_lt_of_lt (k a).isLt)⟩

/-- `numpy.fft.ifftshift` (230). -/
def ifftshift (X : Idx N → ℂ) : Idx N → ℂ := fun k => X fun a => ⟨((k a : ℕ) + N a / 2) % N a, Nat.mod_lt _ (Nat.zero_lt_of_lt (k a).isLt)⟩

/-- subpixel.py 221–222: the shape of the array that is sampled twice as densely. -/
def doubled (N : Fin d → ℕ) : Fin d → ℕ := fun a => 2 * N a

open Classical in
/-- subpixel.py 223–227: zero padding.  The coordinates of `Grid(shape, center=center)` are `center - shape // 2`, ... (C02). -/
noncomputable def padded (X : Idx N → ℂ) : Idx (doubled N) → ℂ := fun u =>
  if h : ∀ a, doubled N a / 2 - N a / 2 ≤ u a ∧ (u a : ℕ) < doubled N a / 2 - N a / 2 + N a then
    fftshift X fun a => ⟨u a - (doubled N a / 2 - N a / 2), by have := h a; omega⟩
  else 0

/-- subpixel.py 221–237: the peak to the nearest half pixel. -/
noncomputable def halfPeak (hN : ∀ a, 0 < N a) (X : Idx N → ℂ) : Peak d :=
  let corr := ift (ifftshift (padded X))
  let location := argmax (N := doubled N) (fun a => by have := hN a; unfold doubled; omega) fun x => ‖corr x‖
  ⟨fun a => ((((location a : ℕ) + doubled N a / 2) % doubled N a : ℕ) - (doubled N a / 2 : ℕ) : ℝ) * (1 / 2), corr location / (1 / 2) ^ d⟩

/-- subpixel.py 272: `input_grid` before `.k`. -/
noncomputable def zoomGrid (N : Fin d → ℕ) (step : ℝ) : Grid.Obj d ℝ :=
  ⟨N, fun _ => 1 / step, fun _ => 0, .float, fun _ => false, fun _ => true, fun _ => true, true, false⟩

/-- subpixel.py 268–280: `__zoom_ft` for one or two axes, for which the products of matrices (278) sum over the axis that is intended (see `zoomShape`).
The coordinates of `Grid(nb_output_pixels, first=-offset)` are `j - offset` (C02). -/
noncomputable def zoomFt (X : Idx N → ℂ) (M : ℕ) (step : ℝ) (offset : Fin d → ℝ) : Idx (fun _ : Fin d => M) → ℂ :=
  fun j => ∑ k : Idx N, (∏ a, exp (-I * ((((j a : ℕ) : ℝ) - offset a : ℝ) : ℂ) * (kOf (zoomGrid N step) a k : ℝ))) * X k

/-- subpixel.py 239–253: the refinement of the peak with a precision of less than half a pixel.  `total` is `np.prod(self.shape)`, where `self.shape` is the shape of the reference. -/
noncomputable def refine (X : Idx N → ℂ) (total : ℂ) (precision : ℝ) (hp : 0 < precision) (peak : Peak d) : Peak d :=
  let shift := fun a => roundHalfEven (peak.shift a / precision) * precision
  let M := ⌈1.5 / precision⌉.toNat
  let dftShift : ℝ := (M / 2 : ℕ)
  let subset := fun j => zoomFt X M precision (fun a => dftShift + shift a / precision) j / total
  let location := argmax (N := fun _ : Fin d => M) (fun _ => Int.lt_toNat.2 (Int.ceil_pos.2 (by positivity))) fun j => ‖subset j‖
  ⟨fun a => shift a + (-((location a : ℕ) : ℝ) + dftShift) * precision, subset location⟩

open Classical in
/-- subpixel.py 207–253, for a precision that is not negative. -/
noncomputable def findPeak (hN : ∀ a, 0 < N a) (X : Idx N → ℂ) (total : ℂ) (precision : ℝ) : Peak d :=
  if |precision - roundHalfEven precision| ≤ 1e-8 then integerPeak hN X precision
  else if h : precision < 1 / 2 ∧ 0 < precision then refine X total precision h.2 (halfPeak hN X)
  else halfPeak hN X

open Classical in
/-- subpixel.py 255–266: the registration for a peak of the correlation.  For a subject that is zero the code divides 0 by 0, and the error is not a number; here it is 1. -/
noncomputable def conclude (R S : Idx N → ℂ) (peak : Peak d) : Registration N :=
  let factor : Factor := if ‖peak.max‖ ≤ 1e-8 then .inf else .finite ((norm S : ℂ) ^ 2 / ((starRingEnd ℂ) peak.max * norm R))
  let cosTheta := min 1 |‖peak.max‖ / norm S|
  .init peak.shift factor (Real.sqrt (1 - cosTheta ^ 2)) (some S) none none none

/-- subpixel.py 128–266: `Reference(reference).register(subject, precision=precision)` for images of the same shape, with one or two axes if the
precision is less than 1/2 (see `zoomFt`). -/
noncomputable def register (hN : ∀ a, 0 < N a) (reference subject : Idx N → ℂ) (precision : ℝ) : Registration N :=
  conclude (ft reference) (ft subject) (findPeak hN (crossFt (ft reference) (ft subject)) (∏ a, (N a : ℂ)) precision)

/-- subpixel.py 166–170: `Reference(ndim=d).register(subject, precision=precision)`, a point reference.  Its Fourier transform is an array of ones with a single element, which is
broadcast to the shape of the subject in line 205, but not in line 248. -/
noncomputable def registerPoint (hN : ∀ a, 0 < N a) (subject : Idx N → ℂ) (precision : ℝ) : Registration N :=
  conclude (fun _ => 1) (ft subject) (findPeak hN (crossFt (fun _ => 1) (ft subject)) 1 precision)

/-- subpixel.py 183: the default precision (147–148). -/
noncomputable def defaultPrecision : ℝ := 1 / 128

/-! ### The shapes in `__zoom_ft`, for any number of axes -/

/-- `numpy.swapaxes(0, i)`. -/
def swapaxes (i : ℕ) (s : List ℕ) : List ℕ := (s.set 0 (s.getD i 0)).set i (s.getD 0 0)

/-- The shape of `matrix @ array` for a matrix of `m` by `n`: the sum is over the only axis, or over the second to last. -/
def matmulShape (m n : ℕ) (s : List ℕ) : Except PyErr (List ℕ) :=
  let axis := s.length - 2
  if s.getD axis 0 = n then .ok (s.set axis m) else .error .valueError

/-- subpixel.py 275–280: the shape of `zoomed`. -/
def zoomShape (M : ℕ) (shape : List ℕ) : Except PyErr (List ℕ) :=
  (List.range shape.length).foldlM (fun s i => (matmulShape M (shape.getD i 0) (swapaxes i s)).map (swapaxes i)) shape

end Verif.Subpixel
