import Verif.Num
import Verif.Model.Fourier
import Verif.Model.Backend
import Mathlib.Analysis.SpecialFunctions.Pow.Real

/-!
# Model of the modes, sources and detectors of `ScatteringMatrix` in python/macromax/matrix.py

The grid has the propagation axis (0) and `d` transverse axes.  Coordinates and wavevectors of the grid are those that C02 and C05 prove for `Grid`, `Setup.ofGrid` is the connection.
Arithmetic is exact.  The transverse indices are multi-indices: `np.unravel_index`, `np.ravel_multi_index` and the reshapes that go with them are left out.  Input and output vectors have
the shape [side, mode, polarization] to which the code reshapes them (548, 629); `unflatten` is the conversion.
-/

namespace Verif.Scattering

open Verif.Fourier Complex

variable {d : ℕ}

/-- What the methods use of the grid, the wavenumber, and the tolerance `tol` of line 455. -/
structure Setup (d : ℕ) where
  shape0 : ℕ
  step0 : ℝ
  first0 : ℝ
  shape : Fin d → ℕ
  step : Fin d → ℝ
  first : Fin d → ℝ
  k0 : ℝ
  tol : ℝ

/-- The setup for a grid, of which the origin is in the centre of the coordinate ranges, as is the default.  `Setup.position` and the other coordinates are those of the `Grid` object:
`Props/ScatteringGrid.lean`. -/
noncomputable def Setup.ofGrid (g : Grid.Obj (d + 1) ℝ) (k0 tol : ℝ) : Setup d := ⟨g.shape 0, g.step 0, g.first 0, fun a => g.shape a.succ, fun a => g.step a.succ, fun a => g.first a.succ, k0, tol⟩

/-- `grid[0].ravel()[i]` -/
def Setup.position (s : Setup d) (i : Fin s.shape0) : ℝ := s.first0 + i * s.step0

/-- The coordinate of `grid.k.as_origin_at_center` with index `j`. -/
noncomputable def Setup.kShifted (s : Setup d) (a : Fin d) (j : Fin (s.shape a)) : ℝ :=
  2 * Real.pi * ((((j : ℕ) : ℤ) - ((s.shape a / 2 : ℕ) : ℤ) : ℤ) / (s.shape a * s.step a))

/-- The number of periods of the wave with index `q` in a Fourier transform of length `n`. -/
def centred (n q : ℕ) : ℤ := if 2 * q < n then q else (q : ℤ) - n

/-- The coordinate of `grid.k` with index `q`. -/
noncomputable def Setup.kFft (s : Setup d) (a : Fin d) (q : Fin (s.shape a)) : ℝ := 2 * Real.pi * ((centred (s.shape a) q : ℤ) / (s.shape a * s.step a))

/-- 456–458: `propagating`, for the coordinates of the axes that are left and the current `k_abs`. -/
def propagatesFrom (tol : ℝ) : ℝ → List ℝ → Prop
  | _, [] => True
  | kAbs, k :: ks => |k| < kAbs - tol ∧ propagatesFrom tol (Real.sqrt (max (kAbs ^ 2 - k ^ 2) 0)) ks

/-- All multi-indices of an array in raster order, the last axis varies fastest. -/
def raster : (d : ℕ) → (n : Fin d → ℕ) → List (Idx n)
  | 0, _ => [fun a => a.elim0]
  | d + 1, n => (List.finRange (n 0)).flatMap fun i => (raster d fun a => n a.succ).map fun x => Fin.cons i x

/-- 463–464: `(subs - shape // 2) % shape`. -/
def unshift {n : Fin d → ℕ} (j : Idx n) : Idx n := fun a =>
  ⟨((((j a : ℕ) : ℤ) - ((n a / 2 : ℕ) : ℤ)) % ((n a : ℕ) : ℤ)).toNat, by
    have h : 0 < n a := (Nat.zero_le _).trans_lt (j a).2
    have h1 := Int.emod_lt_of_pos (((j a : ℕ) : ℤ) - ((n a / 2 : ℕ) : ℤ)) (by exact_mod_cast h : (0 : ℤ) < (n a : ℤ))
    have h2 := Int.emod_nonneg (((j a : ℕ) : ℤ) - ((n a / 2 : ℕ) : ℤ)) (by exact_mod_cast h.ne' : ((n a : ℕ) : ℤ) ≠ 0)
    omega⟩

open Classical in
/-- 452–467: `__mode_direction_indices`. -/
noncomputable def Setup.modes (s : Setup d) : List (Idx s.shape) :=
  ((raster d s.shape).filter fun j => propagatesFrom s.tol s.k0 (List.ofFn fun a => s.kShifted a (j a))).map unshift

/-- The number of modes per side and polarization. -/
noncomputable abbrev Setup.count (s : Setup d) : ℕ := s.modes.length

/-- The index of mode `m` in transverse k-space. -/
noncomputable def Setup.mode (s : Setup d) (m : Fin s.count) : Idx s.shape := s.modes.get m

/-- 558–562, 721–725: `k_vector_dir` of a mode; components that the grid does not have are 0. -/
noncomputable def Setup.transverseDir (s : Setup d) (q : Idx s.shape) (c : Fin 2) : ℝ := if h : (c : ℕ) < d then s.kFft ⟨c, h⟩ (q ⟨c, h⟩) / s.k0 else 0

noncomputable def Setup.axialDir (s : Setup d) (q : Idx s.shape) : ℝ := Real.sqrt (max (1 - ∑ c, s.transverseDir q c ^ 2) 0)

/-- 519–522: `__norm` for two components. -/
noncomputable def norm2 (v : Fin 2 → ℝ) : Fin 2 → ℝ :=
  let n := Real.sqrt (v 0 ^ 2 + v 1 ^ 2)
  fun c => v c / (n + if n = 0 then 1 else 0)

/-- 519–522: `__norm` for three components. -/
noncomputable def norm3 (v : Fin 3 → ℝ) : Fin 3 → ℝ :=
  let n := Real.sqrt (v 0 ^ 2 + v 1 ^ 2 + v 2 ^ 2)
  fun c => v c / (n + if n = 0 then 1 else 0)

/-- 565–567, 730–732: `radial_dir`. -/
noncomputable def radialDir (k : Fin 3 → ℝ) : Fin 3 → ℝ := norm3 fun c => (k 0 * 1 + k 1 * 0 + k 2 * 0) * k c - if c = 0 then 1 else 0

/-- 568, 733: `radial_mode_dir`. -/
noncomputable def radialModeDir (k : Fin 3 → ℝ) : Fin 2 → ℝ := norm2 fun c => k c.succ

/-- How `p` polarizations are converted to the `c` components of the field, and back, for a plane wave with direction `k`. -/
structure Polarization where
  p : ℕ
  c : ℕ
  rotate : (Fin 3 → ℝ) → (Fin p → ℂ) → Fin c → ℂ
  unrotate : (Fin 3 → ℝ) → (Fin c → ℂ) → Fin p → ℂ

/-- 584–585, 737–738: a scalar calculation. -/
def scalar : Polarization := ⟨1, 1, fun _ a => a, fun _ f => f⟩

/-- 579–583: the polarization of a mode with direction `k` and amplitudes `a`. -/
noncomputable def rotateVectorial (k : Fin 3 → ℝ) (a : Fin 2 → ℂ) : Fin 3 → ℂ :=
  let radialModeNorm := a 0 * radialModeDir k 0 + a 1 * radialModeDir k 1
  Fin.cons (radialModeNorm * radialDir k 0) fun (c : Fin 2) => radialModeNorm * radialDir k c.succ + (a c - radialModeNorm * radialModeDir k c)

/-- 728, 734–736: the amplitudes of a mode with direction `k` and field `f`. -/
noncomputable def unrotateVectorial (k : Fin 3 → ℝ) (f : Fin 3 → ℂ) : Fin 2 → ℂ :=
  let along := f 0 * k 0 + f 1 * k 1 + f 2 * k 2
  let f : Fin 3 → ℂ := fun c => f c - along * k c
  let radialModeNorm := f 0 * radialDir k 0 + f 1 * radialDir k 1 + f 2 * radialDir k 2
  fun c => (f c.succ - radialModeNorm * radialDir k c.succ) + radialModeNorm * radialModeDir k c

/-- A vectorial calculation. -/
noncomputable def vectorial : Polarization := ⟨2, 3, rotateVectorial, unrotateVectorial⟩

/-- A vector of amplitudes: [side, mode, polarization]. -/
abbrev Amplitudes (s : Setup d) (P : Polarization) : Type := Fin 2 → Fin s.count → Fin P.p → ℂ

/-- A field on the calculation grid: [component, propagation axis, *transverse axes]. -/
abbrev Field (s : Setup d) (P : Polarization) : Type := Fin P.c → Fin s.shape0 → Idx s.shape → ℂ

/-- The direction of the k-vector of a mode. -/
noncomputable def Setup.dir (s : Setup d) (m : Fin s.count) : Fin 3 → ℝ := Fin.cons (s.axialDir (s.mode m)) (s.transverseDir (s.mode m))

/-- 588: the phase at the first sample of the transverse axes. -/
noncomputable def Setup.phase (s : Setup d) (m : Fin s.count) : ℂ := exp (I * (∑ a : Fin d, s.k0 * (s.kFft a (s.mode m a) / s.k0) * s.first a : ℝ))

/-- 591–592: the phase at a distance along the propagation axis. -/
noncomputable def Setup.axialPhase (s : Setup d) (m : Fin s.count) (x : ℝ) : ℂ := exp (I * (s.k0 * s.axialDir (s.mode m) * x : ℝ))

/-- 577–603 of `srcvec2freespace`: the field of one side before the final conjugation, for its amplitudes divided by the square root of the axial component. -/
noncomputable def Setup.oneSide (s : Setup d) (P : Polarization) (v : Fin s.count → Fin P.p → ℂ) : Field s P := fun c i =>
  let perMode : Fin s.count → ℂ := fun m => P.rotate (s.dir m) (v m) c * s.phase m * s.axialPhase m (s.position i)
  -- 595–597: `field_ift[:, :, self.__mode_direction_indices[::-1]] = field_ift_per_mode`
  let fieldIft : Idx s.shape → ℂ := (List.finRange s.count).foldl (fun f m => Function.update f (s.mode (Fin.rev m)) (perMode m)) fun _ => 0
  ft fieldIft

/-- 576: `np.allclose(input_vector_single_side, 0.0)`. -/
def allClose0 {M p : ℕ} (v : Fin M → Fin p → ℂ) : Prop := ∀ m q, ‖v m q‖ ≤ 1e-8

open Classical in
/-- 528–610: `srcvec2freespace`. -/
noncomputable def Setup.freespace (s : Setup d) (P : Polarization) (v : Amplitudes s P) : Field s P :=
  let w : Amplitudes s P := fun side m q => v side m q / (Real.sqrt (s.axialDir (s.mode m)) : ℝ)
  fun c i x =>
    (if allClose0 (w 0) then 0 else s.oneSide P (w 0) c i x) +
    (if allClose0 (w 1) then 0 else (starRingEnd ℂ) (s.oneSide P (fun m q => (starRingEnd ℂ) (w 1 m q)) c i x))

/-- 685–755: `detfield2detvec`, for one detector plane per side (a detection volume of one layer, 478, so that the transform along the propagation axis and the sum over it, 706–712, do
nothing).  The planes are in the order of `__detector_volumes_indices`: back, front. -/
noncomputable def Setup.detect (s : Setup d) (P : Polarization) (planes : Fin 2 → Fin s.shape0) (field : Field s P) : Amplitudes s P := fun side m q =>
  let conjugate : ℂ → ℂ := fun z => if side = 0 then z else (starRingEnd ℂ) z
  let planeIft : Fin P.c → Idx s.shape → ℂ := fun c => ift fun x => conjugate (field c (planes side) x)
  let atMode : Fin P.c → ℂ := fun c => planeIft c (s.mode (Fin.rev m))
  conjugate (P.unrotate (s.dir m) atMode q * exp (-I * s.k0 * (∑ a : Fin d, s.kFft a (s.mode m a) / s.k0 * s.first a : ℝ)) *
    exp (-I * (s.k0 * s.axialDir (s.mode m) * s.position (planes side) : ℝ)) * (Real.sqrt (s.axialDir (s.mode m)) : ℝ))

/-- 801: the vector without one of its sides. -/
def mask {s : Setup d} {P : Polarization} (v : Amplitudes s P) (side : Fin 2) : Amplitudes s P := fun i m q => if i = side then 0 else v i m q

/-- 798–811: what `_matvec` calculates for a vector that is not cached, when `solve` is the field of `srcvec2detfield`. -/
noncomputable def Setup.scatter (s : Setup d) (P : Polarization) (planes : Fin 2 → Fin s.shape0) (solve : Amplitudes s P → Field s P) (v : Amplitudes s P) : Amplitudes s P :=
  let outward : Field s P := solve v
  let outward : Field s P := fun c i x => if i = planes 0 then outward c i x - s.freespace P (mask v 0) c i x else outward c i x
  let outward : Field s P := fun c i x => if i = planes 1 then outward c i x - s.freespace P (mask v 1) c i x else outward c i x
  s.detect P planes outward

/-- 757–768: `detvec2srcvec`: `np.fft.fftshift` of the complex conjugate, element `i` of which is element `(i - n // 2) mod n`. -/
noncomputable def detvec2srcvec {n : ℕ} (v : Fin n → ℂ) : Fin n → ℂ := fun i =>
  (starRingEnd ℂ) (v ⟨((((i : ℕ) : ℤ) - ((n / 2 : ℕ) : ℤ)) % (n : ℤ)).toNat, by
    have h : 0 < n := (Nat.zero_le _).trans_lt i.2
    have h1 := Int.emod_lt_of_pos (((i : ℕ) : ℤ) - ((n / 2 : ℕ) : ℤ)) (by exact_mod_cast h : (0 : ℤ) < (n : ℤ))
    have h2 := Int.emod_nonneg (((i : ℕ) : ℤ) - ((n / 2 : ℕ) : ℤ)) (by exact_mod_cast h.ne' : (n : ℤ) ≠ 0)
    omega⟩)

/-- 548, 629, 755: the element of a vector for the side, mode and polarization. -/
def unflatten {M p : ℕ} (v : Fin (2 * p * M) → ℂ) : Fin 2 → Fin M → Fin p → ℂ := fun side m q => v ⟨(side * M + m) * p + q, by
  have h1 : (side : ℕ) * M + m + 1 ≤ 2 * M := by
    have h2 : (side : ℕ) ≤ 1 := by omega
    have h3 := m.2
    have h4 : (side : ℕ) * M ≤ 1 * M := Nat.mul_le_mul_right _ h2
    omega
  have h5 : ((side : ℕ) * M + m + 1) * p ≤ 2 * M * p := Nat.mul_le_mul_right _ h1
  have h6 := q.2
  have h7 : ((side : ℕ) * M + m + 1) * p = (side * M + m) * p + p := by ring
  have h8 : 2 * M * p = 2 * p * M := by ring
  omega⟩

/-- 631–632: `source_amplitude`, with the angular frequency that belongs to the wavenumber (C31) and the constants of nature `c` and `mu0`. -/
noncomputable def Setup.sourceAmplitude (s : Setup d) (c mu0 : ℝ) : ℂ := -I * (s.k0 * c : ℝ) * mu0 * (1 / (c * mu0 * s.step0 / 2) : ℝ)

/-- 634–637: `k_transverse_cos` for a mode. -/
noncomputable def Setup.transverseCos (s : Setup d) (q : Idx s.shape) : ℝ := Real.sqrt (max (1 - (Real.sqrt (∑ a, s.kFft a (q a) ^ 2) / s.k0) ^ 2) 0)

/-- 612–648: `srcvec2source` without `out`, for the source planes (front, back). -/
noncomputable def Setup.source (s : Setup d) (P : Polarization) (c mu0 : ℝ) (planes : Fin 2 → Fin s.shape0) (v : Amplitudes s P) : Field s P :=
  let sourceVector : Amplitudes s P := fun side m q => v side m q * (s.transverseCos (s.mode m) * s.sourceAmplitude c mu0)
  let masked : Fin 2 → Amplitudes s P := fun keep side m q => sourceVector side m q * if side = keep then 1 else 0
  let out : Field s P := fun _ _ _ => 0
  let out : Field s P := fun c i x => if i = planes 0 then s.freespace P (masked 0) c i x else out c i x
  fun c i x => if i = planes 1 then s.freespace P (masked 1) c i x else out c i x

/-- 755: `.ravel()`: the vector of the amplitudes for the sides, modes and polarizations. -/
def flatten {M p : ℕ} (w : Fin 2 → Fin M → Fin p → ℂ) : Fin (2 * p * M) → ℂ := fun i =>
  have hp : 0 < p := Nat.pos_of_ne_zero fun h => by have := i.2; simp [h] at this
  have hM : 0 < M := Nat.pos_of_ne_zero fun h => by have := i.2; simp [h] at this
  w ⟨i / p / M, by rw [Nat.div_div_eq_div_mul, Nat.div_lt_iff_lt_mul (Nat.mul_pos hp hM), ← mul_assoc]; exact i.2⟩ ⟨i / p % M, Nat.mod_lt _ hM⟩ ⟨i % p, Nat.mod_lt _ hp⟩

/-- 798–811, for the vector: what is calculated for a column, when `solveField` is the field that `source2detfield` returns for a source (650–683).  `sources` and `detectors` are the planes. -/
noncomputable def Setup.product (s : Setup d) (P : Polarization) (c mu0 : ℝ) (sources detectors : Fin 2 → Fin s.shape0) (solveField : Field s P → Field s P) (v : Fin (2 * P.p * s.count) → ℂ) :
    Fin (2 * P.p * s.count) → ℂ :=
  flatten (s.scatter P detectors (fun w => solveField (s.source P c mu0 sources w)) (unflatten v))

/-- 940–950, 983–985: what a DepositionMatrix with the default operators calculates for a vector that is not cached. -/
noncomputable def Setup.deposit (s : Setup d) (P : Polarization) (c mu0 : ℝ) (sources detectors : Fin 2 → Fin s.shape0) (solveField : Field s P → Field s P) (v : Fin (2 * P.p * s.count) → ℂ) :
    Fin (2 * P.p * s.count) → ℂ :=
  flatten (s.detect P detectors (solveField (s.source P c mu0 sources (unflatten v))))

/-- `int` of a floating point number: truncation. -/
noncomputable def truncate (x : ℝ) : ℤ := if 0 ≤ x then ⌊x⌋ else ⌈x⌉

/-- 472–474: `__source_planes`, for the number of samples and the step along the propagation axis, and the thickness of the boundary at both ends. -/
noncomputable def sourcePlanes (N : ℕ) (step front back : ℝ) : ℤ × ℤ := (truncate (front / step) + 1, N - truncate (back / step) - 1)

/-- 476–477: the detector planes (front, back), which are a wavelength further. -/
noncomputable def detectorPlanes (N : ℕ) (step front back wavelength : ℝ) : ℤ × ℤ := (truncate ((front + wavelength) / step) + 1, N - truncate ((back + wavelength) / step) - 1)

end Verif.Scattering
