import Verif.Props.BeamExit
import Verif.Props.BeamComplex
import Verif.Props.Dtype

/-!
# Concrete beams that meet the assumptions of C103–C105, C111, C119 and C133
-/

namespace Verif.Beam

open Verif Verif.Backend Complex

/-- `C103_beam_axis`: the second of three axes. -/
example := C103_beam_axis (n := 3) (by norm_num) le_rfl (some 1)

/-- `C104_arrays`: an array with three components, which are the same everywhere. -/
example := C104_arrays (o := pair) ⟨[3, 1, 1, 1], fun i => (i.headD 0 : ℂ) + I⟩ (by decide) (by decide)

/-- `C104_functions`: a function of one argument. -/
example := C104_functions (o := pair) pair_shape ⟨1, fun _ => .ok ⟨[], fun _ => 1⟩⟩

/-- `C105_slice`, `C105_constant` and `C105_slices`: glass, which must not be given as one number. -/
example (s : Section pair scalar) := C105_slice pair_shape s 1e-6 (glassSlice_fills glassSlice (by simp))

example (s : Section pair scalar) := C105_constant 4 1e-7 s ⟨[], fun _ => 2.25⟩ rfl none

example (s : Section pair scalar) := C105_slices pair_shape 1e-7 s glassSlice_fills

/-- `C133_homogeneous` and `C133_again`: four slices, three times. -/
example (s : Section pair vectorial) := C133_homogeneous pair_shape s 0 1e-7 4

example (s : Section pair vectorial) := C133_again pair_shape s 0 1e-7 4 3

/-- `C119_rest`: glass for two slices, in an array for three. -/
example (s : Section pair scalar) (out : List (Arr pair scalar)) (h : out.length = 3) :=
  C119_rest pair_shape (N := 3) s (eps := none) (n := some (slicesOf [glassSlice, glassSlice])) (by
    rw [sections_index]
    exact means_index pair_shape 1e-7 glassSlice_fills) (by simp [indexSlices]) .complex64 out h

end Verif.Beam

namespace Verif.BeamC

open Verif Verif.Backend Complex

/-- `C111_real`, `C111_distances` and `C111_polarization_partial`. -/
example (s : Beam.Section Beam.pair (real scalar)) (F : Beam.Arr Beam.pair (real scalar)) := C111_real Beam.pair_shape s F 1e-6 (some fun _ => 2)

example (s : Section dim vectorial) := C111_distances dim_shape s 1e-6 2e-6

example (F : Arr dim vectorial) := C111_polarization_partial dim_proper (fun h => by simpa [h] using dim_re.1) F (Beam.at' 0) (.inl (Finset.sum_eq_zero fun a _ => by
  rw [show dim.kappa (Beam.at' 0) a = 0 from Beam.kappa_zero a]
  norm_num))

end Verif.BeamC
