import Verif.Props.BoundClass
import Verif.Props.Construct
import Verif.Props.GridArg
import Verif.Props.GridArguments
import Verif.Props.Dtype
import Verif.Props.Torch
import Verif.Props.BeamMoreExamples

/-!
# Concrete cases that meet the assumptions of C01, C21, C85, C93, C104, C118, C129 and C138
-/

namespace Verif.Bound

open Verif.Grid Verif.Spec.Bound

theorem exampleGrid_onGrid (k : ℕ) (hk : k < 5) : OnGrid (exampleGrid 1) ![(k : ℚ)] := by
  intro a
  have : a = 0 := Subsingleton.elim _ _
  subst this
  exact ⟨k, hk, by simp [axisOf, Axis.first, exampleGrid, Spec.Grid.firstSample, Spec.Grid.centerPos]⟩

/-- `C21_monotone_partial`: the sample at 0, where the absorption is at least that at 1. -/
example := C21_monotone_partial (thickness := fun _ _ => 2) (kappaMax := fun _ _ => 1 / 4) (exampleGrid_plain 1) (fun _ => by simp [exampleGrid]) (exampleGrid_onGrid 1 (by norm_num))
  (exampleGrid_onGrid 0 (by norm_num)) (fun _ _ => by norm_num) (fun a s => by
    have : a = 0 := Subsingleton.elim _ _
    subst this
    cases s <;> simp [axisOf, Axis.first, Axis.last, Axis.fromEdge, exampleGrid, Spec.Grid.firstSample, Spec.Grid.centerPos] <;> norm_num)

/-- `C21_profile_partial`: the sample at 1, halfway the boundary. -/
example := C21_profile_partial (thickness := fun _ _ => 2) (kappaMax := fun _ _ => 1 / 4) (exampleGrid_plain 1) (fun _ => by simp [exampleGrid]) (exampleGrid_onGrid 1 (by norm_num))
  (r := fun _ s => if s then 0 else 1 / 2) (fun a s => by
    have : a = 0 := Subsingleton.elim _ _
    subst this
    cases s <;> simp [RelativeDepth, axisOf, Axis.first, Axis.last, Axis.fromEdge, exampleGrid, Spec.Grid.firstSample, Spec.Grid.centerPos] <;> norm_num)

/-- `C138_own`: `class B(AbsorbingBound, Magnetic)` with an electric susceptibility of its own. -/
example {P : Type} (b : Data P) (chi : P → ℂ) := C138_own b (l := []) (r := [.absorbing, .bound, .electric, .magnetic]) (i := 0) (own := { electric := some chi }) rfl
  ⟨by simp, by simp, by simp, fun _ _ h => absurd h (by simp)⟩ (by simp)

end Verif.Bound

namespace Verif.Construct

open Verif.Assign

/-- `C85_elementwise`: a row plus a column. -/
example := C85_elementwise (f := (· + ·)) (a := ⟨[1, 4], fun i => i.getD 1 0⟩) (b := ⟨[3, 1], fun i => i.getD 0 0⟩) rfl

end Verif.Construct

namespace Verif.GridArg

/-- `C93_raises`: three thicknesses for two sides. -/
example := C93_raises (n := 2) (⟨[3], fun i => ((i.headD 0 : ℕ) : ℚ)⟩) fun t h => by cases h

end Verif.GridArg

namespace Verif.Grid

/-- `C01_len`: a shape with two numbers. -/
example {g} (h : mk ({ shape := some (.vector .int [4, 3]), step := some (.scalar .float (1 / 2)) } : RawArgs ℚ) = .ok g) := (C01_len h).1 ⟨_, .head _, _, _, rfl⟩

end Verif.Grid

namespace Verif.Dtype

/-- `C118_documented_partial`, `C118_keeps_partial`: a source with single precision. -/
example := C118_documented_partial .torch none (.distribution .complex64) (by simp) (by simp) (by simp)

example := C118_keeps_partial .float32 (by simp) (by simp)

end Verif.Dtype

namespace Verif.Roots

/-- `C129_hermitian`: a multiple of the identity. -/
example {eps : ℝ} (heps : 2 * eps ≤ 1) (z : ℝ) : ∃ Z : List ℂ, calcRootsTorch eps (charCoefficients ((z : ℂ) • (1 : Matrix (Fin 3) (Fin 3) ℂ))) = .ok (Z.map some) := by
  have hE : Spec.Roots.Eigenvalues ((z : ℂ) • (1 : Matrix (Fin 3) (Fin 3) ℂ)) [(z : ℂ), (z : ℂ), (z : ℂ)] := fun x => by
    rw [← sub_smul, Matrix.det_smul, Matrix.det_one]
    simp
    ring
  have h : calcRoots eps (charCoefficients ((z : ℂ) • (1 : Matrix (Fin 3) (Fin 3) ℂ))) = .ok ([(z : ℂ), (z : ℂ), (z : ℂ)].map some) := C27_multiple heps _ _ hE
  have hz : ((z : ℂ) • (1 : Matrix (Fin 3) (Fin 3) ℂ)).IsHermitian := by
    rw [Matrix.IsHermitian, Matrix.conjTranspose_smul, Matrix.conjTranspose_one, RCLike.star_def, Complex.conj_ofReal]
  obtain ⟨Z, hZ, -⟩ := Torch.C129_hermitian hz h hE
  exact ⟨Z, hZ⟩

end Verif.Roots

namespace Verif.Beam

/-- `C104_read` and `C104_material_partial`: glass, as a function of three coordinates that does not use these. -/
example (s : New pair) (hs : s.isComplex = true) := C104_read pair_shape s hs 1e-6

example (s : Section pair scalar) := C104_material_partial pair_shape s 1e-6 ⟨3, fun _ => .ok glassSlice⟩ rfl rfl (glassSlice_fills glassSlice (by simp))

end Verif.Beam
