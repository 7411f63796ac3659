import Verif.Props.Construct
import Verif.Props.GridArg
import Verif.Props.GridArguments
import Verif.Props.Install
import Verif.Props.Eigenvalues
import Verif.Props.BeamEnergy
import Verif.Props.ScatteringGrid
import Verif.Props.SolverExamples

/-!
Concrete cases that meet the hypotheses of the theorems on arguments: sources, materials, grids, and back ends.
-/

namespace Verif.Construct
open Verif Verif.Assign

/-- `C84_explicit`, `C84_none`, `C84_current`, `C84_source`, and `C84_vectorial`. -/
example := C84_explicit ⟨some false, none, some ⟨[3, 4], fun _ => 1⟩⟩ [4] 1 false rfl
example := C84_none ⟨none, none, none⟩ [4] 1 rfl rfl
example := C84_current ⟨none, some ⟨[3, 4], fun _ => 1⟩, none⟩ [4] (-Complex.I) ⟨[3, 4], fun _ => 1⟩ rfl rfl
example := C84_source ⟨none, none, some ⟨[3, 4], fun _ => 1⟩⟩ [4] 1 ⟨[3, 4], fun _ => 1⟩ rfl
example := C84_vectorial ⟨none, some ⟨[3, 4], fun _ => 2⟩, none⟩ [4] 1 ⟨[3, 4], fun _ => 1⟩ rfl (.inr ⟨rfl, _, rfl, rfl⟩)

/-- `C84_replace_partial` and `C84_history_partial`: a source on all four points is replaced by a number. -/
theorem number_broadcasts (z : ℂ) : CanBroadcast (toMatrixField 1 (⟨[], fun _ => z⟩ : Arr ℂ)) (full 1 ![4]) := fun a => Or.inr ((C30_scalar (d := 1) (⟨[], fun _ => z⟩ : Arr ℂ) rfl).1 a)
example := C84_replace_partial 1 (![4] : Fin 1 → ℕ) 2 ⟨full 1 ![4], fun _ => 5⟩ rfl ⟨[], fun _ => 1⟩ (number_broadcasts 1)
example := C84_history_partial 1 (![4] : Fin 1 → ℕ) 2 ⟨[4], fun _ => 5⟩ (C30_spatial (d := 1) (⟨[4], fun _ => 5⟩ : Arr ℂ) ![4] (by simp)).1 [⟨[], fun _ => 1⟩, ⟨[], fun _ => 7⟩]
  (by
    intro a ha
    simp only [List.mem_cons, List.not_mem_nil, or_false] at ha
    rcases ha with rfl | rfl <;> exact number_broadcasts _)

/-- `C85_electric_scalar`, `C85_electric_tensor`, `C85_magnetic_partial`, and `C85_magnetic_one`: materials on four points and a boundary along the axis. -/
example := C85_electric_scalar 3 (![4] : Fin 1 → ℕ) ⟨[4], fun i => 1 + i.getD 0 0⟩ ⟨[4], fun i => Complex.I * i.getD 0 0⟩ ⟨by simp, by simp⟩ ⟨.inr (by simp), trivial⟩ (by simp) ⟨.inr (by simp), trivial⟩
example := C85_electric_tensor 3 (![4] : Fin 1 → ℕ) ⟨[3, 3, 4], fun i => i.sum⟩ ⟨[4], fun i => Complex.I * i.getD 0 0⟩ rfl (by decide) ⟨.inr (by simp), .inr rfl, .inr rfl, trivial⟩ (by simp)
  ⟨.inr (by simp), trivial⟩
example := C85_magnetic_partial 3 (![4] : Fin 1 → ℕ) ⟨[3, 3, 4], fun i => i.sum⟩ ⟨[4], fun i => Complex.I * i.getD 0 0⟩ rfl ⟨.inr (by simp), .inr rfl, .inr rfl, trivial⟩ (by simp)
  ⟨.inr (by simp), trivial⟩
example := C85_magnetic_one (![4] : Fin 1 → ℕ) ⟨[4], fun i => 1 + i.getD 0 0⟩ ⟨[4], fun i => Complex.I * i.getD 0 0⟩ ⟨by simp, by simp⟩ ⟨.inr (by simp), trivial⟩ (by simp) ⟨.inr (by simp), trivial⟩

end Verif.Construct

namespace Verif.GridArg
open Verif Verif.Assign Verif.Grid Verif.Spec.Grid

/-- `C92_from_ranges`: a number and a range of three coordinates. -/
example := C92_from_ranges .float [[2], [1, 3, 5]] (by
    intro r hr
    simp only [List.mem_cons, List.not_mem_nil, or_false] at hr
    rcases hr with rfl | rfl
    · exact ⟨1, 2, 1, false, le_rfl, by decide +kernel⟩
    · exact ⟨3, 1, 2, false, by norm_num, by decide +kernel⟩)
  [.number (2 : ℚ), .array (vector [1, 3, 5])] rfl (by
    intro k h1 h2
    match k, h1 with
    | 0, _ => rfl
    | 1, _ =>
      refine .inl ⟨rfl, fun j h => ?_⟩
      match j, h with
      | 0, _ | 1, _ | 2, _ => rfl)

/-- `C93_linear`: the same thickness for all sides. -/
example (grid : Obj 2 ℚ) (b : Bound.Absorbing 2 ℚ) := C93_linear (by norm_num) grid ⟨[], fun _ => 3⟩ ⟨[], fun _ => 1 / 4⟩ b

end Verif.GridArg

namespace Verif.Grid

/-- `C01_ndim_given`: a single number of samples for three axes. -/
example := C01_ndim_given (K := ℚ) { shape := some (.scalar .int 4), ndim := some 3 } 3 rfl

end Verif.Grid

namespace Verif.Install

/-- `C127_start_partial` for a machine with nothing but NumPy. -/
example (l : List Config.Entry) (env : Environ) := C127_start_partial (lower := id) (available := fun _ => false) rfl (M := onlyNumpy) (by simp [AllProper, Proper, onlyNumpy]) l env

end Verif.Install

namespace Verif.Roots
open Complex Verif.Spec.Roots

/-- `C26_zero`, `C26_order`, `C27_error`, and `C27_real`. -/
example := C26_zero (eps := 1e-6) (by norm_num) [0, 1e-7, 0] (by simp) (by simp) (by
  intro e he
  simp only [List.mem_cons, List.not_mem_nil, or_false] at he
  rcases he with rfl | rfl | rfl <;> norm_num)
example : ∃ X, calcRoots (1 / 1000000) [2, -3, 1] = .ok X ∧ X.Pairwise fun x y => match x, y with
      | _, none => True
      | none, some _ => False
      | some z, some w => z.re < w.re ∨ (z.re = w.re ∧ z.im ≤ w.im) := by
  obtain ⟨Y, h, -⟩ := C26_full (eps := 1 / 1000000) [2, -3] one_ne_zero (by norm_num) (by simp) (by simp)
    (C26_quadratic_partial one_ne_zero (.inr (.inl (by rw [Real.sqrt_lt' (by norm_num)]; norm_num))))
  exact ⟨_, h, C26_order h⟩
example := C27_error (eps := 1e-6) (by norm_num) (.of ![![1, 2, 3], ![4, 5, 6], ![7, 8, 9]])
example : ∀ y ∈ [(1 : ℂ), 2, 3], y.im = 0 := C27_real (a := Matrix.diagonal ![1, 2, 3])
  (by
    rw [Matrix.IsHermitian, Matrix.diagonal_conjTranspose]
    congr 1
    funext i
    fin_cases i <;> simp)
  fun x => by
    rw [show x • (1 : Matrix (Fin 3) (Fin 3) ℂ) - Matrix.diagonal ![1, 2, 3] = Matrix.diagonal ![x - 1, x - 2, x - 3] by
      ext i j
      fin_cases i <;> fin_cases j <;> simp [Matrix.diagonal], Matrix.det_diagonal, Fin.prod_univ_three]
    simp [mul_assoc]

end Verif.Roots

namespace Verif.Scattering

/-- `ofGrid_kFft` and `ofGrid_kShifted` for a grid with two points. -/
example (k0 tol : ℝ) := ofGrid_kFft (d := 0) Solver.demoGrid k0 tol fun a _ => Solver.demo_step a
example (k0 tol : ℝ) := ofGrid_kShifted (d := 0) Solver.demoGrid k0 tol (fun _ => by change 1 ≤ 2; decide) fun a _ => Solver.demo_step a

end Verif.Scattering

namespace Verif.Beam

/-- `C72_pad` for a grid with two points. -/
example := C72_pad (by norm_num) Solver.demoGrid fun _ => by change 1 ≤ 2; decide

end Verif.Beam
