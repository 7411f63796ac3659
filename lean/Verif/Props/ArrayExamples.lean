import Verif.Props.WorkArrays
import Verif.Props.Torch
import Verif.Props.SubpixelModule
import Verif.Props.SubpixelLimits
import Verif.Props.SubpixelRegistration
import Verif.Props.SubpixelAxes

/-!
Concrete cases that meet the hypotheses of the theorems on the arrays that the solver works in, on PyTorch, and on subpixel registration.
-/

namespace Verif.WorkArrays
open Verif Verif.Fourier Verif.Backend Verif.Solver Complex

theorem demo_wf : WF demoSys.mem := (C81_initial _ _ _ demoState).1

/-- `C81_step`, `C81_accessors`, and `C81_energy` for the state of two points in `demoSys`, with FFTW. -/
example (junk : Field 3 two) := C81_step (demo true junk).env (demo true junk).kind (demo true junk).k demoState demoSys.mem demo_wf
example (junk : Field 3 two) := C81_accessors (demo true junk).env (demo true junk).co 1 (demo true junk).k 0 (demo true junk).x0 demoState demoSys.mem demo_wf
example (junk : Field 3 two) := C81_energy (demo true junk).env (demo true junk).co 1 (demo true junk).k 0 (demo true junk).x0 demoState demoSys.mem demo_wf

/-- `C82_partial` for H with FFTW and D without it, and `C82_alias` for D with FFTW. -/
example (junk : Field 3 two) := C82_partial (demo true junk) demoSys demoSys_inv .readH trivial
example (junk : Field 3 two) := C82_partial (demo false junk) demoSys demoSys_inv .readD (.inl rfl)
example (junk : Field 3 two) := C82_alias (demo true junk) rfl ⟨0, by decide⟩ demoSys demoSys_inv fun _ _ => 1

/-- `C83_transversal`, `C83_longitudinal_partial`, and `C83_undetermined` for the array for the input of Fourier transforms. -/
theorem work_ftIn : Work ftIn demoSys.mem := ⟨.inl rfl, by decide, by decide⟩
example (junk : Field 3 two) := C83_transversal (demo true junk).env (demo true junk).k (by decide) ftIn demoSys.mem demo_wf work_ftIn
example (junk : Field 3 two) := C83_longitudinal_partial (demo false junk).env (.inl rfl) (demo false junk).k (by decide) ftIn demoSys.mem demo_wf work_ftIn
example (junk : Field 3 two) := C83_undetermined (demo true junk).env rfl ⟨0, by decide⟩ rfl (demo true junk).k (by decide) ftIn demoSys.mem

end Verif.WorkArrays

namespace Verif.Torch
open Verif Verif.MatrixField Verif.Solver Verif.Fourier Complex

/-- `C129_out` for the product of a matrix and a vector into that vector. -/
example : ∃ r, MatrixField.mulOut (⟨3, 3, fun i j _ => i + j⟩ : MF Unit) ⟨3, 1, fun i _ _ => i⟩ ⟨3, 1, fun i _ _ => i⟩ = .ok r ∧
    ∃ s, mulOut (⟨3, 3, fun i j _ => i + j⟩ : MF Unit) ⟨3, 1, fun i _ _ => i⟩ ⟨3, 1, fun i _ _ => i⟩ = some (s, ⟨3, 1, fun i _ _ => i⟩) ∧ Agree s r := by
  obtain ⟨s, o, h, ha, ho⟩ := C129_out (⟨3, 3, fun i j _ => i + j⟩ : MF Unit) ⟨3, 1, fun i _ _ => i⟩ ⟨3, 1, fun i _ _ => i⟩ (.inr (.inr rfl)) _ rfl
  cases ho
  exact ⟨_, rfl, s, h, ha⟩

/-- `C129_assign` for a vector that is repeated for the four points of a line, and for a row of two elements, which is rejected by both. -/
example := C129_assign 3 (.inr rfl) (![4] : Fin 1 → ℕ) (⟨[3, 1, 1], fun i => i⟩ : Assign.Arr (List ℕ))

/-- `C129_eigenvalue` for a tensor that is not a multiple of the identity. -/
example := C129_eigenvalue (N := (![4] : Fin 1 → ℕ)) (A := fun _ => Matrix.diagonal ![1, 2, 3]) fun _ => by
  rw [Matrix.IsHermitian, Matrix.diagonal_conjTranspose]
  congr 1
  funext i
  fin_cases i <;> simp

/-- `C129_fields` for two points in a line, with FFTW and with PyTorch. -/
example (junk : Field 3 WorkArrays.two) (scalar : Tensor 3 WorkArrays.two → Bool) := C129_fields (WorkArrays.demo true junk).env (env scalar) (WorkArrays.demo true junk).co 1
  (WorkArrays.demo true junk).k 0 (WorkArrays.demo true junk).x0 WorkArrays.demoState WorkArrays.demoState WorkArrays.demoSys.mem WorkArrays.demoSys.mem WorkArrays.demo_wf WorkArrays.demo_wf rfl

end Verif.Torch

namespace Verif.Subpixel
open Verif.Fourier Verif.Spec.Subpixel Complex

/-- Images of 4 by 5 pixels. -/
abbrev small : Fin 2 → ℕ := ![4, 5]
theorem small_pos (a : Fin 2) : 0 < small a := by fin_cases a <;> norm_num [small]
theorem small_resolves : Resolves small defaultPrecision := ⟨by rw [unit_default]; norm_num, fun a => by rw [unit_default]; fin_cases a <;> norm_num [small]⟩

/-- The dot, twice as bright and displaced over (1, 2) pixels. -/
noncomputable def dotMoved : Idx small → ℂ := fun x => 2 * circular (dot small) ![1, 2] x
theorem dotMoved_factor : (register small_pos (dot small) dotMoved defaultPrecision).factor = .finite 2 :=
  (C60_shift_partial small_pos (dot _) 2 ![1, 2] defaultPrecision covers_default small_resolves (by norm_num) (by rw [energy_dot small_pos]; norm_num) (dot_unique fun a => by fin_cases a <;> norm_num [small])).1
theorem dotMoved_effective : Effective small (register small_pos (dot small) dotMoved defaultPrecision).shift := effective_register small_pos _ _ _ small_resolves

/-- `C60_distance`, `C60_error_partial`, `C60_factor_partial`, and `C60_optimal_partial` for the displaced dot. -/
example := C60_distance small_pos (dot small) dotMoved defaultPrecision 2 dotMoved_factor dotMoved_effective
example := C60_error_partial small_pos (dot small) dotMoved defaultPrecision 2 dotMoved_factor (by norm_num) dotMoved_effective
example (m : Fin 2 → ℤ) (a : ℂ) : ∃ g, (register small_pos (dot small) dotMoved defaultPrecision).readImage.1 = .ok g ∧
    (energy fun x => dot small x - g x) ≤ (energy fun x => dot small x - a * roll dotMoved (-(register small_pos (dot small) dotMoved defaultPrecision).shift) x) ∧
    (energy fun x => dot small x - g x) ≤ energy fun x => dot small x - a * circular dotMoved m x := by
  obtain ⟨g, hg, -, -⟩ := C60_error_partial small_pos (dot small) dotMoved defaultPrecision 2 dotMoved_factor (by norm_num) dotMoved_effective
  exact ⟨g, hg, C60_factor_partial small_pos _ _ _ 2 dotMoved_factor (by norm_num) dotMoved_effective g hg a,
    C60_optimal_partial small_pos _ _ _ covers_default 2 dotMoved_factor (by norm_num) dotMoved_effective g hg a m⟩

/-- `C60_point` for a precision of half a pixel. -/
example := C60_point small_pos dotMoved (1 / 2) (.inr (by norm_num))

/-- `C61_registered_partial` and `C61_consistent_partial` for a factor of 2 and an assignment of the shift. -/
example (g : Idx small → ℂ) := C61_registered_partial (fun _ => 1 / 2) 2 (by norm_num) 0 g [.readImage, .setShift ![1, 2], .readOriginalFt]
example (f : Idx small → ℂ) := C61_consistent_partial (fun _ => 1 / 2) 2 (by norm_num) 0 f [.readImage, .setShift ![1, 2], .readOriginalFt]

/-- `C106_all`, `C106_axes`, and `C106_whole` for images of 4 by 6 pixels. -/
example := C106_all [4, 6] (by decide) (.fine 192)
example := C106_axes (image := some [4, 6]) (axes := none) (ndim := none) (r := ⟨[-2, -1], [4, 6]⟩) rfl
example := C106_whole [8, 12] [3, 9] rfl

/-- `C113_fine` for an image of which the elements are in raster order. -/
example (f : Idx small → ℂ) := C113_fine small_pos ⟨f, Equiv.refl _⟩ (fun i j h _ _ => h) none (by rw [Option.getD_none]; exact covers_default)

end Verif.Subpixel
