import Verif.Props.SolverEpsilon

/-!
# Concrete problems that meet the assumptions of C42–C46

The medium of `SolverExamples` with any field and, as source, what makes that field an exact solution; and a chiral medium.
-/

namespace Verif.Solver

open Verif Verif.Fourier Verif.Backend Complex Matrix
open Verif.Spec.Solver (WaveEquation)
open Verif.Spec.Maxwell

/-- Units in which the constants of nature are 1. -/
def demoConst : Const := ⟨1, 1, 1⟩

theorem demoConst_one : demoConst.c ^ 2 * demoConst.mu0 * demoConst.epsilon0 = 1 := by simp [demoConst]

/-- The source for which `F` is the exact solution. -/
noncomputable def demoSource (m : Medium 3 demoGrid.shape) (F : Field 3 demoGrid.shape) : Field 3 demoGrid.shape :=
  waveOp (backendK demoGrid 1) 1 (.vectorial (by norm_num)) m F

/-- An exact solution. -/
noncomputable def demoSolved (m : Medium 3 demoGrid.shape) (F : Field 3 demoGrid.shape) : State 3 demoGrid.shape :=
  prepare m true (1 + 19 * I) 1 (demoSource m F) F

theorem demo_represents (m : Medium 3 demoGrid.shape) (F : Field 3 demoGrid.shape) : Represents m true (demoSource m F) (demoSolved m F) :=
  represents_prepare m true (by norm_num) one_ne_zero _ F

theorem demo_preconditioned (m : Medium 3 demoGrid.shape) (F : Field 3 demoGrid.shape) :
    Preconditioned (.vectorial (by norm_num)) (backendK demoGrid 1) (demoSolved m F) :=
  ((demo_represents m F).preconditioned_iff (backendK_origin demoGrid demo_step one_ne_zero) (.vectorial (by norm_num)) (.inl rfl)).2 rfl

theorem demo_uniform (m : Medium 3 demoGrid.shape) : Uniform m true := fun h => absurd h (by decide)

theorem demo_wave (F : Field 3 demoGrid.shape) :
    WaveEquation (kOf demoGrid) 1 demoMedium.epsilon demoMedium.mu (demoSource demoMedium F) (getE 1 (demoSolved demoMedium F)) := by
  rw [waveEquation_iff (C31_backend demoGrid demo_step one_ne_zero) (by norm_num) demoMedium (fun _ => rfl) (fun _ => rfl) 1]
  have : (((1 : ℝ) : ℂ) ^ 2) • getE 1 (demoSolved demoMedium F) = F := (field_getE one_ne_zero _).symm
  rw [this]
  rfl

/-- C43 for this problem. -/
example (F : Field 3 demoGrid.shape) (x0 : Idx demoGrid.shape) :
    MagneticResponse 1 1 demoMedium.zeta demoMedium.mu (getE 1 (demoSolved demoMedium F))
      (getH demoConst 1 (backendK demoGrid 1) 0 x0 (demoSolved demoMedium F)) (getB demoConst 1 (backendK demoGrid 1) (demoSolved demoMedium F)) :=
  C43_magnetic demoGrid (k0 := 1) (co := demoConst) one_ne_zero one_ne_zero (demo_represents demoMedium F) (demo_uniform _) demo_invertible 0 x0

example (F : Field 3 demoGrid.shape) (x0 : Idx demoGrid.shape) :
    ElectricResponse 1 1 demoMedium.epsilon demoMedium.xi (getE 1 (demoSolved demoMedium F))
      (getH demoConst 1 (backendK demoGrid 1) 0 x0 (demoSolved demoMedium F)) (getD demoConst 1 (backendK demoGrid 1) 0 x0 (demoSolved demoMedium F)) :=
  (C43_electric demoGrid demo_step (k0 := 1) one_ne_zero (co := demoConst) one_ne_zero one_ne_zero (demo_represents demoMedium F) (demo_uniform _) 0 x0
    demoConst_one (fun _ => rfl) (fun _ => rfl)).2 (demo_wave F)

/-- A chiral medium that is different at the two points. -/
noncomputable def chiral : Medium 3 demoGrid.shape :=
  ⟨fun _ => 1, fun x => (alternating x * I) • 1, fun x => (-(alternating x * I)) • 1, fun _ => 1⟩

/-- C44 for that medium. -/
example (F : Field 3 demoGrid.shape) (x0 : Idx demoGrid.shape) :
    ElectricResponse 1 1 chiral.epsilon chiral.xi (getE 1 (demoSolved chiral F))
      (getH demoConst 1 (backendK demoGrid 1) 0 x0 (demoSolved chiral F)) (getD demoConst 1 (backendK demoGrid 1) 0 x0 (demoSolved chiral F)) :=
  C44_reciprocal_partial demoGrid demo_step (k0 := 1) one_ne_zero (by norm_num) (co := demoConst) demoConst_one (demo_represents chiral F)
    (demo_preconditioned chiral F) 0 x0 fun x => by simp [chiral]

/-- C45 for the absorbing medium. -/
example (F : Field 3 demoGrid.shape) (x0 x : Idx demoGrid.shape) :
    0 ≤ getEnergy demoConst 1 (backendK demoGrid 1) 0 x0 (demoSolved demoMedium F) x := by
  refine C45_energy_partial demoGrid demo_step one_ne_zero demoConst_one (demo_represents demoMedium F) (demo_uniform _) demo_invertible (fun _ => rfl)
    (fun _ => rfl) (demo_wave F) 0 x0 x zero_le_one zero_le_one ?_ ?_
  · intro x v
    simp only [demoMedium, mulVec_diagonal, dotProduct, Fin.sum_univ_three, Matrix.cons_val, Pi.star_apply, RCLike.star_def]
    split_ifs <;> simp <;> nlinarith [sq_nonneg (v 0).re, sq_nonneg (v 0).im, sq_nonneg (v 1).re, sq_nonneg (v 1).im, sq_nonneg (v 2).re, sq_nonneg (v 2).im]
  · intro x v
    simp only [demoMedium, mulVec_diagonal, dotProduct, Fin.sum_univ_three, Pi.star_apply, RCLike.star_def]
    split_ifs <;> simp <;> nlinarith [sq_nonneg (v 0).re, sq_nonneg (v 0).im, sq_nonneg (v 1).re, sq_nonneg (v 1).im, sq_nonneg (v 2).re, sq_nonneg (v 2).im]

/-- C42 for this problem without boundary, and with one. -/
example (F : Field 3 demoGrid.shape) (x : Idx demoGrid.shape) :
    getEpsilon (fun _ => 0) (demoSolved demoMedium F) x = demoMedium.epsilon x - (1 + 19 * I) • 1 := by
  have := C42_read_partial (demo_represents demoMedium F) demo_invertible (fun h => absurd h (by decide)) (fun _ => 0) demoMedium.epsilon
    (by funext x; simp [withBound]) x
  rw [this]
  have e : (demoSolved demoMedium F).alpha * (demoSolved demoMedium F).beta = 1 + 19 * I := by
    change (1 + 19 * I) * ((1 : ℝ) : ℂ) = _
    simp
  rw [e]

example (F : Field 3 demoGrid.shape) (x0 : Idx demoGrid.shape) :
    ¬ Represents { demoMedium with epsilon := withBound (fun _ => I) (fun _ => 1) } true (demoSource demoMedium F)
      (setEpsilon (fun _ => I) 0 x0 true (2 + 3 * I) 1 (demoSolved demoMedium F) fun _ => 1) :=
  C42_assign_violates (demo_represents demoMedium F) (demo_uniform _) demo_invertible (fun _ => I) 0 x0 true (by norm_num) one_ne_zero _ (x := x0) I_ne_zero

/-- C46: a negative index at the first point only. -/
example (mu : Tensor 3 demoGrid.shape) (x : Idx demoGrid.shape) :
    (indexMedium (fun x : Idx demoGrid.shape => if (x 0).val = 0 then -2 else 3) mu).1 x = (if (x 0).val = 0 then -4 else 9 : ℂ) • 1 := by
  by_cases h : (x 0).val = 0
  · rw [(C46_negative _ mu x (by simp [h])).1, ← neg_smul, if_pos h, if_pos h]
    congr 1
    norm_num
  · rw [(C46_positive _ mu x (by simp [h])).1, if_neg h, if_neg h]
    congr 1
    norm_num

end Verif.Solver
