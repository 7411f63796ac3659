import Verif.Props.SolverNegative
import Verif.Props.SolverState

/-!
# C37: a concrete execution with two iterations that change the field
-/

namespace Verif.Solver

open Verif Verif.Fourier Verif.Backend Complex

variable {d : ℕ} {N : Fin d → ℕ}

/-- A scalar problem with a uniform field `z`, permittivity `I` and bias `2 I`, without source, of which the last change had the given norm. -/
noncomputable def fading (N : Fin d → ℕ) (z : ℂ) (p : WithTop ℝ) (i : ℕ) : State 1 N :=
  ⟨fun _ _ => z, 0, 2 * I, 1, fun _ => (1 / 2 : ℂ) • 1, 0, 0, 0, false, p, i, none⟩

theorem fading_update (z : ℂ) (p : WithTop ℝ) (i : ℕ) : update .scalar (fun _ _ => 0) (fading N z p i) = fun _ _ => -(1 / 4) * z := by
  have hg : ∀ F : Field 1 N, green .scalar (fun _ _ => 0) (2 * I) F = F := fun F => by
    funext c
    have e : (fun x => ft (F c) x * gScalar (N := N) (fun _ _ => 0) (2 * I) x) = ft (F c) := by
      funext x
      have : gScalar (N := N) (fun _ _ => 0) (2 * I) x = 1 := by
        unfold gScalar k2
        simp
        field_simp [I_ne_zero]
      rw [this, mul_one]
    exact (congrArg ift e).trans (C23_ift_ft (F c))
  have hm : ∀ w : ℂ, mulField (N := N) (n := 1) (fun _ => (1 / 2 : ℂ) • 1) (fun _ _ => w) = fun _ _ => 1 / 2 * w := fun w => by
    funext c x
    show (((1 / 2 : ℂ) • (1 : Matrix (Fin 1) (Fin 1) ℂ)).mulVec fun _ => w) c = _
    rw [Matrix.smul_mulVec, Matrix.one_mulVec]
    rfl
  unfold update chiOp fading
  simp only [Bool.false_eq_true, if_false, hm, hg]
  simp only [Pi.zero_apply, add_zero]
  rw [hm]
  funext c x
  ring

theorem fading_norm (z : ℂ) : Backend.norm (fun (_ : Fin 1) (_ : Idx N) => z) = ‖z‖ * Backend.norm (fun (_ : Fin 1) (_ : Idx N) => (1 : ℂ)) := by
  rw [← norm_smul']
  congr 1
  funext c x
  simp

theorem fading_step (z : ℂ) {p : WithTop ℝ} (i : ℕ) (hp : ((‖z‖ / 4 * Backend.norm (fun (_ : Fin 1) (_ : Idx N) => (1 : ℂ)) : ℝ) : WithTop ℝ) < p) :
    step .scalar (fun _ _ => 0) (fading N z p i) = .ok (fading N (3 / 4 * z) ((‖z‖ / 4 * Backend.norm (fun (_ : Fin 1) (_ : Idx N) => (1 : ℂ)) : ℝ) : WithTop ℝ) (i + 1)) := by
  have h0 : ((0 : ℝ) : WithTop ℝ) < p := lt_of_le_of_lt (WithTop.coe_le_coe.2 (mul_nonneg (by positivity) (norm_nonneg' _))) hp
  have e : Backend.norm (update .scalar (fun _ _ => 0) (fading N z p i)) = ‖z‖ / 4 * Backend.norm (fun (_ : Fin 1) (_ : Idx N) => (1 : ℂ)) := by
    rw [fading_update, fading_norm, norm_mul, norm_neg]
    norm_num
    left
    ring
  rw [step_eq _ _ _ h0.ne' h0.le, e, if_pos (show _ < (fading N z p i).prevNorm from hp), fading_update]
  have e2 : z + -(1 / 4) * z = 3 / 4 * z := by ring
  simp only [fading, e2, Nat.cast_add, Nat.cast_one]

/-- `C37_decreasing` for two iterations that change the field, on any grid with a point. -/
example (x : Idx N) : ∃ t t', run .scalar (fun _ _ => 0) (fading N 1 ⊤ 0) 1 = .ok t ∧ run .scalar (fun _ _ => 0) (fading N 1 ⊤ 0) 2 = .ok t' ∧
    Backend.norm (t'.field - t.field) < Backend.norm (t.field - (fading N 1 ⊤ 0).field) := by
  have hn : 0 < Backend.norm (fun (_ : Fin 1) (_ : Idx N) => (1 : ℂ)) :=
    (norm_nonneg' _).lt_of_ne' fun h => one_ne_zero (congrFun (congrFun ((norm_eq_zero_iff _).1 h) 0) x)
  have h1 : run .scalar (fun _ _ => 0) (fading N 1 ⊤ 0) 1 = _ := fading_step (N := N) 1 0 (WithTop.coe_lt_top _)
  have h2 := fading_step (N := N) (3 / 4 * 1) (p := ((‖(1 : ℂ)‖ / 4 * Backend.norm (fun (_ : Fin 1) (_ : Idx N) => (1 : ℂ)) : ℝ) : WithTop ℝ)) 1 (WithTop.coe_lt_coe.2 (by norm_num; linarith))
  have r2 : run .scalar (fun _ _ => 0) (fading N 1 ⊤ 0) 2 = step .scalar (fun _ _ => 0) (fading N (3 / 4 * 1) ((‖(1 : ℂ)‖ / 4 * Backend.norm (fun (_ : Fin 1) (_ : Idx N) => (1 : ℂ)) : ℝ) : WithTop ℝ) 1) := by
    exact (run_add .scalar (fun _ _ => 0) h1 1)
  rw [h2] at r2
  refine ⟨_, _, h1, r2, C37_decreasing .scalar (fun _ _ => 0) (s := fading N 1 ⊤ 0) le_top r2 Nat.zero_lt_one rfl h1 h1
    (fun h => ?_) (fun h => ?_)⟩ <;> (have := congrFun (congrFun h 0) x; norm_num [fading] at this)

end Verif.Solver
