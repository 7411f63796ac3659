import Verif.Props.ProblemRuns
import Verif.Props.ProblemIndex

/-!
# C86–C88: concrete cases that meet the hypotheses
-/

namespace Verif.Problem

open Verif Verif.Fourier Verif.Backend Verif.Solver Verif.Construct Complex Matrix
open Verif.Assign (Arr toMatrixField full CanBroadcast broadcast InShape)
open Verif.Spec.Solver (NoGain Within WaveEquation ScalarWaveEquation)

/-- A permittivity on two points, an absorbing boundary at the second one, and a constant source. -/
noncomputable def demoArgs (vectorial : Bool) : Args 1 where
  grid := demoGrid
  frequency := ⟨1, none, none⟩
  source := ⟨some vectorial, none, some ⟨[], fun _ => 1⟩⟩
  epsilon := some ⟨[2], fun i => if i = [0] then 1 + I else 2 + I⟩
  index := none
  xi := ⟨[], fun _ => 0⟩
  zeta := ⟨[], fun _ => 0⟩
  mu := ⟨[], fun _ => 2⟩
  electric := some ⟨[2], fun i => if i = [0] then 0 else I⟩
  magnetic := none
  thickness := [1]
  initial := ⟨[], fun _ => 3⟩

noncomputable def demoMedium (n : ℕ) : Medium n demoGrid.shape :=
  ⟨fun x => (if (x 0).val = 0 then 1 + I else 2 + I : ℂ) • 1 + (if (x 0).val = 0 then 0 else I : ℂ) • 1, fun _ => 0, fun _ => 0, fun _ => (2 : ℂ) • 1⟩

theorem constant_means (n : ℕ) (z : ℂ) : Means n demoGrid.shape ⟨[], fun _ => z⟩ fun _ => z • 1 :=
  .scalar ⟨by simp, by simp⟩ trivial fun _ => rfl

theorem constant_field (z : ℂ) : (∀ a, (toMatrixField 1 (⟨[], fun _ => z⟩ : Arr ℂ)).shape a = 1) ∧ ∀ i, (toMatrixField 1 (⟨[], fun _ => z⟩ : Arr ℂ)).val i = z :=
  Assign.C30_scalar _ rfl

theorem demo_value (f : List ℕ → ℂ) (x : Idx demoGrid.shape) : bval ⟨[2], f⟩ (0 :: 0 :: List.ofFn fun b => (x b : ℕ)) = f [(x 0 : ℕ)] := by
  have e : (List.ofFn fun b : Fin 1 => (x b : ℕ)) = [(x 0 : ℕ)] := by simp
  rw [e]
  simp [bval, bidxRev]

theorem two_fits (n : ℕ) (f : List ℕ → ℂ) : Fits n demoGrid.shape ⟨[2], f⟩ := by
  unfold Fits
  change Refines [2] ((List.ofFn fun _ : Fin 1 => 2).reverse ++ [n, n])
  simp [Refines]

theorem demo_describes (v : Bool) (n : ℕ) (co : Const) : Describes co n (demoArgs v) (demoMedium n) (fun _ _ => 1) (fun _ _ => 3) where
  nonempty := fun _ => by
    change 0 < 2
    decide
  epsilon := by
    refine ⟨_, fun x => (if (x 0).val = 0 then 1 + I else 2 + I : ℂ) • 1, rfl, .scalar ⟨by simp, by simp⟩ (two_fits n _) fun x => ?_,
      .inr ⟨_, fun x => if (x 0).val = 0 then 0 else I, rfl, ⟨by simp, two_fits n _, fun x => ?_⟩, rfl⟩⟩
    · refine Eq.symm ((congrArg (· • (1 : Matrix (Fin n) (Fin n) ℂ)) (demo_value _ x)).trans ?_)
      simp
    · refine Eq.symm ((demo_value _ x).trans ?_)
      simp
  magnetic := rfl
  xi := by
    have h := constant_means n 0
    simp only [zero_smul] at h
    exact h
  zeta := by
    have h := constant_means n 0
    simp only [zero_smul] at h
    exact h
  mu := constant_means n 2
  source := fun a => .inr ((constant_field 1).1 a)
  sourceValue := fun c x => ((constant_field 1).2 _).symm
  initial := fun a => .inr ((constant_field 3).1 a)
  initialValue := fun c x => ((constant_field 3).2 _).symm

theorem demo_absorbs_one (n : ℕ) (x : Idx demoGrid.shape) (v : Fin n → ℂ) : 1 * ∑ i, ‖v i‖ ^ 2 ≤ (star v ⬝ᵥ ((demoMedium n).epsilon x).mulVec v).im := by
  change _ ≤ (star v ⬝ᵥ ((if (x 0).val = 0 then 1 + I else 2 + I : ℂ) • (1 : Matrix (Fin n) (Fin n) ℂ) + (if (x 0).val = 0 then 0 else I : ℂ) • 1).mulVec v).im
  rw [← add_smul, Matrix.smul_mulVec, Matrix.one_mulVec, dotProduct_smul, star_dot_self, smul_eq_mul, im_mul_ofReal]
  refine mul_le_mul_of_nonneg_right ?_ (Finset.sum_nonneg fun i _ => sq_nonneg _)
  split_ifs <;> simp

theorem demo_absorbs (n : ℕ) : Absorbs (demoMedium n).epsilon := ⟨1, one_pos, demo_absorbs_one n⟩

theorem demo_noGain (n : ℕ) : NoGain (demoMedium n).epsilon ∧ NoGain (demoMedium n).mu := by
  constructor
  · intro x v
    obtain ⟨δ, hδ, h⟩ := demo_absorbs n
    exact (mul_nonneg hδ.le (Finset.sum_nonneg fun i _ => sq_nonneg _)).trans (h x v)
  · intro x v
    change 0 ≤ (star v ⬝ᵥ ((2 : ℂ) • (1 : Matrix (Fin n) (Fin n) ℂ)).mulVec v).im
    rw [Matrix.smul_mulVec, Matrix.one_mulVec, dotProduct_smul, star_dot_self, smul_eq_mul, im_mul_ofReal]
    simp

/-- The hypotheses of `C86_construct`, `C87_decision` and `C86_uniform` are met, so its conclusion holds for the case above. -/
example (co : Const) (o : Optimum) : ∃ s E, (demoArgs true).start co 1e-8 o = .ok ⟨3, s⟩ ∧ getE 1 s = (fun _ _ => 3) ∧
    WaveEquation (kOf demoGrid) 1 (demoMedium 3).epsilon (demoMedium 3).mu (fun _ _ => 1) E ∧
    ConvergesExponentially (.vectorial (show 1 ≤ 3 by decide)) (backendK demoGrid 1) 1 s E :=
  C86_uniform (demo_describes true 3 co) rfl (by decide) demo_step one_pos (fun _ => rfl) (fun _ => rfl) (demo_noGain 3).1 (demo_noGain 3).2 o 1e-8 (by norm_num)
    ⟨by simp [demoArgs], by simp [demoArgs]⟩ (r := 2) (by norm_num) (fun _ => by push_cast; rfl) (demo_absorbs 3)

/-- The hypotheses of `C86_scalar` are met. -/
example (co : Const) (o : Optimum) : ∃ s E, (demoArgs false).start co 1e-8 o = .ok ⟨1, s⟩ ∧ getE 1 s = (fun _ _ => 3) ∧
    ScalarWaveEquation (kOf demoGrid) 1 (fun x => (demoMedium 1).epsilon x 0 0)
      ((((demoMedium 1).mu (first (demo_describes false 1 co).nonempty) 0 0)⁻¹).re : ℂ)⁻¹ 1 (E 0) ∧
    ConvergesExponentially .scalar (backendK demoGrid 1) 1 s E := by
  refine C86_scalar (demo_describes false 1 co) rfl demo_step one_pos (fun _ => rfl) (fun _ => rfl) (fun x => ?_) o 1e-8 (fun x => ?_) (by norm_num) (fun x => ?_) ?_
  · change 0 < (((if (x 0).val = 0 then 1 + I else 2 + I : ℂ) • (1 : Matrix (Fin 1) (Fin 1) ℂ) + (if (x 0).val = 0 then 0 else I : ℂ) • 1) 0 0).im
    split_ifs <;> simp
  · change 0 ≤ (((2 : ℂ) • (1 : Matrix (Fin 1) (Fin 1) ℂ)) 0 0).im
    simp
  · change ‖((2 : ℂ) • (1 : Matrix (Fin 1) (Fin 1) ℂ)) 0 0 - ((2 : ℂ) • (1 : Matrix (Fin 1) (Fin 1) ℂ)) 0 0‖ ≤ (1e-8 : ℝ) + 1e-5 * ‖((2 : ℂ) • (1 : Matrix (Fin 1) (Fin 1) ℂ)) 0 0‖
    rw [sub_self, norm_zero]
    positivity
  · change 0 < ((((2 : ℂ) • (1 : Matrix (Fin 1) (Fin 1) ℂ)) 0 0)⁻¹).re
    simp

/-- The hypotheses of `C87_equation` and `C88_equation` are met for the media of `C87_violates` and `C88_violates`. -/
example (S F : Solver.Field 3 demoGrid.shape) : Preconditioned (.vectorial (show 1 ≤ 3 by decide)) (backendK demoGrid 1) (prepare (demoMedium 3) false (1 + I) (1 / 2) S F) ↔
    WaveEquation (kOf demoGrid) 1 (fun x => (demoMedium 3).epsilon x - (demoMedium 3).xi x * (((demoMedium 3).mu x)⁻¹ * (demoMedium 3).zeta x))
      (fun _ => (((1 / 2 : ℝ)) : ℂ)⁻¹ • 1) S (getE 1 (prepare (demoMedium 3) false (1 + I) (1 / 2) S F)) :=
  C87_equation demoGrid demo_step one_ne_zero (by decide) (demoMedium 3) (by simp) (by norm_num) S F

/-- Refractive indices: -2 at the first of two points and 3 at the other. -/
noncomputable def demoIndex : Arr ℂ := ⟨[2], fun i => if i = [0] then -2 else 3⟩

noncomputable def demoIndices (n : ℕ) : Tensor n demoGrid.shape := fun x => (if (x 0).val = 0 then -2 else 3 : ℂ) • 1

theorem demoIndex_means (n : ℕ) : Means n demoGrid.shape demoIndex (demoIndices n) :=
  .scalar ⟨by simp [demoIndex], by simp [demoIndex]⟩ (two_fits n _) fun x => by
    unfold scalarMeaning demoIndices demoIndex
    rw [demo_value]
    simp

example (co : Const) (o : Optimum) (tol : ℝ) : ∃ e u, Means 3 demoGrid.shape e (fun x => (if (demoIndices 3 x 0 0).re < 0 then -1 else 1 : ℂ) • (demoIndices 3 x * demoIndices 3 x)) ∧
      Means 3 demoGrid.shape u (fun x => (if (demoIndices 3 x 0 0).re < 0 then -1 else 1 : ℂ) • ((2 : ℂ) • (1 : Matrix (Fin 3) (Fin 3) ℂ))) ∧
      ({ demoArgs true with epsilon := none, index := some demoIndex } : Args 1).construct co 3 tol o =
        Args.construct co { demoArgs true with epsilon := some e, mu := u, index := some demoIndex } 3 tol o ∧
      (ScalarForm 1 (⟨[], fun _ => 2⟩ : Arr ℂ) → ScalarForm 1 u) :=
  C86_index_negative (p := { demoArgs true with epsilon := none, index := some demoIndex }) (demo_describes true 3 co).nonempty rfl rfl (demoIndex_means 3)
    ⟨by simp [demoIndex], by simp [demoIndex]⟩ (constant_means 3 2)
    ⟨fun _ => (0 : Fin 2), by
      change (((if ((0 : Fin 2)).val = 0 then -2 else 3 : ℂ) • (1 : Matrix (Fin 3) (Fin 3) ℂ)) 0 0).re < 0
      simp⟩ tol o

end Verif.Problem
