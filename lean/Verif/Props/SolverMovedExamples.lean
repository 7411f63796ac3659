import Verif.Props.SolverAxesViolates
import Verif.Props.SolverConj
import Verif.Props.SolverMoreExamples
import Verif.Props.SolverFieldsExamples
import Verif.Props.SolverHistory

/-!
# Concrete calculations that meet the assumptions of C37, C39, C40, C74, C94, C98, C114 and C115

All materials and sources have permuted, mirrored and repeated copies; and calculations on grids with an odd number of samples.
-/

namespace Verif.Solver

open Verif Verif.Fourier Verif.Backend Complex Matrix
open Verif.Spec.Solver (WaveEquation ScalarWaveEquation)
open Verif.Spec.Physics (Reciprocal)

variable {d n : ℕ} {N N' : Fin d → ℕ}

/-- All tensors can be moved. -/
noncomputable def movedTensor (σ : Equiv.Perm (Fin n)) (ε : Fin n → ℝ) (point : Idx N ≃ Idx N') (z : ℝ) (A : Tensor n N) : Tensor n N' :=
  fun x' => Matrix.of fun i j => z * ε (σ.symm i) * ε (σ.symm j) * A (point.symm x') (σ.symm i) (σ.symm j)

/-- All materials can be moved. -/
noncomputable def movedMedium (σ : Equiv.Perm (Fin n)) (ε : Fin n → ℝ) (point : Idx N ≃ Idx N') (z : ℝ) (m : Medium n N) : Medium n N' :=
  ⟨movedTensor σ ε point 1 m.epsilon, movedTensor σ ε point z m.xi, movedTensor σ ε point z m.zeta, movedTensor σ ε point 1 m.mu⟩

/-- All fields can be moved. -/
noncomputable def movedField (σ : Equiv.Perm (Fin n)) (ε : Fin n → ℝ) (point : Idx N ≃ Idx N') (z : ℝ) (F : Field n N) : Field n N' :=
  fun c x' => z * ε (σ.symm c) * F (σ.symm c) (point.symm x')

theorem movedMedium_moved (σ : Equiv.Perm (Fin n)) (ε : Fin n → ℝ) (point : Idx N ≃ Idx N') (z : ℝ) (m : Medium n N) : MovedMedium σ ε point z m (movedMedium σ ε point z m) := by
  constructor <;> intro i j x <;> simp [movedMedium, movedTensor]

theorem movedField_moved (σ : Equiv.Perm (Fin n)) (ε : Fin n → ℝ) (point : Idx N ≃ Idx N') (z : ℝ) (F : Field n N) : MovedField σ ε point z F (movedField σ ε point z F) := by
  intro c x
  simp [movedField]

/-- A grid of 3 by 5 by 7 samples at different distances. -/
noncomputable def boxGrid : Grid.Obj 3 ℝ := ⟨![3, 5, 7], ![1, 2, 3], fun _ => 0, .float, fun _ => false, fun _ => false, fun _ => true, true, false⟩

theorem boxGrid_step : ∀ a, boxGrid.step a ≠ 0 := by
  intro a
  fin_cases a <;> norm_num [boxGrid]

theorem boxGrid_odd : ∀ a, boxGrid.shape a % 2 = 1 := by
  show ∀ a : Fin 3, (![3, 5, 7] : Fin 3 → ℕ) a % 2 = 1
  decide

def boxOrigin : Idx boxGrid.shape := fun a => ⟨0, by have := boxGrid_odd a; omega⟩

/-- The first axis becomes the second, the second the third, the third the first. -/
def turnAxes : Equiv.Perm (Fin 3) := finRotate 3

/-- `C98_permutation`: any magnetic material, source and initial field. -/
example (m : Medium 3 boxGrid.shape) (S F : Field 3 boxGrid.shape) (x0' : Idx (permutedGrid boxGrid turnAxes).shape) :=
  C98_permutation (.vectorial le_rfl) boxGrid boxGrid_step (k0 := 2) two_ne_zero turnAxes demoConst 0 boxOrigin x0' (movedMedium_moved _ _ _ _ m) (movedField_moved _ _ _ _ S)
    (movedField_moved _ _ _ _ F) (mag := true) (fun h => absurd h (by decide)) (1 + I) 1

/-- `C98_choice`: the mirror image along the first axis. -/
example (m : Medium 3 boxGrid.shape) := C98_choice (σ := 1) (ε := ![-1, 1, 1]) (by intro c; fin_cases c <;> norm_num) (z := -1) (by norm_num)
  (movedMedium_moved 1 ![-1, 1, 1] (mirroredPoint ![true, false, false]) (-1) m) true 0 boxOrigin boxOrigin

/-- `C98_mirror_partial`: the mirror image along the first two axes. -/
example (m : Medium 3 boxGrid.shape) (S F : Field 3 boxGrid.shape) :=
  C98_mirror_partial (.vectorial le_rfl) boxGrid boxGrid_step (k0 := 2) two_ne_zero ![true, true, false] (fun _ a _ => boxGrid_odd a) demoConst 0 boxOrigin boxOrigin (movedMedium_moved _ _ _ _ m)
    (movedField_moved _ _ _ _ S) (movedField_moved _ _ _ _ F) (mag := true) (fun h => absurd h (by decide)) (1 + I) 1

/-- `C98_torque_partial`: the states before the first iteration. -/
example (m : Medium 3 boxGrid.shape) (S F : Field 3 boxGrid.shape) (x0' : Idx (permutedGrid boxGrid turnAxes).shape) :=
  C98_torque_partial (σ := permutedComponent (.vectorial le_rfl) turnAxes) (ε := fun _ => 1)
    (by rw [permutedComponent, Equiv.Perm.viaFintypeEmbedding_sign]; decide) (fun _ => mul_one 1)
    (show MovedSolution _ _ _ _ _ _ _ _ _ _ _ _ _ by
      have h := C98_permutation (.vectorial le_rfl) boxGrid boxGrid_step (k0 := 2) two_ne_zero turnAxes demoConst 0 boxOrigin x0' (movedMedium_moved _ _ _ _ m) (movedField_moved _ _ _ _ S)
        (movedField_moved _ _ _ _ F) (mag := true) (fun h => absurd h (by decide)) (1 + I) 1 0
      rw [Finset.prod_const_one, mul_one]
      exact h)

/-! ### Time reversal and reciprocity -/

theorem reversed_reversed (m : Medium n N) : ReversedMedium m m.reversed := ⟨fun _ _ _ => rfl, fun _ _ _ => rfl, fun _ _ _ => rfl, fun _ _ _ => rfl⟩

theorem conjField_conjugate (F : Field n N) : Conjugate F (conjField F) := fun _ _ => rfl

/-- `C115_reversal_partial` and `C115_equation_partial`: any material on a grid of 3 by 5 by 7 samples. -/
example (m : Medium 3 boxGrid.shape) (S F : Field 3 boxGrid.shape) :=
  C115_reversal_partial (.vectorial le_rfl) boxGrid boxGrid_step (k0 := 2) two_ne_zero (fun _ => boxGrid_odd) demoConst 0 boxOrigin (reversed_reversed m) (conjField_conjugate S)
    (conjField_conjugate F) true (1 + I) 1

example (m : Medium 3 boxGrid.shape) (S E : Field 3 boxGrid.shape) :=
  C115_equation_partial boxGrid boxGrid_step boxGrid_odd 2 (reversed_reversed m) (conjField_conjugate S) (conjField_conjugate E)

theorem demo_balanced : Balanced demoGrid.shape := fun a b h => absurd (Subsingleton.elim a b) h

/-- `C115_nonmagnetic_partial` and `C115_equation_nonmagnetic_partial`: two samples. -/
example (S F : Field 3 demoGrid.shape) :=
  C115_nonmagnetic_partial (.vectorial (by norm_num)) demoGrid demo_step (k0 := 2) two_ne_zero (fun _ => demo_balanced) (reversed_reversed plainDemo) (conjField_conjugate S)
    (conjField_conjugate F) (1 + I) 1

example (S F : Field 3 demoGrid.shape) :=
  C115_equation_nonmagnetic_partial demoGrid demo_step demo_balanced 2 (mu := 2) two_ne_zero (fun _ => rfl) (reversed_reversed plainDemo) (conjField_conjugate S) (conjField_conjugate F)

/-- A material of permittivity `1 + i`. -/
noncomputable def absorber (N : Fin d → ℕ) : Medium 3 N := ⟨fun _ => diagonal fun _ => 1 + I, fun _ => 0, fun _ => 0, fun _ => 1⟩

theorem absorber_absorbs (x : Idx N) (v : Fin 3 → ℂ) : 1 * ∑ i, ‖v i‖ ^ 2 ≤ (star v ⬝ᵥ ((absorber N).epsilon x).mulVec v).im :=
  absorbing_diagonal (fun _ _ => 1 + I) (fun _ _ => by simp) x v

theorem absorber_chosen (x0 : Idx N) : Chosen (absorber N) true 0 x0 false 1 := by
  refine ⟨by simp [Medium.isMagnetic, absorber], fun _ => ?_, one_ne_zero⟩
  rw [Medium.betaNonMagnetic, Medium.muInv]
  simp [absorber]

theorem absorber_permeability (x0 : Idx N) : RealPermeability (absorber N) false x0 := fun _ => ⟨1, one_ne_zero, by simp [absorber]⟩

theorem absorber_passivity (g : Grid.Obj d ℝ) (hs : ∀ a, g.step a ≠ 0) {k0 : ℝ} (hk0 : 0 < k0) : Passivity g k0 (absorber g.shape) (1 + 2 * I : ℂ).re 1 1 := by
  refine ⟨fun _ => rfl, fun _ => rfl, noGain_diagonal _ fun _ _ => by simp, ?_, fun x => by simp [absorber], sigmaD g.step k0, 1, 0, sigmaD_nonneg _ hk0, zero_le_one, le_rfl,
    fun x => kOf_le g hs hk0 x, ?_, ?_, by simp⟩
  · have : (absorber g.shape).mu = fun _ => diagonal fun _ => 1 := by funext x; simp [absorber]
    rw [this]
    exact noGain_diagonal _ fun _ _ => by simp
  · have : (fun x => (absorber g.shape).epsilon x - (((1 + 2 * I : ℂ).re * 1 : ℝ) : ℂ) • (1 : Matrix (Fin 3) (Fin 3) ℂ)) = fun _ => diagonal fun _ => I := by
      funext x
      simp only [absorber]
      rw [← diagonal_one, ← diagonal_smul, diagonal_sub]
      congr 1
      funext i
      simp
    rw [this]
    exact within_diagonal _ fun _ _ => by simp
  · have : (fun x => ((absorber g.shape).mu x)⁻¹ - ((1 : ℝ) : ℂ) • (1 : Matrix (Fin 3) (Fin 3) ℂ)) = fun _ => diagonal fun _ => 0 := by
      funext x
      simp [absorber]
    rw [this]
    exact within_diagonal _ fun _ _ => by simp

/-- `C115_gain_partial` and `C115_gain_nonmagnetic_partial`: a material of permittivity `1 - i`. -/
example (S F : Field 3 boxGrid.shape) :=
  C115_gain_partial boxGrid_step boxGrid_odd (k0 := 2) two_ne_zero le_rfl (reversed_reversed (absorber boxGrid.shape)) (absorber_passivity boxGrid boxGrid_step two_pos) (absorber_chosen boxOrigin)
    (absorber_permeability boxOrigin) (by simp) one_pos (by simp) one_pos absorber_absorbs S F

example (S F : Field 3 demoGrid.shape) :=
  C115_gain_nonmagnetic_partial demo_step demo_balanced (k0 := 2) two_ne_zero (by norm_num) (reversed_reversed (absorber demoGrid.shape)) (absorber_passivity demoGrid demo_step two_pos)
    (absorber_chosen demoOrigin) (absorber_permeability demoOrigin) (by simp) one_pos (by simp) one_pos absorber_absorbs S F

/-- `C115_standing_partial`: a real field in vacuum. -/
example (A : Fin 3 → Idx boxGrid.shape → ℝ) :=
  C115_standing_partial boxGrid boxGrid_step (k0 := 1) one_ne_zero le_rfl boxGrid_odd demoConst 0 boxOrigin (m := vacuum boxGrid.shape) (mag := true)
    ⟨fun x i j => by simp only [vacuum, one_apply]; split_ifs <;> simp, fun x i j => by simp [vacuum], fun x i j => by simp [vacuum], fun x i j => by simp only [vacuum, one_apply]; split_ifs <;> simp⟩
    (fun h => absurd h (by decide)) (represents_prepare (vacuum boxGrid.shape) true (alpha := 1 + I) (by norm_num) (beta := 1) one_ne_zero 0 fun c x => (A c x : ℂ)) (p := 1) (A := A)
    (fun c x => by rw [getE, prepare_eq _ _ (by norm_num)]; simp [prepared])

/-- `C74_odd_partial`, `C74_iterates_partial` and `C74_solver_partial`: any two fields in the birefringent material `demoMedium`, or in the material `absorber`. -/
example (E E' : Field 3 boxGrid.shape) :=
  C74_odd_partial boxGrid (fun a _ => boxGrid_step a) boxGrid_odd 2 (epsilon := fun x => diagonal ![1 + I, 2 + I, if (x 0).val = 0 then 1 + 2 * I else 1 + I]) (mu := fun _ => diagonal ![1, 2, 3])
    (fun _ => diagonal_transpose _) (fun _ => diagonal_transpose _) (E := E) (E' := E') (fun _ _ => rfl) (fun _ _ => rfl)

example (E E' F F' : Field 3 boxGrid.shape) :=
  C74_iterates_partial boxGrid (fun a _ => boxGrid_step a) boxGrid_odd 2 (epsilon := fun x => diagonal ![1 + I, 2 + I, if (x 0).val = 0 then 1 + 2 * I else 1 + I]) (mu := fun _ => diagonal ![1, 2, 3])
    (fun _ => diagonal_transpose _) (fun _ => diagonal_transpose _) (E := E) (E' := E') (fun _ _ => rfl) (fun _ _ => rfl) F F'

/-- `C74_nonmagnetic_partial` and `C74_scalar`: two samples. -/
example (E E' : Field 3 demoGrid.shape) :=
  C74_nonmagnetic_partial demoGrid (fun a _ => demo_step a) demo_balanced 2 (epsilon := demoMedium.epsilon) (fun _ => diagonal_transpose _) (r := 2) two_ne_zero (E := E) (E' := E')
    (fun _ _ => rfl) (fun _ _ => rfl)

example (E E' : Idx demoGrid.shape → ℂ) :=
  C74_scalar demoGrid (fun a _ => demo_step a) 2 (epsilon := fun x => if (x 0).val = 0 then 1 + I else 2) (mu := 2) (E := E) (E' := E') (fun _ => rfl) (fun _ => rfl)

/-! ### Histories -/

/-- `C94_zero`, `C39_callback`: any state, also one that is not that of a new object. -/
example (s : State 3 demoGrid.shape) := C94_zero (.vectorial (by norm_num)) (backendK demoGrid 2) (k0 := 2) ⊤ (rtol := 1e-3) (by norm_num) s

example (s : State 3 demoGrid.shape) := C39_callback (.vectorial (by norm_num)) (backendK demoGrid 2) (fun t => decide (t.iteration < 10)) s

/-- `C40_history_partial`: two iterations, a calculation of the residue and a new start. -/
example (S F : Field 3 demoGrid.shape) := C40_history_partial (.vectorial (by norm_num)) (backendK demoGrid 2) 2 demoMedium true (1 + I) 1 S F [.iterate, .iterate, .residue, .restart]
  (by simp [Op.reads])

/-- `C94_history`: any source after any others. -/
example (S0 F0 S S1 : Field 3 demoGrid.shape) (i : ℕ) {t : State 3 demoGrid.shape}
    (h : source2detfield (.vectorial (by norm_num)) (backendK demoGrid 2) 2 (criterion ⊤ 1e-3) (prepare (absorber demoGrid.shape) false (1 + 2 * I) 1 S0 F0) S1 i = .done () t) :=
  C94_history (s := prepare (absorber demoGrid.shape) false (1 + 2 * I) 1 S0 F0) (fun S => by
    rw [reset_prepare 2 _ _ (by norm_num)]
    obtain ⟨E, -, hE⟩ := C35_absorbing (muScalar := true) demo_step two_ne_zero (by norm_num) (absorber_passivity demoGrid demo_step two_pos) (absorber_chosen demoOrigin) (absorber_permeability demoOrigin) (by simp)
      one_pos (by simp) one_pos absorber_absorbs S 0
    exact ⟨E, hE⟩) (.call .refl h) S

/-! ### Copies -/

/-- One axis of one sample. -/
noncomputable def singleGrid : Grid.Obj 1 ℝ := ⟨fun _ => 1, fun _ => 2, fun _ => 0, .float, fun _ => false, fun _ => false, fun _ => true, true, false⟩

/-- Two periods along the first axis and five samples along the second. -/
def copies : Fin (1 + 1) → ℕ := ![2, 5]

theorem copies_pos : ∀ a, 0 < copies a := by decide

def sectionOf (x' : Idx (repeatedGrid (extendedGrid demoGrid singleGrid) copies).shape) : Idx demoGrid.shape :=
  fun a => ⟨(x' (Fin.castAdd 1 a) : ℕ) % 2, Nat.mod_lt _ two_pos⟩

theorem sectionOf_eq {x : Idx demoGrid.shape} {x' : Idx (repeatedGrid (extendedGrid demoGrid singleGrid) copies).shape} (h : SameSection demoGrid singleGrid copies x x') : sectionOf x' = x :=
  funext fun a => Fin.ext (h a)

def copiedMedium (m : Medium n demoGrid.shape) : Medium n (repeatedGrid (extendedGrid demoGrid singleGrid) copies).shape :=
  ⟨fun x' => m.epsilon (sectionOf x'), fun x' => m.xi (sectionOf x'), fun x' => m.zeta (sectionOf x'), fun x' => m.mu (sectionOf x')⟩

theorem copiedMedium_copied (m : Medium n demoGrid.shape) : CopiedMedium (SameSection demoGrid singleGrid copies) m (copiedMedium m) := by
  constructor <;> intro x x' h <;> simp only [copiedMedium, sectionOf_eq h]

theorem copiedField_copied (F : Field n demoGrid.shape) : CopiedField (SameSection demoGrid singleGrid copies) F fun c x' => F c (sectionOf x') := by
  intro c x x' h
  simp only [sectionOf_eq h]

/-- `C114_axes`, `C114_equation` and `C114_scalar_equation`: any material and source on two samples, with copies on 4 by 5 samples. -/
example (m : Medium 3 demoGrid.shape) (S F : Field 3 demoGrid.shape) (x0' : Idx (repeatedGrid (extendedGrid demoGrid singleGrid) copies).shape) :=
  C114_axes (.vectorial (by norm_num)) (.vectorial (by norm_num)) demoGrid singleGrid (fun _ => two_pos) (fun _ => rfl) demo_step (fun _ => two_ne_zero) (k0 := 2) two_ne_zero copies_pos demoConst 0
    (sectionOf x0') x0' (fun _ => rfl) (copiedMedium_copied m) (copiedField_copied S) (copiedField_copied F) true (1 + I) 1

example (m : Medium 3 demoGrid.shape) (S E : Field 3 demoGrid.shape) :=
  C114_equation demoGrid singleGrid (fun _ => two_pos) (fun _ => rfl) demo_step (fun _ => two_ne_zero) 2 copies_pos (copiedMedium_copied m).epsilon (copiedMedium_copied m).mu (copiedField_copied S)
    (copiedField_copied E)

example (epsilon S E : Idx demoGrid.shape → ℂ) :=
  C114_scalar_equation demoGrid singleGrid (fun _ => two_pos) (fun _ => rfl) demo_step (fun _ => two_ne_zero) 2 copies_pos (epsilon' := fun x' => epsilon (sectionOf x')) (S' := fun x' => S (sectionOf x'))
    (E' := fun x' => E (sectionOf x')) 2 (fun _ _ h => by rw [sectionOf_eq h]) (fun _ _ h => by rw [sectionOf_eq h]) (fun _ _ h => by rw [sectionOf_eq h])

/-- `C114_constants_periods`: three periods. -/
example (m : Medium 3 demoGrid.shape) (x0' : Idx (repeatedGrid demoGrid fun _ => 3).shape) :=
  C114_constants_periods demoGrid (fun _ => two_pos) (r := fun _ => 3) (fun _ => three_pos) (m := m)
    (m' := ⟨fun x' => m.epsilon fun a => ⟨(x' a : ℕ) % 2, Nat.mod_lt _ two_pos⟩, fun x' => m.xi fun a => ⟨(x' a : ℕ) % 2, Nat.mod_lt _ two_pos⟩,
      fun x' => m.zeta fun a => ⟨(x' a : ℕ) % 2, Nat.mod_lt _ two_pos⟩, fun x' => m.mu fun a => ⟨(x' a : ℕ) % 2, Nat.mod_lt _ two_pos⟩⟩)
    ⟨fun _ _ h => congrArg m.epsilon (funext fun a => Fin.ext (h a)), fun _ _ h => congrArg m.xi (funext fun a => Fin.ext (h a)),
      fun _ _ h => congrArg m.zeta (funext fun a => Fin.ext (h a)), fun _ _ h => congrArg m.mu (funext fun a => Fin.ext (h a))⟩
    (fun a => ⟨(x0' a : ℕ) % 2, Nat.mod_lt _ two_pos⟩) x0' (fun _ => rfl) 0 1e-8 2 [1]

end Verif.Solver
