import Verif.Props.BeamHeap
import Verif.Props.BeamEnergy
import Verif.Props.BeamWaves
import Verif.Props.BeamMaterial
import Verif.Props.BeamPermittivity
import Verif.Props.BeamComplex

/-!
# Concrete cases that meet the hypotheses of the theorems about beams

The section `pair` of BeamPair.lean has two sample points, `wave 1` is a plane wave, `step'` a material that delays the light at one of the points by half a period.
-/

namespace Verif.Beam

open Verif Verif.Fourier Verif.Backend Verif.Spec.Modes Complex

/-! ### C55, C56 -/

/-- C55_add, C55_zero and C55_inverse: two micrometres and back. -/
example : propagate pair_shape (propagate pair_shape (write (wave 1)) 1e-6 none) 1e-6 none = propagate pair_shape (write (wave 1)) (1e-6 + 1e-6) none ∧
    propagate pair_shape (write (wave 1)) 0 none = write (wave 1) ∧ propagate pair_shape (propagate pair_shape (write (wave 1)) 1e-6 none) (-1e-6) none = write (wave 1) :=
  ⟨C55_add _ _ _ _, C55_zero _ _, C55_inverse _ _ _⟩

/-- C55_energy for a polarized wave. -/
example : energy (read (propagate pair_shape (writeFt polarizedWave) 1e-6 none)).1 = energy (read (writeFt polarizedWave)).1 := C55_energy _ _ _

/-- C56_homogeneous: three steps of 6 nm, each of which is less than the tolerance, with reads in between. -/
example : ∃ lag : ℝ, |lag| ≤ 1e-8 ∧ (readFt (run pair_shape ⟨waveFt 1, 0⟩ [.propagate 6e-9 none, .read, .propagate 6e-9 none, .readFt, .propagate 6e-9 none])).1 =
    advance ((([.propagate 6e-9 none, .read, .propagate 6e-9 none, .readFt, .propagate 6e-9 none] : List (Step pair scalar)).map Step.distance).sum - lag) (waveFt 1) := by
  refine C56_homogeneous pair_shape _ _ fun op h => ?_
  simp only [List.mem_cons, List.not_mem_nil, or_false] at h
  rcases h with rfl | rfl | rfl | rfl | rfl
  · exact .inr ⟨_, rfl⟩
  · exact .inl rfl
  · exact .inr ⟨_, rfl⟩
  · exact .inl rfl
  · exact .inr ⟨_, rfl⟩

/-! ### C57, C70 -/

theorem current_write_wave : Significant (current (write (wave 1))) := by rw [current_wave]; exact waveFt_significant (by simp)

/-- C57_uniform: a uniform material, also for a polarized wave. -/
example : current (thereAndBack pair_shape (writeFt polarizedWave) 1e-6 fun _ => 3 / 2 + I) = current (writeFt polarizedWave) := C57_uniform _ _ _ _ fun _ _ => rfl

/-- C57_partial: through the material and back. -/
example : current (thereAndBack pair_shape (write (wave 1)) 1e-6 step') = current (write (wave 1)) :=
  C57_partial pair_proper.stepped pair_shape _ _ _ (settled_wave 1 _ (by norm_num)) current_write_wave (interact_significant (by simp))

/-- C57_tiny: a wave with an amplitude of 10⁻⁹ is lost in the material. -/
example : current (propagate pair_shape (write (wave 1e-9)) 1e-6 (some step')) = fun _ _ => 0 :=
  (C57_tiny pair_proper.stepped pair_shape pair_extended _ (by
    rw [current_wave]
    intro c q
    unfold waveFt
    split_ifs
    · norm_num
    · rw [norm_zero]; norm_num) _ _ step_not_uniform (settled_wave _ _ (by norm_num))).1

/-- C57_short: 5 nm are forgotten on the way. -/
example : current (thereAndBack pair_shape (propagate pair_shape ⟨waveFt 1, 0⟩ 5e-9 none) 1e-6 step') = waveFt 1 := by
  refine C57_short pair_proper.stepped pair_shape _ _ (by norm_num [abs_of_pos]) _ (by norm_num) _ step_not_uniform (waveFt_significant (by simp)) ?_
  have h := interact_significant (a := 1) (by simp)
  rw [current_propagate_some pair_shape _ _ fun _ => settled_wave 1 1e-6 (by norm_num)] at h
  rw [current_propagate_some pair_shape _ _ fun _ => .inl (by rw [min_eq_right (by norm_num), propagate_none]; exact add_zero _)]
  rwa [show current (⟨waveFt 1, 0⟩ : Section pair scalar) = current (write (wave 1)) by rw [current_wave, current_mk]]

/-- C70_uniform: glass, in a vacuum. -/
example : current (propagate pair_shape (write (wave 1)) 1e-6 (some fun _ => 3 / 2)) =
    fun c q => current (propagate pair_shape (write (wave 1)) 1e-6 none) c q * exp (I * pair.k * (3 / 2 / pair.index - 1) * (1e-6 : ℝ)) :=
  C70_uniform pair_shape _ _ _ (.inr (by
    show 1e-8 < ‖(3 / 2 : ℂ) / ((1 : ℝ) : ℂ) - 1‖
    norm_num))

/-- C70_background: a vacuum, in a vacuum. -/
example : propagate pair_shape (write (wave 1)) 1e-6 (some fun _ => (pair.index : ℂ)) = propagate pair_shape (write (wave 1)) 1e-6 none := C70_background _ _ _ (one_ne_zero (α := ℝ))

/-- C70_rounded: a variation of 10⁻⁵ is ignored. -/
example : propagate pair_shape (write (wave 1)) 1e-6 (some slight) = propagate pair_shape (write (wave 1)) 1e-6 (some fun _ => slight (origin pair pair_shape)) := C70_rounded _ _ _ _ slight_uniform

/-- C70_permittivity: the refractive index of a metal. -/
example : ∃ n : Idx pair.grid.shape → ℂ, propagatePermittivity pair_shape (write (wave 1)) 1e-6 (fun _ => -4 + I) = propagate pair_shape (write (wave 1)) 1e-6 (some n) ∧
    ∀ x, n x ^ 2 = -4 + I ∧ 0 ≤ (n x).im := by
  obtain ⟨n, h, h2⟩ := C70_permittivity pair_shape (write (wave 1)) 1e-6 fun _ => -4 + I
  exact ⟨n, h, fun x => ⟨(h2 x).1, (h2 x).2.2 (by simp)⟩⟩

/-! ### C58, C69 -/

/-- C58_collect: two slices; both sections that are collected are the last one. -/
example : collect pair_shape 1e-6 (write (wave 1)) [none, some step'] =
    [(read (propagate pair_shape (propagate pair_shape (write (wave 1)) 1e-6 none) 1e-6 (some step'))).1,
     (read (propagate pair_shape (propagate pair_shape (write (wave 1)) 1e-6 none) 1e-6 (some step'))).1] := C58_collect _ _ _ _

/-- C58_again: the second evaluation of a beam of three slices starts where the first ended. -/
example : (evaluate pair_shape 1e-7 (evaluate pair_shape 1e-7 (entrance pair_shape (writeFt (waveFt 1)) 0 1e-7) (List.replicate 3 none)).2 (List.replicate 3 none)).1 =
    (List.range 3).map fun j => fieldOf (advance (0 + ((3 + j : ℕ) : ℝ) * 1e-7) (waveFt 1)) := C58_again pair_shape 0 1e-7 (by norm_num [abs_of_pos]) (.inl rfl) (waveFt 1) 3 (by norm_num)

/-- C69_transverse: a polarized wave that has passed through the material. -/
example (q : Idx pair.grid.shape) : ∑ a, (pair.wavevector q a : ℂ) * (run pair_shape (writeFt polarizedWave) [.propagate 1e-6 (some step'), .read]).fieldFt a q = 0 :=
  C69_transverse pair_proper pair_shape _ _ _

/-! ### C71 -/

/-- C71_refines, C71_values and C71_partial for a section with a plane wave. -/
example : (heapRun pair_shape heapWave [.propagate 1e-6 (some step'), .read]).section = run pair_shape heapWave.section [.propagate 1e-6 (some step'), .read] ∧
    heapWave.read.2.cells heapWave.read.1 = (read heapWave.section).1 ∧
    (heapRun pair_shape heapWave.read.2 [.propagate 1e-6 none, .readFt]).cells heapWave.read.1 = heapWave.read.2.cells heapWave.read.1 :=
  ⟨C71_refines _ _ Nat.one_pos _, (C71_values _ Nat.one_pos).1, C71_partial _ pair_extended _ Nat.one_pos _⟩

/-! ### C72, C73 -/

/-- C72_grids: the grid of the section `pair`, for the last axis. -/
example : ∃ b s, beamGrid (le_refl 3) pairGrid = .ok b ∧ sectionGrid b 2 = .ok s ∧ s.coords 2 = [0] := by
  obtain ⟨b, s, h1, h2, -, -, -, -, -, -, h3, -⟩ := C72_grids pairGrid (fun a => pair_shape a) 2
  exact ⟨b, s, h1, h2, h3⟩

/-- C73_passive: an absorbing material; for a scalar wave. -/
example : energy (read (propagate pair_shape (write (wave 1)) 1e-6 (some fun x => step' x + I))).1 ≤ energy (read (write (wave 1))).1 := by
  refine C73_passive pair_proper (fun k f _ => le_rfl) pair_shape _ _ _ fun x => ?_
  rw [pair_k]
  show 0 ≤ _ * _ * ((step' x + I) / ((1 : ℝ) : ℂ)).im
  rw [ofReal_one, div_one, add_im, I_im]
  unfold step'
  split_ifs
  · rw [add_im, one_im, show ((Real.pi : ℂ) / 10).im = 0 by rw [show ((Real.pi : ℂ) / 10) = ((Real.pi / 10 : ℝ) : ℂ) by push_cast; rfl]; exact ofReal_im _]
    norm_num
  · norm_num

/-- C73_permittivity: an absorbing material. -/
example : energy (read (propagatePermittivity pair_shape (write (wave 1)) 1e-6 fun x => 2 + step' x * 0 + I)).1 ≤ energy (read (write (wave 1))).1 :=
  C73_permittivity pair_proper (fun k f _ => le_rfl) pair_shape _ (by norm_num) (by show (0 : ℝ) ≤ 1e7; norm_num) (by show (0 : ℝ) < 1; norm_num) _ fun x => by simp

end Verif.Beam
