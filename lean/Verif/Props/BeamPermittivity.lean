import Verif.Props.BeamEnergy
import Mathlib.Analysis.SpecialFunctions.Pow.Complex

/-!
# Properties C70 and C73 for permittivities, and the tolerances of C57, C69, C70 and C73 in numbers

NumPy's power of 1/2 of a negative real number is not a number; here it is the principal root, as for complex arrays.
-/

namespace Verif.Beam

open Verif.Fourier Verif.Backend Complex

variable {o : Optics} {P : Projection}

/-- The tolerance below which fields are taken to be zero. -/
theorem C57_significant (he : o.Extended) (C : Arr o P) : Significant C ↔ ∃ c q, 1e-8 < ‖C c q‖ := by
  unfold Significant AllClose0
  push Not
  exact ⟨fun h => h he, fun h _ => h⟩

/-- The tolerance below which a material is taken to be uniform. -/
theorem C70_nearUniform {X : Type} (n0 : ℂ) (n : X → ℂ) : NearUniform n0 n ↔ ∀ x, ‖n x - n0‖ ≤ 1e-8 + 1e-5 * ‖n0‖ := Iff.rfl

theorem sqrt_sq (z : ℂ) : (z ^ (1 / 2 : ℂ)) ^ 2 = z := by
  have := cpow_nat_inv_pow z (n := 2) two_ne_zero
  simpa using this

theorem sqrt_re (z : ℂ) : 0 ≤ (z ^ (1 / 2 : ℂ)).re := by
  by_cases hz : z = 0
  · rw [hz, zero_cpow (by norm_num)]; exact le_rfl
  · rw [cpow_def_of_ne_zero hz, exp_re]
    refine mul_nonneg (Real.exp_pos _).le (Real.cos_nonneg_of_mem_Icc ?_)
    have e : (log z * (1 / 2)).im = arg z / 2 := by
      rw [show (1 / 2 : ℂ) = ((1 / 2 : ℝ) : ℂ) by push_cast; ring, im_mul_ofReal, log_im]; ring
    rw [e]
    have h1 := neg_pi_lt_arg z
    have h2 := arg_le_pi z
    constructor <;> linarith

theorem sqrt_im {z : ℂ} (h : 0 ≤ z.im) : 0 ≤ (z ^ (1 / 2 : ℂ)).im := by
  by_cases hz : z = 0
  · rw [hz, zero_cpow (by norm_num)]; exact le_rfl
  · rw [cpow_def_of_ne_zero hz, exp_im]
    have e : (log z * (1 / 2)).im = arg z / 2 := by
      rw [show (1 / 2 : ℂ) = ((1 / 2 : ℝ) : ℂ) by push_cast; ring, im_mul_ofReal, log_im]; ring
    rw [e]
    have h1 := arg_nonneg_iff.2 h
    have h2 := arg_le_pi z
    exact mul_nonneg (Real.exp_pos _).le (Real.sin_nonneg_of_nonneg_of_le_pi (by linarith) (by linarith [Real.pi_pos]))

/-- **C70 (permittivity).** Propagation with a permittivity is that with the refractive index of which it is the square, with the sign for which light propagates forward; that of a passive material is passive. -/
theorem C70_permittivity (h : ∀ a, 0 < o.grid.shape a) (s : Section o P) (d : ℝ) (eps : Idx o.grid.shape → ℂ) :
    ∃ n : Idx o.grid.shape → ℂ, propagatePermittivity h s d eps = propagate h s d (some n) ∧ ∀ x, n x ^ 2 = eps x ∧ 0 ≤ (n x).re ∧ (0 ≤ (eps x).im → 0 ≤ (n x).im) :=
  ⟨_, rfl, fun x => ⟨sqrt_sq _, sqrt_re _, sqrt_im⟩⟩

/-- **C73 (permittivity).** Forward propagation through a material with a permittivity without gain, and a positive index and wavenumber of the background, does not increase the energy. -/
theorem C73_permittivity (ho : o.Proper) (hP : P.Contracting) (h : ∀ a, 0 < o.grid.shape a) (s : Section o P) {d : ℝ} (hd : 0 ≤ d) (hk : 0 ≤ o.k0) (hi : 0 < o.index) (eps : Idx o.grid.shape → ℂ)
    (he : ∀ x, 0 ≤ (eps x).im) : energy (read (propagatePermittivity h s d eps)).1 ≤ energy (read s).1 := by
  obtain ⟨n, hn, hx⟩ := C70_permittivity h s d eps
  rw [hn]
  refine C73_passive ho hP h s d n fun x => ?_
  rw [div_ofReal_im]
  have := (hx x).2.2 (he x)
  unfold Optics.k
  positivity

/-- A metal: the field decays. -/
example : ((-4 : ℂ) ^ (1 / 2 : ℂ)) ^ 2 = -4 ∧ 0 ≤ ((-4 : ℂ) ^ (1 / 2 : ℂ)).im := ⟨sqrt_sq _, sqrt_im (by simp)⟩

end Verif.Beam
