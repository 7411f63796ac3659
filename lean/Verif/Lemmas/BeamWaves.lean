import Verif.Lemmas.Beam
import Verif.Spec.Modes

/-!
# The plane waves of the model of utils/beam.py
-/

namespace Verif.Beam

open Verif.Fourier Verif.Backend Verif.Spec.Modes Complex

variable {o : Optics} {P : Projection}

/-- A section as it is constructed, with a real wavenumber in the forward direction. -/
structure Optics.Proper (o : Optics) : Prop where
  axis : o.grid.shape o.axis = 1
  stepped : o.Stepped
  k : 0 < o.k

/-- The wavevector of a Fourier component: the coordinates of `grid.k`. -/
noncomputable def Optics.kappa (o : Optics) (q : Idx o.grid.shape) : Fin 3 → ℝ := fun a => kOf o.grid a q

/-- The position of a sample. -/
noncomputable def Optics.position (o : Optics) (x : Idx o.grid.shape) : Fin 3 → ℝ := fun a => o.grid.first a + (x a : ℕ) * o.grid.step a

theorem kappa_axis (ho : o.Proper) (q : Idx o.grid.shape) : o.kappa q o.axis = 0 := kOf_singleton ho.stepped (by rw [ho.axis]; omega) q

theorem transverse_eq (ho : o.Proper) (a : Fin 3) (q : Idx o.grid.shape) : o.transverse a q = o.kappa q a / o.k := by
  unfold Optics.transverse
  split_ifs with h
  · rfl
  · unfold Optics.kappa
    rw [kOf_singleton ho.stepped h, zero_div]

theorem sum_transverse (ho : o.Proper) (q : Idx o.grid.shape) : ∑ b, o.transverse b q ^ 2 = (∑ b, o.kappa q b ^ 2) / o.k ^ 2 := by
  rw [Finset.sum_div]
  exact Finset.sum_congr rfl fun b _ => by rw [transverse_eq ho, div_pow]

theorem kProj_axis (ho : o.Proper) (q : Idx o.grid.shape) : o.kProj o.axis q = axial o.k (o.kappa q) / o.k := by
  unfold Optics.kProj axial
  rw [if_pos rfl, sum_transverse ho, ← Real.sqrt_sq ho.k.le, ← Real.sqrt_div' _ (sq_nonneg _)]
  congr 1
  rw [Real.sqrt_sq ho.k.le]
  have := ho.k.ne'
  field_simp

theorem sum_kProj (ho : o.Proper) (q : Idx o.grid.shape) : ∑ b, o.kProj b q ^ 2 = max 1 ((∑ b, o.kappa q b ^ 2) / o.k ^ 2) := by
  have h1 : ∀ b, o.kProj b q ^ 2 = o.transverse b q ^ 2 + if b = o.axis then Real.sqrt (1 - ∑ b, o.transverse b q ^ 2) ^ 2 else 0 := by
    intro b
    unfold Optics.kProj
    split_ifs with h
    · rw [h, transverse_eq ho o.axis, kappa_axis ho, zero_div]
      ring
    · rw [add_zero]
  rw [Finset.sum_congr rfl fun b _ => h1 b, Finset.sum_add_distrib, Finset.sum_ite_eq' Finset.univ, if_pos (Finset.mem_univ _), ← sum_transverse ho]
  rcases le_total (∑ b, o.transverse b q ^ 2) 1 with h | h
  · rw [Real.sq_sqrt (by linarith), max_eq_left h]
    ring
  · rw [Real.sqrt_eq_zero_of_nonpos (by linarith), max_eq_right h]
    ring

theorem norm_kProj_pos (ho : o.Proper) (q : Idx o.grid.shape) : 0 < Real.sqrt (∑ b, o.kProj b q ^ 2) := by
  rw [sum_kProj ho]
  exact Real.sqrt_pos.2 (lt_max_of_lt_left one_pos)

/-- The component of the wavevector along the propagation axis, which is 0 for evanescent waves. -/
theorem k_kDir (ho : o.Proper) (q : Idx o.grid.shape) : o.k * o.kDir q o.axis = axial o.k (o.kappa q) := by
  unfold Optics.kDir
  rw [kProj_axis ho, sum_kProj ho]
  have hk := ho.k.ne'
  rcases le_total ((∑ b, o.kappa q b ^ 2) / o.k ^ 2) 1 with h | h
  · rw [max_eq_left h, Real.sqrt_one]
    field_simp
  · have h2 : axial o.k (o.kappa q) = 0 := by
      refine Real.sqrt_eq_zero_of_nonpos ?_
      have := (one_le_div (by have := ho.k; positivity)).1 h
      linarith
    rw [h2]
    simp

/-- The directions have length 1. -/
theorem sum_kDir (ho : o.Proper) (q : Idx o.grid.shape) : ∑ a, o.kDir q a ^ 2 = 1 := by
  have h := norm_kProj_pos ho q
  unfold Optics.kDir
  simp only [div_pow]
  rw [← Finset.sum_div, Real.sq_sqrt (Real.sqrt_pos.1 h).le, div_self (Real.sqrt_pos.1 h).ne']

/-- The direction is along the wavevector. -/
theorem kDir_eq (ho : o.Proper) (q : Idx o.grid.shape) (a : Fin 3) :
    o.kDir q a * (o.k * Real.sqrt (∑ b, o.kProj b q ^ 2)) = if a = o.axis then axial o.k (o.kappa q) else o.kappa q a := by
  have h := (norm_kProj_pos ho q).ne'
  have hk := ho.k.ne'
  have h1 : o.kDir q a * (o.k * Real.sqrt (∑ b, o.kProj b q ^ 2)) = o.k * o.kProj a q := by
    unfold Optics.kDir
    field_simp
  rw [h1]
  split_ifs with ha
  · rw [ha, kProj_axis ho]
    field_simp
  · unfold Optics.kProj
    rw [if_neg ha, transverse_eq ho]
    field_simp

theorem untwiddle_kappa (hs : o.Stepped) (q x : Idx o.grid.shape) (a : Fin 3) :
    untwiddle (o.grid.shape a) (q a) (x a) = exp (I * ((o.kappa q a * ((x a : ℕ) * o.grid.step a) : ℝ) : ℂ)) := by
  have hx := (x a).isLt
  have hq := (q a).isLt
  by_cases h1 : 1 < o.grid.shape a
  · have hn : (o.grid.shape a : ℂ) ≠ 0 := by exact_mod_cast (by omega : o.grid.shape a ≠ 0)
    have hst : (o.grid.step a : ℂ) ≠ 0 := by exact_mod_cast hs a h1
    unfold Optics.kappa
    rw [C24_kOf o.grid hs]
    unfold untwiddle
    rw [exp_eq_exp_iff_exists_int]
    split_ifs with h
    · refine ⟨0, ?_⟩
      push_cast
      field_simp
      ring
    · refine ⟨((x a : ℕ) : ℤ), ?_⟩
      push_cast
      field_simp
      ring
  · have h0 : (x a : ℕ) = 0 := by omega
    rw [h0]
    simp [untwiddle]

/-- A term of the inverse transform of the propagated field is a plane wave. -/
theorem wave_eq (ho : o.Proper) (z : ℝ) (q x : Idx o.grid.shape) :
    exp (I * (z * o.k * o.kDir q o.axis : ℝ)) * o.shift q * ∏ a, untwiddle (o.grid.shape a) (q a) (x a) = planeWave o.k (o.kappa q) z (o.position x) := by
  unfold Optics.shift planeWave
  rw [Finset.prod_congr rfl fun a _ => untwiddle_kappa ho.stepped q x a, ← exp_sum, ← Finset.mul_sum, ← exp_add, ← exp_add, ← mul_add, ← mul_add]
  congr 2
  rw [← ofReal_sum, ← ofReal_add, ← ofReal_add]
  congr 1
  rw [add_assoc, ← Finset.sum_add_distrib, mul_assoc, k_kDir ho, mul_comm z]
  congr 1
  refine Finset.sum_congr rfl fun a _ => ?_
  unfold Optics.kappa Optics.position
  ring

theorem fieldOf_advance (ho : o.Proper) {F : Arr o P} (h : o.Extended → ¬ AllClose0 F) (z : ℝ) (c : Fin P.c) (x : Idx o.grid.shape) :
    fieldOf (advance z F) c x = (∑ q, F c q * planeWave o.k (o.kappa q) z (o.position x)) / ∏ a, (o.grid.shape a : ℂ) := by
  rw [fieldOf_eq ho.stepped (fun he => by rw [allClose0_advance]; exact h he)]
  unfold ift advance
  congr 1
  refine Finset.sum_congr rfl fun q _ => ?_
  rw [← wave_eq ho]
  ring

/-- A vector that is perpendicular to the wavevector is not changed by the projection. -/
theorem project_vectorial (ho : o.Proper) (q : Idx o.grid.shape) (f : Fin 3 → ℂ)
    (h : ∑ a, ((if a = o.axis then axial o.k (o.kappa q) else o.kappa q a : ℝ) : ℂ) * f a = 0) : projectTransverse (o.kDir q) f = f := by
  have hz : ∑ i, (o.kDir q i : ℂ) * f i = 0 := by
    have hne : ((o.k * Real.sqrt (∑ b, o.kProj b q ^ 2) : ℝ) : ℂ) ≠ 0 := by
      exact_mod_cast (mul_pos ho.k (norm_kProj_pos ho q)).ne'
    refine (mul_eq_zero.1 (?_ : ((o.k * Real.sqrt (∑ b, o.kProj b q ^ 2) : ℝ) : ℂ) * _ = 0)).resolve_left hne
    rw [Finset.mul_sum, ← h]
    refine Finset.sum_congr rfl fun a _ => ?_
    rw [← kDir_eq ho]
    push_cast
    ring
  unfold projectTransverse
  simp only [hz, mul_zero, sub_zero]

end Verif.Beam
