import Verif.Lemmas.Scattering
import Verif.Props.ScatteringModes

/-!
# C52, C54, C66: sources, detectors, phase conjugation and empty space
-/

namespace Verif.Scattering

open Verif.Fourier Verif.Spec.Modes Complex

variable {d : ℕ}

/-- The amplitudes after the correction for the angle, 572. -/
noncomputable def Setup.corrected (s : Setup d) {P : Polarization} (v : Amplitudes s P) : Amplitudes s P :=
  fun side m q => v side m q / (Real.sqrt (s.axialDir (s.mode m)) : ℝ)

/-- The amplitudes of a side are all zero, or they are not all so small that `np.allclose` takes them for zero. -/
def Setup.Significant (s : Setup d) {P : Polarization} (v : Amplitudes s P) (side : Fin 2) : Prop := (∀ m q, v side m q = 0) ∨ ¬ allClose0 (s.corrected v side)

/-- The wavevectors of the modes. -/
noncomputable def Setup.waves (s : Setup d) (m : Fin s.count) : Fin d → ℝ := s.wavevector (s.mode m)

/-- What the grid, wavenumber and tolerance should be like. -/
structure Setup.Regular (s : Setup d) : Prop where
  dims : d ≤ 2
  tol : 0 ≤ s.tol
  k0 : 0 < s.k0
  step : ∀ a, s.step a ≠ 0
  sampled : s.Sampled

theorem axialPhase_eq (s : Setup d) (hs : s.Regular) (m : Fin s.count) (x0 : ℝ) : s.axialPhase m x0 = exp (I * ((axial s.k0 (s.waves m) * x0 : ℝ) : ℂ)) := by
  have h := (axialDir_eq s hs.dims hs.k0 _ (propagating_of_mem s hs.tol hs.k0 (mode_mem s m))).1
  unfold Setup.axialPhase
  rw [h]
  congr 3
  show s.k0 * (axial s.k0 (s.waves m) / s.k0) * x0 = _
  rw [mul_div_cancel₀ _ hs.k0.ne']

theorem planeWave_neg (k0 : ℝ) (k : Fin d → ℝ) (x0 : ℝ) (x : Fin d → ℝ) : planeWave k0 (fun a => -k a) (-x0) x = (starRingEnd ℂ) (planeWave k0 k x0 x) := by
  unfold planeWave axial
  rw [← exp_conj]
  congr 1
  simp only [neg_sq, map_mul, conj_I, conj_ofReal]
  push_cast
  simp only [neg_mul, Finset.sum_neg_distrib]
  ring

/-- One side is a superposition of plane waves. -/
theorem oneSide_eq (s : Setup d) (hs : s.Regular) (P : Polarization) (v : Fin s.count → Fin P.p → ℂ) (c : Fin P.c) (i : Fin s.shape0) (x : Idx s.shape) :
    s.oneSide P v c i x = ∑ m, P.rotate (s.dir m) (v m) c * planeWave s.k0 (s.waves m) (s.position i) (s.transverse x) := by
  have hn : ∀ q ∈ s.modes, ∀ a, 2 * (q a : ℕ) ≠ s.shape a := fun q hq a => not_nyquist s hs.tol hs.k0 hs.step hs.sampled hq a
  unfold Setup.oneSide
  dsimp only
  unfold ft
  rw [sum_fold (fun m => s.mode (Fin.rev m)) _ (rev_injective s) fun q => ∏ a, twiddle (s.shape a) (x a) (q a)]
  refine Finset.sum_congr rfl fun m _ => ?_
  have h1 : ∏ a, twiddle (s.shape a) (x a) (s.mode (Fin.rev m) a) = ∏ a, untwiddle (s.shape a) (x a) (s.mode m a) := by
    rw [mode_rev s hn]
    exact Finset.prod_congr rfl fun a _ => twiddle_opposite _ _ _ (s.mode m a).2
  rw [h1]
  have h2 := prod_untwiddle s hs.step hs.k0.ne' m x
  have h3 : planeWave s.k0 (s.waves m) (s.position i) (s.transverse x) = s.axialPhase m (s.position i) * exp (I * ((∑ a, s.wavevector (s.mode m) a * s.transverse x a : ℝ) : ℂ)) := by
    rw [axialPhase_eq s hs, planeWave, ← exp_add]
    congr 1
    push_cast
    rw [mul_add]
    rfl
  rw [h3, ← h2]
  ring

/-! ### C66: free space -/

/-- **C66**: the field of a source vector is the superposition of the plane waves of the modes, those of the second half in the opposite directions, when its sides are significant. -/
theorem C66_partial (s : Setup d) (hs : s.Regular) (P : Polarization) (hP : P.Lawful) (v : Amplitudes s P) (hv : ∀ side, s.Significant v side) (c : Fin P.c)
    (i : Fin s.shape0) (x : Idx s.shape) :
    s.freespace P v c i x = superposition s.k0 s.waves (fun m => P.rotate (s.dir m) (v 0 m)) (fun m => P.rotate (s.dir m) (v 1 m)) c (s.position i) (s.transverse x) := by
  have hz : ∀ (side : Fin 2) (m : Fin s.count), P.rotate (s.dir m) (s.corrected v side m) c = P.rotate (s.dir m) (v side m) c / (Real.sqrt (axial s.k0 (s.waves m) / s.k0) : ℝ) := by
    intro side m
    have h := (axialDir_eq s hs.dims hs.k0 _ (propagating_of_mem s hs.tol hs.k0 (mode_mem s m))).1
    have h1 := congrFun (hP.rotate_mul (s.dir m) (v side m) ((Real.sqrt (s.axialDir (s.mode m)) : ℝ) : ℂ)⁻¹) c
    unfold Setup.corrected
    simp only [div_eq_mul_inv] at h1 ⊢
    rw [h1, h, div_eq_mul_inv]
    rfl
  have hzero : ∀ side, (∀ m q, v side m q = 0) → ∀ m, P.rotate (s.dir m) (v side m) c = 0 := by
    intro side h m
    have : v side m = fun q => v side m q * 0 := by funext q; rw [h m q, mul_zero]
    rw [this, hP.rotate_mul]
    exact mul_zero _
  have h0 : (open Classical in if allClose0 (s.corrected v 0) then 0 else s.oneSide P (s.corrected v 0) c i x) =
      ∑ m, P.rotate (s.dir m) (v 0 m) c * planeWave s.k0 (s.waves m) (s.position i) (s.transverse x) / (Real.sqrt (axial s.k0 (s.waves m) / s.k0) : ℝ) := by
    rcases hv 0 with h | h
    · rw [if_pos, Finset.sum_eq_zero]
      · intro m _
        rw [hzero 0 h m, zero_mul, zero_div]
      · intro m q
        simp only [Setup.corrected, h m q, zero_div, norm_zero]
        norm_num
    · rw [if_neg h, oneSide_eq s hs]
      refine Finset.sum_congr rfl fun m _ => ?_
      rw [hz 0 m]
      ring
  have h1 : (open Classical in if allClose0 (s.corrected v 1) then 0 else (starRingEnd ℂ) (s.oneSide P (fun m q => (starRingEnd ℂ) (s.corrected v 1 m q)) c i x)) =
      ∑ m, P.rotate (s.dir m) (v 1 m) c * planeWave s.k0 (fun a => -s.waves m a) (-s.position i) (s.transverse x) / (Real.sqrt (axial s.k0 (s.waves m) / s.k0) : ℝ) := by
    rcases hv 1 with h | h
    · rw [if_pos, Finset.sum_eq_zero]
      · intro m _
        rw [hzero 1 h m, zero_mul, zero_div]
      · intro m q
        simp only [Setup.corrected, h m q, zero_div, norm_zero]
        norm_num
    · rw [if_neg h, oneSide_eq s hs, map_sum]
      refine Finset.sum_congr rfl fun m _ => ?_
      rw [map_mul, hP.rotate_conj, planeWave_neg, hz 1 m]
      ring
  have h2 : s.freespace P v c i x = (open Classical in if allClose0 (s.corrected v 0) then 0 else s.oneSide P (s.corrected v 0) c i x) +
      (open Classical in if allClose0 (s.corrected v 1) then 0 else (starRingEnd ℂ) (s.oneSide P (fun m q => (starRingEnd ℂ) (s.corrected v 1 m q)) c i x)) := rfl
  rw [h2, h0, h1, ← Finset.sum_add_distrib]
  unfold superposition
  exact Finset.sum_congr rfl fun m _ => by ring

/-- **C66**: the polarization of each mode is obtained by rotating the transverse axes along the shortest path that takes the propagation axis to the direction of the mode. -/
theorem C66_polarization (s : Setup d) (hd : d ≤ 2) (htol : 0 ≤ s.tol) (hk : 0 < s.k0) (m : Fin s.count) (a : Fin 2 → ℂ) : vectorial.rotate (s.dir m) a = polarized (s.dir m) a := by
  obtain ⟨h0, h1⟩ := dir_unit s hd htol hk m
  exact vectorial_rotate (s.dir m) h0 h1 a

/-- **C66**: that polarization is orthogonal to the direction of the mode, and has the same magnitude. -/
theorem C66_transverse (s : Setup d) (hd : d ≤ 2) (htol : 0 ≤ s.tol) (hk : 0 < s.k0) (m : Fin s.count) (a : Fin 2 → ℂ) :
    ∑ c : Fin 3, vectorial.rotate (s.dir m) a c * s.dir m c = 0 ∧
    ∑ c : Fin 3, vectorial.rotate (s.dir m) a c * (starRingEnd ℂ) (vectorial.rotate (s.dir m) a c) = ∑ q, a q * (starRingEnd ℂ) (a q) := by
  obtain ⟨h0, h1⟩ := dir_unit s hd htol hk m
  rw [C66_polarization s hd htol hk]
  generalize s.dir m = k at *
  have hc : (1 + (k 0 : ℂ)) ≠ 0 := by exact_mod_cast (by linarith : (1 + k 0 : ℝ) ≠ 0)
  have h1c : (k 0 : ℂ) ^ 2 + (k 1 : ℂ) ^ 2 + (k 2 : ℂ) ^ 2 = 1 := by exact_mod_cast h1
  have hp0 : polarized k a 0 = -(k 1 * a 0 + k 2 * a 1) := by
    simp [polarized, rotation, cross_apply]; ring
  have hp1 : polarized k a 1 = a 0 - k 1 * (k 1 * a 0 + k 2 * a 1) / (1 + k 0) := by
    simp [polarized, rotation, cross_apply]; field_simp; ring
  have hp2 : polarized k a 2 = a 1 - k 2 * (k 1 * a 0 + k 2 * a 1) / (1 + k 0) := by
    simp [polarized, rotation, cross_apply]; field_simp; ring
  rw [Fin.sum_univ_three, Fin.sum_univ_three, Fin.sum_univ_two, hp0, hp1, hp2]
  constructor
  · field_simp
    linear_combination -(k 1 * a 0 + k 2 * a 1) * h1c
  · simp only [map_neg, map_add, map_sub, map_mul, map_div₀, Complex.conj_ofReal, map_one]
    field_simp
    linear_combination (k 1 * a 0 + k 2 * a 1) * (k 1 * (starRingEnd ℂ) (a 0) + k 2 * (starRingEnd ℂ) (a 1)) * h1c

/-! ### C54: empty space -/

/-- The field of one side. -/
noncomputable def Setup.sideField (s : Setup d) (P : Polarization) (v : Amplitudes s P) (side : Fin 2) : Field s P := open Classical in fun c i x =>
  if allClose0 (s.corrected v side) then 0
  else if side = 0 then s.oneSide P (s.corrected v 0) c i x
  else (starRingEnd ℂ) (s.oneSide P (fun m q => (starRingEnd ℂ) (s.corrected v 1 m q)) c i x)

theorem freespace_sides (s : Setup d) (P : Polarization) (v : Amplitudes s P) (c : Fin P.c) (i : Fin s.shape0) (x : Idx s.shape) :
    s.freespace P v c i x = s.sideField P v 0 c i x + s.sideField P v 1 c i x := by
  unfold Setup.sideField
  rw [if_pos rfl, if_neg (by decide : ¬ (1 : Fin 2) = 0)]
  rfl

theorem corrected_mask (s : Setup d) {P : Polarization} (v : Amplitudes s P) (side i : Fin 2) : s.corrected (mask v side) i = if i = side then 0 else s.corrected v i := by
  funext m q
  unfold Setup.corrected mask
  split_ifs <;> simp

theorem allClose0_zero {M p : ℕ} : allClose0 (0 : Fin M → Fin p → ℂ) := fun m q => by
  simp only [Pi.zero_apply, norm_zero]
  norm_num

theorem sideField_mask (s : Setup d) (P : Polarization) (v : Amplitudes s P) (side i : Fin 2) :
    s.sideField P (mask v side) i = if i = side then fun _ _ _ => 0 else s.sideField P v i := by
  funext c j x
  unfold Setup.sideField
  by_cases h : i = side
  · rw [if_pos h, corrected_mask, if_pos h, if_pos allClose0_zero]
  · rw [if_neg h, corrected_mask, if_neg h]
    have : ∀ k : Fin 2, k = i → s.corrected (mask v side) k = s.corrected v k := by
      rintro k rfl
      rw [corrected_mask, if_neg h]
    by_cases hi : i = 0
    · rw [this 0 hi.symm]
      simp only [hi, if_pos]
    · have h1 : (1 : Fin 2) = i := by omega
      rw [this 1 h1]
      simp only [hi, if_false]

theorem unrotate_zero {P : Polarization} (hP : P.Lawful) (k : Fin 3 → ℝ) (q : Fin P.p) : P.unrotate k (fun _ => 0) q = 0 := by
  have := congrFun (hP.unrotate_mul k (fun _ => 0) 0) q
  simp only [mul_zero] at this
  exact this

/-- Detection depends only on the plane of the side. -/
theorem detect_congr (s : Setup d) (P : Polarization) (planes : Fin 2 → Fin s.shape0) (f g : Field s P) (side : Fin 2) (h : ∀ c x, f c (planes side) x = g c (planes side) x) :
    s.detect P planes f side = s.detect P planes g side := by
  have : ∀ c, (fun x => f c (planes side) x) = fun x => g c (planes side) x := fun c => funext (h c)
  funext m q
  unfold Setup.detect
  simp only [h]

/-- No field, no amplitudes. -/
theorem detect_zero (s : Setup d) (P : Polarization) (hP : P.Lawful) (planes : Fin 2 → Fin s.shape0) (side : Fin 2) : s.detect P planes (fun _ _ _ => 0) side = 0 := by
  funext m q
  unfold Setup.detect
  have h1 : ∀ n : Fin s.count, ift (fun _ : Idx s.shape => (0 : ℂ)) (s.mode n) = 0 := by
    intro n
    simp [ift]
  have h2 : (if side = 0 then (0 : ℂ) else (starRingEnd ℂ) 0) = 0 := by split_ifs <;> simp
  simp only [h2, h1]
  rw [unrotate_zero hP]
  simp

/-- **C54**: detection of the waves of one side gives their amplitudes, wherever the plane is. -/
theorem C54_detect (s : Setup d) (hd : d ≤ 2) (htol : 0 ≤ s.tol) (hk : 0 < s.k0) (P : Polarization) (hP : P.Lawful) (planes : Fin 2 → Fin s.shape0) (v : Amplitudes s P)
    (side : Fin 2) : s.detect P planes (s.sideField P v side) side = open Classical in if allClose0 (s.corrected v side) then 0 else v side := by
  by_cases hc : allClose0 (s.corrected v side)
  · rw [if_pos hc, detect_congr s P planes _ (fun _ _ _ => 0) side fun c x => by unfold Setup.sideField; rw [if_pos hc], detect_zero s P hP]
  rw [if_neg hc]
  -- the amplitude for a vector of one side
  have key : ∀ (w : Fin s.count → Fin P.p → ℂ) (i : Fin s.shape0) (m : Fin s.count) (q : Fin P.p),
      P.unrotate (s.dir m) (fun c => ift (s.oneSide P w c i) (s.mode (Fin.rev m))) q * exp (-I * s.k0 * (∑ a : Fin d, s.kFft a (s.mode m a) / s.k0 * s.first a : ℝ)) *
        exp (-I * (s.k0 * s.axialDir (s.mode m) * s.position i : ℝ)) = w m q := by
    intro w i m q
    obtain ⟨hu0, hu1⟩ := dir_unit s hd htol hk m
    have h1 : (fun c => ift (s.oneSide P w c i) (s.mode (Fin.rev m))) = fun c => P.rotate (s.dir m) (w m) c * (s.phase m * s.axialPhase m (s.position i)) := by
      funext c
      rw [ift_oneSide, mul_assoc]
    have h2 := congrFun (hP.unrotate_mul (s.dir m) (P.rotate (s.dir m) (w m)) (s.phase m * s.axialPhase m (s.position i))) q
    rw [h1, h2, hP.unrotate_rotate _ _ hu0 hu1]
    have h3 : s.phase m * exp (-I * s.k0 * (∑ a : Fin d, s.kFft a (s.mode m a) / s.k0 * s.first a : ℝ)) = 1 := by
      unfold Setup.phase
      rw [← exp_add]
      have : I * ((∑ a : Fin d, s.k0 * (s.kFft a (s.mode m a) / s.k0) * s.first a : ℝ) : ℂ) + -I * s.k0 * ((∑ a : Fin d, s.kFft a (s.mode m a) / s.k0 * s.first a : ℝ) : ℂ) = 0 := by
        have h4 : (∑ a : Fin d, s.k0 * (s.kFft a (s.mode m a) / s.k0) * s.first a : ℝ) = s.k0 * ∑ a : Fin d, s.kFft a (s.mode m a) / s.k0 * s.first a := by
          rw [Finset.mul_sum]
          exact Finset.sum_congr rfl fun a _ => by ring
        rw [h4]
        push_cast
        ring
      rw [this, exp_zero]
    have h5 : s.axialPhase m (s.position i) * exp (-I * (s.k0 * s.axialDir (s.mode m) * s.position i : ℝ)) = 1 := by
      unfold Setup.axialPhase
      rw [← exp_add, neg_mul, add_neg_cancel, exp_zero]
    linear_combination (w m q * s.axialPhase m (s.position i) * exp (-I * (s.k0 * s.axialDir (s.mode m) * s.position i : ℝ))) * h3 + w m q * h5
  have hroot : ∀ m, ((Real.sqrt (s.axialDir (s.mode m)) : ℝ) : ℂ) ≠ 0 := by
    intro m
    have := (dir_unit s hd htol hk m).1
    exact_mod_cast (Real.sqrt_pos.mpr this).ne'
  funext m q
  by_cases h0 : side = 0
  · subst h0
    have hf : ∀ c, (fun x => s.sideField P v 0 c (planes 0) x) = s.oneSide P (s.corrected v 0) c (planes 0) := by
      intro c
      funext x
      unfold Setup.sideField
      rw [if_neg hc, if_pos rfl]
    unfold Setup.detect
    simp only [if_pos, hf]
    rw [key]
    exact div_mul_cancel₀ _ (hroot m)
  · have h1 : side = 1 := by omega
    subst h1
    have hf : ∀ c, (fun x => (starRingEnd ℂ) (s.sideField P v 1 c (planes 1) x)) = s.oneSide P (fun m q => (starRingEnd ℂ) (s.corrected v 1 m q)) c (planes 1) := by
      intro c
      funext x
      unfold Setup.sideField
      rw [if_neg hc, if_neg h0, Complex.conj_conj]
    unfold Setup.detect
    simp only [h0, if_false, hf]
    rw [key, map_mul, Complex.conj_conj, Complex.conj_ofReal]
    exact div_mul_cancel₀ _ (hroot m)

/-- **C54**, at the level of the code: when the solver returns the field of `srcvec2freespace` at the detectors, the product is the vector, without the sides that are taken for zero. -/
theorem C54_code (s : Setup d) (hd : d ≤ 2) (htol : 0 ≤ s.tol) (hk : 0 < s.k0) (P : Polarization) (hP : P.Lawful) (planes : Fin 2 → Fin s.shape0) (hpl : planes 0 ≠ planes 1)
    (solve : Amplitudes s P → Field s P) (v : Amplitudes s P) (hsolve : ∀ c side x, solve v c (planes side) x = s.freespace P v c (planes side) x) (side : Fin 2) :
    s.scatter P planes solve v side = open Classical in if allClose0 (s.corrected v side) then 0 else v side := by
  rw [← C54_detect s hd htol hk P hP planes v side]
  unfold Setup.scatter
  refine detect_congr s P planes _ _ side fun c x => ?_
  have hm : ∀ k : Fin 2, s.freespace P (mask v k) c (planes k) x = s.sideField P v (1 - k) c (planes k) x := by
    intro k
    rw [freespace_sides, sideField_mask, sideField_mask]
    by_cases hk0 : k = 0
    · subst hk0
      rw [if_pos rfl, if_neg (by decide), zero_add]
      rfl
    · have : k = 1 := by omega
      subst this
      rw [if_neg (by decide), if_pos rfl, add_zero]
      rfl
  by_cases h0 : side = 0
  · subst h0
    dsimp only
    rw [if_neg hpl, if_pos rfl, hsolve, hm, freespace_sides]
    exact add_sub_cancel_right _ _
  · have h1 : side = 1 := by omega
    subst h1
    dsimp only
    rw [if_pos rfl, if_neg hpl.symm, hsolve, hm, freespace_sides]
    exact add_sub_cancel_left _ _

/-- The field of the documented plane waves. -/
noncomputable def Setup.incident (s : Setup d) (P : Polarization) (v : Amplitudes s P) : Field s P := fun c i x =>
  superposition s.k0 s.waves (fun m => P.rotate (s.dir m) (v 0 m)) (fun m => P.rotate (s.dir m) (v 1 m)) c (s.position i) (s.transverse x)

/-- **C54**, scalar or vectorial: in empty space, where the field is that of the plane waves, the product with a vector is that vector.  Missing are amplitudes that are tiny for all modes of
a side, and grids with an even number of transverse samples that are more than half a wavelength apart. -/
theorem C54_partial (s : Setup d) (hs : s.Regular) (P : Polarization) (hP : P = scalar ∨ P = vectorial) (planes : Fin 2 → Fin s.shape0) (hpl : planes 0 ≠ planes 1)
    (v : Amplitudes s P) (hv : ∀ side, s.Significant v side) : s.scatter P planes (s.incident P) v = v := by
  have hl : P.Lawful := by
    rcases hP with rfl | rfl
    · exact scalar_lawful
    · exact vectorial_lawful
  funext side
  rw [C54_code s hs.dims hs.tol hs.k0 P hl planes hpl (s.incident P) v (fun c k x => (C66_partial s hs P hl v hv c (planes k) x).symm) side]
  rcases hv side with h | h
  · split_ifs with hc
    · funext m q
      exact (h m q).symm
    · rfl
  · rw [if_neg h]

/-! ### C52: time reversal -/

theorem C52_swap {h : ℕ} (v : Fin (2 * h) → ℂ) (i : Fin h) :
    detvec2srcvec v ⟨i, by omega⟩ = (starRingEnd ℂ) (v ⟨h + i, by omega⟩) ∧ detvec2srcvec v ⟨h + i, by omega⟩ = (starRingEnd ℂ) (v ⟨i, by omega⟩) := by
  have hi := i.2
  have hdiv : 2 * h / 2 = h := by omega
  unfold detvec2srcvec
  constructor
  · congr 2
    apply Fin.ext
    simp only [hdiv]
    rw [← Int.add_emod_right, Int.emod_eq_of_lt (by push_cast; omega) (by push_cast; omega)]
    push_cast
    omega
  · congr 2
    apply Fin.ext
    simp only [hdiv]
    rw [Int.emod_eq_of_lt (by push_cast; omega) (by push_cast; omega)]
    push_cast
    omega

/-- **C52**: applying it twice gives the vector back, for the even lengths that detection vectors have. -/
theorem C52_involution {h : ℕ} (v : Fin (2 * h) → ℂ) : detvec2srcvec (detvec2srcvec v) = v := by
  funext j
  by_cases hj : (j : ℕ) < h
  · have h1 := (C52_swap (detvec2srcvec v) ⟨j, hj⟩).1
    have h2 := (C52_swap v ⟨j, hj⟩).2
    rw [h2, Complex.conj_conj] at h1
    exact h1
  · have hj2 := j.2
    have h1 := (C52_swap (detvec2srcvec v) ⟨j - h, by omega⟩).2
    have h2 := (C52_swap v ⟨j - h, by omega⟩).1
    rw [h2, Complex.conj_conj] at h1
    have e : (⟨h + (j - h), by omega⟩ : Fin (2 * h)) = j := Fin.ext (by simp; omega)
    simp only [e] at h1
    exact h1

/-- The time-reversed source vector. -/
def Reversed {M p : ℕ} (v w : Fin 2 → Fin M → Fin p → ℂ) : Prop := ∀ m q, w 0 m q = (starRingEnd ℂ) (v 1 m q) ∧ w 1 m q = (starRingEnd ℂ) (v 0 m q)

/-- **C52**: it conjugates the amplitudes and exchanges the two sides. -/
theorem C52_sides {M p : ℕ} (v : Fin (2 * (p * M)) → ℂ) : Reversed (unflatten (M := M) (p := p) (fun i => v (i.cast (by ring)))) (unflatten fun i => detvec2srcvec v (i.cast (by ring))) := by
  intro m q
  have hm := m.2
  have hq := q.2
  have hlt : (m : ℕ) * p + q < p * M := by
    have h1 : ((m : ℕ) + 1) * p ≤ M * p := Nat.mul_le_mul_right _ hm
    have h2 : ((m : ℕ) + 1) * p = m * p + p := by ring
    have h3 : M * p = p * M := by ring
    omega
  obtain ⟨h1, h2⟩ := C52_swap v ⟨m * p + q, hlt⟩
  have e : p * M + (m * p + q) = (1 * M + m) * p + q := by ring
  constructor
  · show detvec2srcvec v ⟨(0 * M + m) * p + q, _⟩ = (starRingEnd ℂ) (v ⟨(1 * M + m) * p + q, _⟩)
    simp only [e] at h1
    simp only [Nat.zero_mul, Nat.zero_add]
    exact h1
  · show detvec2srcvec v ⟨(1 * M + m) * p + q, _⟩ = (starRingEnd ℂ) (v ⟨(0 * M + m) * p + q, _⟩)
    simp only [e] at h2
    simp only [Nat.zero_mul, Nat.zero_add]
    exact h2

theorem allClose0_conj {M p : ℕ} (v : Fin M → Fin p → ℂ) : allClose0 (fun m q => (starRingEnd ℂ) (v m q)) ↔ allClose0 v := by
  unfold allClose0
  simp only [RCLike.norm_conj]

/-- **C52**: the field of the time-reversed source is the complex conjugate field, at all points and for all vectors. -/
theorem C52_field (s : Setup d) (P : Polarization) (v w : Amplitudes s P) (h : Reversed v w) (c : Fin P.c) (i : Fin s.shape0) (x : Idx s.shape) :
    s.freespace P w c i x = (starRingEnd ℂ) (s.freespace P v c i x) := by
  have h0 : s.corrected w 0 = fun m q => (starRingEnd ℂ) (s.corrected v 1 m q) := by
    funext m q
    simp only [Setup.corrected, (h m q).1, map_div₀, Complex.conj_ofReal]
  have h1 : s.corrected w 1 = fun m q => (starRingEnd ℂ) (s.corrected v 0 m q) := by
    funext m q
    simp only [Setup.corrected, (h m q).2, map_div₀, Complex.conj_ofReal]
  rw [freespace_sides, freespace_sides, map_add, add_comm]
  congr 1
  · unfold Setup.sideField
    rw [if_neg (by decide : ¬ (1 : Fin 2) = 0), if_pos rfl, h1, allClose0_conj]
    simp only [Complex.conj_conj]
    split_ifs
    · simp
    · rfl
  · unfold Setup.sideField
    rw [if_neg (by decide : ¬ (1 : Fin 2) = 0), if_pos rfl, h0, allClose0_conj]
    split_ifs
    · simp
    · rw [Complex.conj_conj]

end Verif.Scattering
