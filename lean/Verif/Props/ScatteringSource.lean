import Verif.Props.Scattering
import Verif.Props.Bound
import Mathlib.Analysis.SpecialFunctions.ExpDeriv

/-!
# C54 (refuted for tiny amplitudes), C67 (source and detector planes), and C68 (strength of the sources)
-/

namespace Verif.Scattering

open Verif.Fourier Verif.Spec.Modes Complex

variable {d : ℕ}

/-! ### One dimension -/

theorem axialDir_zero (s : Setup 0) (q : Idx s.shape) : s.axialDir q = 1 := by
  unfold Setup.axialDir Setup.transverseDir
  simp

theorem count_zero (s : Setup 0) : s.count = 1 := by
  unfold Setup.count Setup.modes
  simp [raster, propagatesFrom]

theorem corrected_zero (s : Setup 0) {P : Polarization} (v : Amplitudes s P) : s.corrected v = v := by
  funext side m q
  simp [Setup.corrected, axialDir_zero]

theorem incident_zero (s : Setup 0) (hk : 0 < s.k0) (a : ℂ) (c : Fin scalar.c) (i : Fin s.shape0) (x : Idx s.shape) :
    s.incident scalar (fun side _ _ => if side = 0 then a else 0) c i x = a * exp (I * ((s.k0 * s.position i : ℝ) : ℂ)) := by
  have hax : ∀ k : Fin 0 → ℝ, axial s.k0 k = s.k0 := by
    intro k
    simp [axial, Real.sqrt_sq hk.le]
  have h1 : ∀ m : Fin s.count, scalar.rotate (s.dir m) (fun _ => if True then a else 0) c = a := fun m => if_pos (e := (0 : ℂ)) trivial
  have h2 : ∀ m : Fin s.count, scalar.rotate (s.dir m) (fun _ => if (1 : Fin 2) = 0 then a else 0) c = 0 := fun m => rfl
  have hm := count_zero s
  unfold Setup.incident superposition
  simp only [h1, h2, hax, zero_mul, add_zero, div_self hk.ne', Real.sqrt_one, ofReal_one, div_one, planeWave]
  simp only [Finset.univ_eq_empty, Finset.sum_empty, add_zero]
  rw [Finset.sum_const, Finset.card_univ, Fintype.card_fin, hm, one_smul]

/-- **C54** is violated by amplitudes of at most 1e-8: a forward propagating wave is then also detected as a wave that propagates backward, although there is only empty space. -/
theorem C54_violates (s : Setup 0) (hk : 0 < s.k0) (planes : Fin 2 → Fin s.shape0) (hpl : planes 0 ≠ planes 1) (a : ℂ) (ha : a ≠ 0) (hsmall : ‖a‖ ≤ 1e-8) :
    let v : Amplitudes s scalar := fun side _ _ => if side = 0 then a else 0
    s.count = 1 ∧ ∀ m q, v 1 m q = 0 ∧ s.scatter scalar planes (s.incident scalar) v 1 m q ≠ 0 := by
  intro v
  refine ⟨count_zero s, fun m q => ⟨rfl, ?_⟩⟩
  have hc : allClose0 (s.corrected v 0) := by
    rw [corrected_zero]
    exact fun _ _ => hsmall
  have hfree : ∀ c x, s.freespace scalar (mask v 1) c (planes 1) x = 0 := by
    intro c x
    rw [freespace_sides, sideField_mask, sideField_mask, if_neg (by decide), if_pos rfl, add_zero]
    unfold Setup.sideField
    rw [if_pos hc]
  have h1 : s.scatter scalar planes (s.incident scalar) v 1 = s.detect scalar planes (fun _ i _ => a * exp (I * ((s.k0 * s.position i : ℝ) : ℂ))) 1 := by
    unfold Setup.scatter
    refine detect_congr s scalar planes _ _ 1 fun c x => ?_
    dsimp only
    rw [if_pos rfl, if_neg hpl.symm, hfree, sub_zero]
    exact incident_zero s hk a c _ x
  rw [h1]
  unfold Setup.detect
  simp only [if_neg (by decide : ¬ (1 : Fin 2) = 0)]
  have h2 : ∀ z : ℂ, ∀ y : Idx s.shape, ift (fun _ : Idx s.shape => z) y = z := by
    intro z y
    simp [ift]
  simp only [h2]
  rw [Ne, map_eq_zero]
  have h3 : scalar.unrotate (s.dir m) (fun _ => (starRingEnd ℂ) (a * exp (I * ((s.k0 * s.position (planes 1) : ℝ) : ℂ)))) q =
      (starRingEnd ℂ) (a * exp (I * ((s.k0 * s.position (planes 1) : ℝ) : ℂ))) := rfl
  rw [h3, axialDir_zero, Real.sqrt_one, ofReal_one, mul_one]
  refine mul_ne_zero (mul_ne_zero ?_ (exp_ne_zero _)) (exp_ne_zero _)
  rw [Ne, map_eq_zero]
  exact mul_ne_zero ha (exp_ne_zero _)

/-! ### C68: sources -/

theorem unitSheet (step kz : ℝ) (hstep : step ≠ 0) : UnitSheet step kz (-2 * I * kz / step) := by
  have hbase : ∀ sgn : ℝ, HasDerivAt (fun x : ℝ => exp (I * (kz * (sgn * x) : ℝ))) (I * (kz * sgn : ℝ)) 0 := by
    intro sgn
    have h1 : HasDerivAt (fun x : ℝ => I * ((kz * (sgn * x) : ℝ) : ℂ)) (I * ((kz * sgn : ℝ) : ℂ)) 0 := by
      have h2 : HasDerivAt (fun x : ℝ => ((kz * (sgn * x) : ℝ) : ℂ)) ((kz * sgn : ℝ) : ℂ) 0 := by
        refine HasDerivAt.ofReal_comp (f := fun x : ℝ => kz * (sgn * x)) (u := kz * sgn) ?_
        have := ((hasDerivAt_id (0 : ℝ)).const_mul (kz * sgn))
        simp only [id, mul_one] at this
        simpa [mul_assoc] using this
      exact h2.const_mul I
    have h3 := h1.cexp
    simpa using h3
  refine ⟨I * (kz * 1 : ℝ), I * (kz * (-1) : ℝ), ?_, ?_, ?_⟩
  · refine ((hbase 1).hasDerivWithinAt).congr (fun x hx => ?_) (by simp)
    rw [abs_of_nonneg hx, one_mul]
  · refine ((hbase (-1)).hasDerivWithinAt).congr (fun x hx => ?_) (by simp)
    rw [abs_of_nonpos hx, neg_one_mul]
  · have : (step : ℂ) ≠ 0 := by exact_mod_cast hstep
    field_simp
    push_cast
    ring

theorem sourceAmplitude_eq (s : Setup d) (c mu0 : ℝ) (hc : c ≠ 0) (hmu : mu0 ≠ 0) (hstep : s.step0 ≠ 0) : s.sourceAmplitude c mu0 = -2 * I * s.k0 / s.step0 := by
  have h1 : (c : ℂ) ≠ 0 := by exact_mod_cast hc
  have h2 : (mu0 : ℂ) ≠ 0 := by exact_mod_cast hmu
  have h3 : (s.step0 : ℂ) ≠ 0 := by exact_mod_cast hstep
  unfold Setup.sourceAmplitude
  push_cast
  field_simp

theorem transverseCos_eq (s : Setup d) (hs : s.Regular) (m : Fin s.count) : s.transverseCos (s.mode m) = axial s.k0 (s.waves m) / s.k0 := by
  have h := propagating_of_mem s hs.tol hs.k0 (mode_mem s m)
  have h0 : 0 < s.k0 ^ 2 - ∑ a, s.wavevector (s.mode m) a ^ 2 := by unfold Propagating at h; linarith
  have hk := hs.k0
  unfold Setup.transverseCos axial
  have h1 : 1 - (Real.sqrt (∑ a, s.kFft a (s.mode m a) ^ 2) / s.k0) ^ 2 = (s.k0 ^ 2 - ∑ a, s.wavevector (s.mode m) a ^ 2) / s.k0 ^ 2 := by
    rw [div_pow, Real.sq_sqrt (Finset.sum_nonneg fun a _ => sq_nonneg _)]
    unfold Setup.wavevector
    field_simp
  rw [h1, max_eq_left (by positivity), Real.sqrt_div h0.le, Real.sqrt_sq hk.le]
  rfl

/-- The amplitudes of the current. -/
noncomputable def Setup.currents (s : Setup d) {P : Polarization} (c mu0 : ℝ) (v : Amplitudes s P) (keep : Fin 2) : Amplitudes s P := fun side m q =>
  v side m q * (s.transverseCos (s.mode m) * s.sourceAmplitude c mu0) * if side = keep then 1 else 0

/-- **C68**: the source is zero except in the two planes.  In the first it is the superposition of the forward plane waves, each multiplied with a strength for which that plane emits the
wave with unit amplitude, and in the second that of the backward waves, when the sides are significant. -/
theorem C68_partial (s : Setup d) (hs : s.Regular) (P : Polarization) (hP : P = scalar ∨ P = vectorial) (c mu0 : ℝ) (hc : c ≠ 0) (hmu : mu0 ≠ 0) (hstep : s.step0 ≠ 0)
    (planes : Fin 2 → Fin s.shape0) (hpl : planes 0 ≠ planes 1) (v : Amplitudes s P) (hv : ∀ side, s.Significant (s.currents c mu0 v side) side) :
    ∃ sigma : Fin s.count → ℂ, (∀ m, UnitSheet s.step0 (axial s.k0 (s.waves m)) (sigma m)) ∧ ∀ comp i x, s.source P c mu0 planes v comp i x =
      if i = planes 0 then superposition s.k0 s.waves (fun m a => P.rotate (s.dir m) (v 0 m) a * sigma m) (fun _ _ => 0) comp (s.position i) (s.transverse x)
      else if i = planes 1 then superposition s.k0 s.waves (fun _ _ => 0) (fun m a => P.rotate (s.dir m) (v 1 m) a * sigma m) comp (s.position i) (s.transverse x) else 0 := by
  have hl : P.Lawful := by
    rcases hP with rfl | rfl
    · exact scalar_lawful
    · exact vectorial_lawful
  have hsig : ∀ keep side, s.Significant (s.currents c mu0 v keep) side := by
    intro keep side
    by_cases h : side = keep
    · subst h
      exact hv side
    · left
      intro m q
      simp [Setup.currents, h]
  refine ⟨fun m => -2 * I * axial s.k0 (s.waves m) / s.step0, fun m => unitSheet _ _ hstep, fun comp i x => ?_⟩
  have hcur : ∀ keep side m, P.rotate (s.dir m) (s.currents c mu0 v keep side m) =
      fun a => if side = keep then P.rotate (s.dir m) (v side m) a * (-2 * I * axial s.k0 (s.waves m) / s.step0) else 0 := by
    intro keep side m
    have h1 : s.currents c mu0 v keep side m = fun q => v side m q * (s.transverseCos (s.mode m) * s.sourceAmplitude c mu0 * if side = keep then 1 else 0) := by
      funext q
      unfold Setup.currents
      ring
    rw [h1, hl.rotate_mul]
    funext a
    have hk : (s.k0 : ℂ) ≠ 0 := by exact_mod_cast hs.k0.ne'
    rw [transverseCos_eq s hs, sourceAmplitude_eq s c mu0 hc hmu hstep]
    split_ifs
    · push_cast
      field_simp
    · simp
  have hfree : ∀ keep, s.freespace P (s.currents c mu0 v keep) comp i x = superposition s.k0 s.waves
      (fun m a => if (0 : Fin 2) = keep then P.rotate (s.dir m) (v 0 m) a * (-2 * I * axial s.k0 (s.waves m) / s.step0) else 0)
      (fun m a => if (1 : Fin 2) = keep then P.rotate (s.dir m) (v 1 m) a * (-2 * I * axial s.k0 (s.waves m) / s.step0) else 0) comp (s.position i) (s.transverse x) := by
    intro keep
    rw [C66_partial s hs P hl _ (hsig keep)]
    simp only [hcur]
  have hsrc : s.source P c mu0 planes v comp i x =
      if i = planes 1 then s.freespace P (s.currents c mu0 v 1) comp i x else if i = planes 0 then s.freespace P (s.currents c mu0 v 0) comp i x else 0 := rfl
  rw [hsrc, hfree, hfree]
  by_cases h0 : i = planes 0
  · have h1 : i ≠ planes 1 := fun h => hpl (h0.symm.trans h)
    rw [if_neg h1, if_pos h0, if_pos h0]
    rfl
  · rw [if_neg h0, if_neg h0]
    rfl

/-- **C68** is violated when the product of wavenumber and sample frequency is small, for instance because the unit of length is: there is no source at all for unit amplitudes. -/
theorem C68_violates (s : Setup 0) (hk : 0 < s.k0) (hstep : 0 < s.step0) (hsmall : 2 * s.k0 ≤ 1e-8 * s.step0) (c mu0 : ℝ) (hc : c ≠ 0) (hmu : mu0 ≠ 0) (planes : Fin 2 → Fin s.shape0) :
    s.source scalar c mu0 planes (fun _ _ _ => 1) = fun _ _ _ => 0 := by
  have hamp : ‖s.sourceAmplitude c mu0‖ ≤ 1e-8 := by
    rw [sourceAmplitude_eq s c mu0 hc hmu hstep.ne']
    simp only [norm_div, norm_mul, norm_neg, norm_I, norm_real, Complex.norm_ofNat, mul_one]
    rw [Real.norm_of_nonneg hk.le, Real.norm_of_nonneg hstep.le, div_le_iff₀ hstep]
    exact hsmall
  have hcos : ∀ m : Fin s.count, s.transverseCos (s.mode m) = 1 := by
    intro m
    unfold Setup.transverseCos
    simp
  have hclose : ∀ keep side, allClose0 (s.corrected (s.currents (P := scalar) c mu0 (fun _ _ _ => 1) keep) side) := by
    intro keep side m q
    rw [corrected_zero]
    unfold Setup.currents
    rw [hcos]
    split_ifs
    · simpa using hamp
    · simp only [mul_zero, norm_zero]
      norm_num
  have hfree : ∀ keep comp i x, s.freespace scalar (s.currents c mu0 (fun _ _ _ => 1) keep) comp i x = 0 := by
    intro keep comp i x
    rw [freespace_sides]
    unfold Setup.sideField
    rw [if_pos (hclose keep 0), if_pos (hclose keep 1), add_zero]
  funext comp i x
  have hsrc : s.source scalar c mu0 planes (fun _ _ _ => 1) comp i x =
      if i = planes 1 then s.freespace scalar (s.currents c mu0 (fun _ _ _ => 1) 1) comp i x else if i = planes 0 then s.freespace scalar (s.currents c mu0 (fun _ _ _ => 1) 0) comp i x else 0 := rfl
  rw [hsrc, hfree, hfree]
  simp

/-! ### C67: planes -/

/-- **C67**: the front source is in the first sample that is further from the first sample than the thickness of the boundary. -/
theorem C67_front (N : ℕ) (step front back : ℝ) (hstep : 0 < step) (hf : 0 ≤ front) :
    let p := (sourcePlanes N step front back).1
    front < p * step ∧ (p - 1) * step ≤ front ∧ 0 < p := by
  intro p
  have h0 : 0 ≤ front / step := by positivity
  have hp : p = ⌊front / step⌋ + 1 := by
    show truncate (front / step) + 1 = _
    rw [truncate, if_pos h0]
  have h1 := Int.floor_le (front / step)
  have h2 := Int.lt_floor_add_one (front / step)
  have h3 : 0 ≤ ⌊front / step⌋ := Int.floor_nonneg.mpr h0
  rw [hp]
  push_cast
  refine ⟨(div_lt_iff₀ hstep).mp h2, ?_, by omega⟩
  rw [add_sub_cancel_right]
  exact (le_div_iff₀ hstep).mp h1

/-- The distance of the back source from the last sample is the largest multiple of the step that is not larger than the thickness of the boundary. -/
theorem C67_back_partial (N : ℕ) (step front back : ℝ) (hstep : 0 < step) (hb : 0 ≤ back) :
    let p := (sourcePlanes N step front back).2
    (N - 1 - p) * step ≤ back ∧ back < (N - p) * step ∧ p < N ∧ ((∃ n : ℤ, back = n * step) → (N - 1 - p) * step = back) := by
  intro p
  have h0 : 0 ≤ back / step := by positivity
  have hp : p = N - ⌊back / step⌋ - 1 := by
    show (N : ℤ) - truncate (back / step) - 1 = _
    rw [truncate, if_pos h0]
  have h1 := Int.floor_le (back / step)
  have h2 := Int.lt_floor_add_one (back / step)
  have h3 : 0 ≤ ⌊back / step⌋ := Int.floor_nonneg.mpr h0
  rw [hp]
  push_cast
  have e1 : ((N : ℝ) - 1 - (N - ⌊back / step⌋ - 1)) = ⌊back / step⌋ := by ring
  have e2 : ((N : ℝ) - (N - ⌊back / step⌋ - 1)) = ⌊back / step⌋ + 1 := by ring
  rw [e1, e2]
  refine ⟨(le_div_iff₀ hstep).mp h1, (div_lt_iff₀ hstep).mp h2, by omega, ?_⟩
  rintro ⟨n, hn⟩
  rw [hn, mul_div_cancel_right₀ _ hstep.ne', Int.floor_intCast]

/-- **C67** is violated at the back when the thickness is not a multiple of the step: the source is within the boundary. -/
theorem C67_back_violates (N : ℕ) (step front back : ℝ) (hstep : 0 < step) (hb : 0 ≤ back) (hn : ¬ ∃ n : ℤ, back = n * step) :
    (N - 1 - (sourcePlanes N step front back).2) * step < back := by
  obtain ⟨h1, -, -, -⟩ := C67_back_partial N step front back hstep hb
  refine lt_of_le_of_ne h1 fun h => hn ⟨N - 1 - (sourcePlanes N step front back).2, ?_⟩
  push_cast
  exact h.symm

/-- **C67**: there the source is absorbed. -/
theorem C67_absorbed_violates {n : ℕ} {b : Bound.Absorbing n ℝ} (hg : Bound.Plain b.grid) (hs : ∀ a, 0 < b.grid.step a) (hf : ∀ a s e, 0 < e → 0 < b.kappaFunction a s e)
    {p : Fin n → ℝ} (hp : Bound.OnGrid b.grid p) (a : Fin n) (hb : 0 ≤ b.thickness a true) (hn : ¬ ∃ z : ℤ, b.thickness a true = z * b.grid.step a)
    (hpa : p a = (Bound.axisOf b.grid a).first + (sourcePlanes (b.grid.shape a) (b.grid.step a) (b.thickness a false) (b.thickness a true)).2 * b.grid.step a) :
    ∃ kappa, Bound.extinction b p = .ok kappa ∧ 0 < kappa := by
  refine Bound.C20_extinction_beyond_partial hg hs hf hp ?_
  rw [Bound.C20_complementary, Bound.C20_between_partial hg hs hp]
  intro h
  have h1 := h a true
  have h2 := C67_back_violates (b.grid.shape a) (b.grid.step a) (b.thickness a false) (b.thickness a true) (hs a) hb hn
  obtain ⟨-, -, h3, -⟩ := C67_back_partial (b.grid.shape a) (b.grid.step a) (b.thickness a false) (b.thickness a true) (hs a) hb
  have h4 : (Bound.axisOf b.grid a).fromEdge true (p a) =
      (b.grid.shape a - 1 - (sourcePlanes (b.grid.shape a) (b.grid.step a) (b.thickness a false) (b.thickness a true)).2) * b.grid.step a := by
    unfold Spec.Bound.Axis.fromEdge
    rw [if_pos rfl, hpa]
    have h5 : (Bound.axisOf b.grid a).last - ((Bound.axisOf b.grid a).first + (sourcePlanes (b.grid.shape a) (b.grid.step a) (b.thickness a false) (b.thickness a true)).2 * b.grid.step a) =
        (b.grid.shape a - 1 - (sourcePlanes (b.grid.shape a) (b.grid.step a) (b.thickness a false) (b.thickness a true)).2) * b.grid.step a := by
      unfold Spec.Bound.Axis.last Bound.axisOf
      ring
    rw [h5, abs_of_nonneg]
    refine mul_nonneg ?_ (hs a).le
    have : (((sourcePlanes (b.grid.shape a) (b.grid.step a) (b.thickness a false) (b.thickness a true)).2 : ℤ) : ℝ) + 1 ≤ b.grid.shape a := by exact_mod_cast h3
    linarith
  rw [h4] at h1
  exact absurd h2 (not_lt.mpr h1)

/-- **C67**: the detectors are a wavelength further from the boundary than the sources, to within a sample. -/
theorem C67_detectors (N : ℕ) (step front back wavelength : ℝ) (hstep : 0 < step) (hf : 0 ≤ front) (hb : 0 ≤ back) (hw : 0 ≤ wavelength) :
    |((detectorPlanes N step front back wavelength).1 - (sourcePlanes N step front back).1) * step - wavelength| < step ∧
    |((sourcePlanes N step front back).2 - (detectorPlanes N step front back wavelength).2) * step - wavelength| < step := by
  have key : ∀ t : ℝ, 0 ≤ t → |((truncate ((t + wavelength) / step) : ℝ) - truncate (t / step)) * step - wavelength| < step := by
    intro t ht
    rw [truncate, truncate, if_pos (by positivity), if_pos (by positivity)]
    have h1 := Int.floor_le (t / step)
    have h2 := Int.lt_floor_add_one (t / step)
    have h3 := Int.floor_le ((t + wavelength) / step)
    have h4 := Int.lt_floor_add_one ((t + wavelength) / step)
    rw [le_div_iff₀ hstep] at h1 h3
    rw [div_lt_iff₀ hstep] at h2 h4
    rw [abs_lt]
    constructor <;> nlinarith
  constructor
  · have := key front hf
    unfold detectorPlanes sourcePlanes
    push_cast
    rwa [add_sub_add_right_eq_sub]
  · have := key back hb
    unfold detectorPlanes sourcePlanes
    push_cast
    have e : ((N : ℝ) - truncate (back / step) - 1 - (N - truncate ((back + wavelength) / step) - 1)) = truncate ((back + wavelength) / step) - truncate (back / step) := by ring
    rwa [e]

/-- **C67**: the planes are in order, and in the grid, when the grid is at least two samples longer than both boundaries and two wavelengths, and a wavelength is at least a sample. -/
theorem C67_order (N : ℕ) (step front back wavelength : ℝ) (hstep : 0 < step) (hf : 0 ≤ front) (hb : 0 ≤ back) (hw : step ≤ wavelength)
    (hN : front + back + 2 * wavelength + 2 * step < N * step) :
    0 < (sourcePlanes N step front back).1 ∧ (sourcePlanes N step front back).1 < (detectorPlanes N step front back wavelength).1 ∧
    (detectorPlanes N step front back wavelength).1 < (detectorPlanes N step front back wavelength).2 ∧
    (detectorPlanes N step front back wavelength).2 < (sourcePlanes N step front back).2 ∧ (sourcePlanes N step front back).2 < N := by
  have key : ∀ t : ℝ, 0 ≤ t → 0 ≤ truncate (t / step) ∧ truncate (t / step) < truncate ((t + wavelength) / step) ∧ (truncate ((t + wavelength) / step) : ℝ) * step ≤ t + wavelength := by
    intro t ht
    have hw0 : 0 < wavelength := hstep.trans_le hw
    rw [truncate, truncate, if_pos (by positivity), if_pos (by positivity)]
    refine ⟨Int.floor_nonneg.mpr (by positivity), ?_, (le_div_iff₀ hstep).mp (Int.floor_le _)⟩
    rw [Int.lt_iff_add_one_le, Int.le_floor]
    push_cast
    rw [le_div_iff₀ hstep, add_mul, one_mul]
    have := (le_div_iff₀ hstep).mp (Int.floor_le (t / step))
    linarith
  obtain ⟨f1, f2, f3⟩ := key front hf
  obtain ⟨b1, b2, b3⟩ := key back hb
  have h : truncate ((front + wavelength) / step) + truncate ((back + wavelength) / step) + 2 < (N : ℤ) := by
    have : ((truncate ((front + wavelength) / step) : ℝ) + truncate ((back + wavelength) / step) + 2) * step < N * step := by nlinarith
    have := lt_of_mul_lt_mul_right this hstep.le
    exact_mod_cast this
  unfold sourcePlanes detectorPlanes
  simp only
  refine ⟨by omega, by omega, by omega, by omega, by omega⟩

/-! ### Concrete cases -/

/-- A one-dimensional setup: wavelength 1, samples a quarter of a wavelength apart. -/
noncomputable def demo0 : Setup 0 := ⟨20, 1 / 4, 0, fun a => a.elim0, fun a => a.elim0, fun a => a.elim0, 2 * Real.pi, 1e-8⟩

theorem demo0_regular : demo0.Regular :=
  ⟨by norm_num, by norm_num [demo0], by simp only [demo0]; positivity, fun a => a.elim0, fun a => a.elim0⟩

theorem demo_regular : demo.Regular :=
  ⟨by norm_num, by norm_num [demo], by simp only [demo]; positivity, fun a => by norm_num [demo], fun a => .inr (by simp only [demo]; rw [abs_of_pos (by norm_num)]; linarith)⟩

/-- Unit amplitudes from both sides are significant. -/
example : ∀ side, demo0.Significant (P := scalar) (fun _ _ _ => 1) side := by
  intro side
  right
  intro h
  rw [corrected_zero] at h
  have hc := count_zero demo0
  have := h ⟨0, by rw [hc]; norm_num⟩ (0 : Fin 1)
  norm_num at this

/-- Amplitudes and setups for the refutations. -/
example : (1e-9 : ℂ) ≠ 0 ∧ ‖(1e-9 : ℂ)‖ ≤ 1e-8 ∧ ∃ s : Setup 0, 0 < s.k0 ∧ 0 < s.step0 ∧ 2 * s.k0 ≤ 1e-8 * s.step0 := by
  refine ⟨by norm_num, by norm_num, ⟨20, 1e5, 0, fun a => a.elim0, fun a => a.elim0, fun a => a.elim0, 1e-5, 0⟩, by norm_num, by norm_num, by norm_num⟩

/-- A boundary of one and a half samples. -/
example : ¬ ∃ n : ℤ, (3 / 2 : ℝ) = n * 1 := by
  rintro ⟨n, hn⟩
  have : (3 : ℤ) = 2 * n := by
    have : (3 : ℝ) = 2 * n := by linarith
    exact_mod_cast this
  omega

/-- **C54**: a longitudinal field does not contribute to the amplitudes of a mode, whatever its transverse polarization. -/
theorem C54_longitudinal (k : Fin 3 → ℝ) (h1 : k 0 ^ 2 + k 1 ^ 2 + k 2 ^ 2 = 1) (f : Fin 3 → ℂ) (z : ℂ) :
    vectorial.unrotate k (fun c => f c + z * k c) = vectorial.unrotate k f := by
  have h1' : (k 0 : ℂ) ^ 2 + (k 1 : ℂ) ^ 2 + (k 2 : ℂ) ^ 2 = 1 := by exact_mod_cast congrArg (fun r : ℝ => (r : ℂ)) h1
  have key : ∀ c, f c + z * k c - ((f 0 + z * k 0) * k 0 + (f 1 + z * k 1) * k 1 + (f 2 + z * k 2) * k 2) * k c = f c - (f 0 * k 0 + f 1 * k 1 + f 2 * k 2) * k c := fun c => by
    linear_combination -(z * k c) * h1'
  funext c
  change unrotateVectorial k (fun c => f c + z * k c) c = unrotateVectorial k f c
  unfold unrotateVectorial
  simp only [key]

example : vectorial.unrotate ![3 / 5, 4 / 5, 0] (fun c => (![1, 0, 0] : Fin 3 → ℂ) c + 7 * ((![3 / 5, 4 / 5, 0] : Fin 3 → ℝ) c : ℂ)) = vectorial.unrotate ![3 / 5, 4 / 5, 0] ![1, 0, 0] :=
  C54_longitudinal _ (by norm_num [Matrix.cons_val_two]) _ _

end Verif.Scattering
