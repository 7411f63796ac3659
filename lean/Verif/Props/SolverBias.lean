import Verif.Lemmas.Bias
import Verif.Props.SolverConv

/-!
# Property C36: the selected bias, and convergence for the constants that the code selects
-/

namespace Verif.Solver

open Verif Verif.Fourier Verif.Backend Complex Matrix
open Verif.Spec.Solver (NoGain Within WaveEquation ScalarWaveEquation)

variable {d n : ℕ} {N : Fin d → ℕ}

theorem increaseBias_re (k0 : ℝ) (thickness : List ℝ) (alpha : ℂ) : (increaseBias k0 thickness alpha).re = alpha.re := by
  cases thickness with
  | nil => simp only [increaseBias, add_re, ofReal_re, I_mul_re, ofReal_im, neg_zero, add_zero]
  | cons t ts =>
    simp only [increaseBias, add_re, ofReal_re, I_mul_re]
    split_ifs <;> simp only [ofReal_im, neg_zero, add_zero]

/-- **C36 (increase).** The imaginary part of the bias is increased by at least 0.05. -/
theorem C36_increase (k0 : ℝ) (thickness : List ℝ) (alpha : ℂ) : alpha.im + 0.05 ≤ (increaseBias k0 thickness alpha).im := by
  unfold increaseBias
  simp only [add_im, ofReal_im, I_mul_im, zero_add]
  cases thickness with
  | nil => exact le_rfl
  | cons t ts =>
    simp only
    split_ifs with h
    · exact h.le
    · exact le_rfl

theorem sigmaEE_nonneg (m : Medium n N) (alphaR beta : ℝ) : 0 ≤ m.sigmaEE alphaR beta := by unfold Medium.sigmaEE; positivity

theorem sigmaHH_nonneg (m : Medium n N) (beta : ℝ) : 0 ≤ m.sigmaHH beta := by unfold Medium.sigmaHH; positivity

theorem sigmaD_nonneg (pitch : Fin d → ℝ) {k0 : ℝ} (hk0 : 0 < k0) : 0 ≤ sigmaD pitch k0 := by unfold sigmaD; positivity

/-- **C36 (no gain).** Unless the material has gain and no loss, the selected bias, multiplied by the inverse permeability, exceeds the
largest singular value of the deviation of the permittivity from its centre, for all materials that are not magnetic, for all results of the optimization
and for all boundaries. -/
theorem C36_bias (m : Medium n N) {tol : ℝ} (h : ¬ m.transposed tol) (k0 : ℝ) (thickness : List ℝ) (i0 : Fin n) (x0 : Idx N)
    (hβ : m.betaNonMagnetic i0 x0 ≠ 0) (alphaR : ℝ) :
    ∃ s, 0 ≤ s ∧
      Within (fun x => m.epsilonPrime x - (((m.constantsNonMagnetic tol k0 thickness i0 x0 alphaR).1.re *
        (m.constantsNonMagnetic tol k0 thickness i0 x0 alphaR).2 : ℝ) : ℂ) • 1) s ∧
      s < (m.constantsNonMagnetic tol k0 thickness i0 x0 alphaR).1.im * |(m.constantsNonMagnetic tol k0 thickness i0 x0 alphaR).2| := by
  unfold Medium.constantsNonMagnetic
  simp only [if_neg h, increaseBias_re]
  set beta := m.betaNonMagnetic i0 x0
  have hb := abs_pos.2 hβ
  have e1 : ((alphaR : ℂ) + I * (m.sigmaEE alphaR beta : ℂ)).re = alphaR := by simp
  have e2 : ((alphaR : ℂ) + I * (m.sigmaEE alphaR beta : ℂ)).im = m.sigmaEE alphaR beta := by simp
  refine ⟨m.sigmaEE alphaR beta * |beta|, mul_nonneg (sigmaEE_nonneg m _ _) hb.le, ?_, ?_⟩
  · rw [e1]; exact m.within_sigmaEE alphaR hβ
  · have := C36_increase k0 thickness ((alphaR : ℂ) + I * (m.sigmaEE alphaR beta : ℂ))
    rw [e2] at this
    exact mul_lt_mul_of_pos_right (by linarith) hb

/-- **C36 (magnetic).** For magnetic media the selected bias exceeds the sum of the singular values of all deviations, with the largest
wavenumber of the grid. -/
theorem C36_bias_magnetic (m : Medium n N) (pitch : Fin d → ℝ) (k0 : ℝ) (thickness : List ℝ) (vec : ℝ × ℝ) (hv : vec.2 ≠ 0) :
    ∃ sE sM sEH sHE : ℝ, 0 ≤ sE ∧ 0 ≤ sM ∧ 0 ≤ sEH ∧ 0 ≤ sHE ∧
      Within (fun x => m.epsilonPrime x - (((m.constantsMagnetic pitch k0 thickness vec).1.re * (m.constantsMagnetic pitch k0 thickness vec).2 : ℝ) : ℂ) • 1) sE ∧
      Within (fun x => m.muInv x - ((m.constantsMagnetic pitch k0 thickness vec).2 : ℂ) • 1) sM ∧ Within m.chiEHBeta sEH ∧ Within m.chiHEBeta sHE ∧
      sE + sigmaD pitch k0 ^ 2 * sM + sigmaD pitch k0 * (sEH + sHE) <
        (m.constantsMagnetic pitch k0 thickness vec).1.im * (m.constantsMagnetic pitch k0 thickness vec).2 := by
  unfold Medium.constantsMagnetic
  simp only [increaseBias_re]
  set beta := vec.2 ^ 2 with hbeta
  have hb : 0 < beta := by positivity
  have e1 : ((vec.1 : ℂ) + I * (m.singularValueSum pitch k0 vec.1 beta : ℂ)).re = vec.1 := by simp
  have e2 : ((vec.1 : ℂ) + I * (m.singularValueSum pitch k0 vec.1 beta : ℂ)).im = m.singularValueSum pitch k0 vec.1 beta := by simp
  refine ⟨m.sigmaEE vec.1 beta * |beta|, m.sigmaHH beta * |beta|, largestSingularValue m.chiEHBeta, largestSingularValue m.chiHEBeta,
    mul_nonneg (sigmaEE_nonneg m _ _) (abs_nonneg _), mul_nonneg (sigmaHH_nonneg m _) (abs_nonneg _), Real.sqrt_nonneg _, Real.sqrt_nonneg _, ?_,
    m.within_sigmaHH hb.ne', within_largest _, within_largest _, ?_⟩
  · rw [e1]; exact m.within_sigmaEE vec.1 hb.ne'
  · have := C36_increase k0 thickness ((vec.1 : ℂ) + I * (m.singularValueSum pitch k0 vec.1 beta : ℂ))
    rw [e2] at this
    refine lt_of_eq_of_lt ?_ (mul_lt_mul_of_pos_right (lt_of_lt_of_le (by linarith : m.singularValueSum pitch k0 vec.1 beta < _) this) hb)
    rw [abs_of_pos hb, Medium.singularValueSum, abs_of_pos hb]
    field_simp
    ring

/-- Materials without gain are not considered to be transposed. -/
theorem not_transposed (m : Medium n N) {tol : ℝ} (htol : 0 ≤ tol) (hE : NoGain m.epsilon) (hxi : ∀ x, m.xi x = 0) (hzeta : ∀ x, m.zeta x = 0)
    (hmu : NoGain m.mu) : ¬ m.transposed tol := by
  have hz : ∀ A : Tensor n N, (∀ x, A x = 0) → NoGain A := by
    intro A hA x v; rw [hA]; simp
  rintro ⟨h | h | h | h, -⟩
  · exact (hasGain_iff _).1 (hasGain_mono htol h) hE
  · exact (hasGain_iff _).1 (hasGain_mono htol h) (hz _ hxi)
  · exact (hasGain_iff _).1 (hasGain_mono htol h) (hz _ hzeta)
  · exact (hasGain_iff _).1 (hasGain_mono htol h) hmu

/-- The wavenumbers of the grid are bounded by `σ_D`. -/
theorem kOf_le (g : Grid.Obj d ℝ) (hs : ∀ a, g.step a ≠ 0) {k0 : ℝ} (hk0 : 0 < k0) (x : Idx g.shape) :
    ∑ a, kOf g a x ^ 2 ≤ (k0 * sigmaD g.step k0) ^ 2 := by
  unfold sigmaD
  rw [mul_div_cancel₀ _ hk0.ne', Real.sq_sqrt (Finset.sum_nonneg fun a _ => sq_nonneg _)]
  refine Finset.sum_le_sum fun a _ => ?_
  rw [C24_kOf g fun a _ => hs a]
  have hN : (0 : ℝ) < g.shape a := by
    have := (Nat.zero_le _).trans_lt (x a).isLt
    exact_mod_cast this
  have hx : ((x a : ℕ) : ℝ) < g.shape a := by exact_mod_cast (x a).isLt
  set j : ℝ := if 2 * (x a : ℕ) < g.shape a then ((x a : ℕ) : ℝ) else ((x a : ℕ) : ℝ) - g.shape a with hj
  have hj2 : |j| ≤ g.shape a / 2 := by
    rw [hj, abs_le]
    split_ifs with h
    · have : 2 * ((x a : ℕ) : ℝ) < g.shape a := by exact_mod_cast h
      have h0 : (0 : ℝ) ≤ ((x a : ℕ) : ℝ) := Nat.cast_nonneg _
      constructor <;> linarith
    · have : (g.shape a : ℝ) ≤ 2 * ((x a : ℕ) : ℝ) := by exact_mod_cast not_lt.1 h
      constructor <;> linarith
  rw [← sq_abs, ← sq_abs (2.0 * Real.pi / _)]
  refine pow_le_pow_left₀ (abs_nonneg _) ?_ 2
  have hstep := abs_pos.2 (hs a)
  rw [abs_mul, abs_div, abs_mul, abs_div, abs_mul, abs_of_pos hN, abs_mul, abs_of_pos Real.pi_pos]
  norm_num
  rw [← mul_div_assoc, div_le_div_iff₀ (by positivity) (by positivity)]
  have hpi := Real.pi_pos
  have : 0 ≤ (2 * Real.pi * |g.step a|) * (g.shape a - 2 * |j|) := mul_nonneg (by positivity) (by linarith)
  linarith

/-! ### Convergence for the constants that the code selects -/

section Dielectric
variable {g : Grid.Obj d ℝ} (hs : ∀ a, g.step a ≠ 0) {k0 : ℝ} (hk0 : 0 < k0) (hd : d ≤ 3) {m : Medium 3 g.shape} (hxi : ∀ x, m.xi x = 0)
  (hzeta : ∀ x, m.zeta x = 0) (hgain : NoGain m.epsilon) {r : ℝ} (hr : 0 < r) (hmu : ∀ x, m.mu x = (r : ℂ) • (1 : Matrix (Fin 3) (Fin 3) ℂ))
  {tol : ℝ} (htol : 0 ≤ tol) (thickness : List ℝ) (x0 : Idx g.shape) (alphaR : ℝ)
include hs hk0 hxi hzeta hgain hr hmu htol

theorem dielectric_beta : (m.constantsNonMagnetic tol k0 thickness 0 x0 alphaR).2 = r⁻¹ := by
  simp only [Medium.constantsNonMagnetic, Medium.betaNonMagnetic, Medium.muInv, hmu, smul_one_inv (ofReal_ne hr.ne')]
  simp [← Complex.ofReal_inv]

theorem noGain_smul : NoGain m.mu := by
  intro x v
  rw [hmu, Matrix.smul_mulVec, Matrix.one_mulVec, dotProduct_smul, star_dot_self, smul_eq_mul, ← ofReal_mul, ofReal_im]

/-- Materials without gain and a uniform permeability meet all assumptions of C34 and C35, for the constants that the code selects. -/
theorem dielectric_passivity : ∃ σ, Passivity g k0 m (m.constantsNonMagnetic tol k0 thickness 0 x0 alphaR).1.re
      (m.constantsNonMagnetic tol k0 thickness 0 x0 alphaR).2 σ ∧
    σ < (m.constantsNonMagnetic tol k0 thickness 0 x0 alphaR).1.im * (m.constantsNonMagnetic tol k0 thickness 0 x0 alphaR).2 := by
  have hb := dielectric_beta hs hk0 hxi hzeta hgain hr hmu htol thickness x0 alphaR
  have hng := noGain_smul hs hk0 hxi hzeta hgain hr hmu htol
  have hne : m.betaNonMagnetic 0 x0 ≠ 0 := by
    have : m.betaNonMagnetic 0 x0 = r⁻¹ := hb
    rw [this]; positivity
  obtain ⟨s, hs0, hw, hlt⟩ := C36_bias m (not_transposed m htol hgain hxi hzeta hng) k0 thickness 0 x0 hne alphaR
  set c := m.constantsNonMagnetic tol k0 thickness 0 x0 alphaR
  have hbp : 0 < c.2 := by rw [hb]; positivity
  rw [abs_of_pos hbp] at hlt
  refine ⟨s, ⟨hxi, hzeta, hgain, hng, fun x => ?_, sigmaD g.step k0, s, 0, sigmaD_nonneg _ hk0, hs0, le_rfl, kOf_le g hs hk0, ?_, ?_, ?_⟩, hlt⟩
  · rw [hmu, Matrix.det_smul, Matrix.det_one, mul_one]
    exact (isUnit_iff_ne_zero.2 (pow_ne_zero _ (ofReal_ne hr.ne')))
  · rw [← epsilonPrime_eq hxi]; exact hw
  · intro x v
    have : (m.mu x)⁻¹ - (c.2 : ℂ) • (1 : Matrix (Fin 3) (Fin 3) ℂ) = 0 := by
      rw [hmu, smul_one_inv (ofReal_ne hr.ne'), hb, ofReal_inv, sub_self]
    simp only [this]; simp
  · simp

theorem dielectric_chosen : Chosen m true 0 x0 false (m.constantsNonMagnetic tol k0 thickness 0 x0 alphaR).2 := by
  have hb := dielectric_beta hs hk0 hxi hzeta hgain hr hmu htol thickness x0 alphaR
  refine ⟨?_, fun _ => rfl, ?_⟩
  · simp [Medium.isMagnetic, hxi, hzeta, hmu]
  · rw [hb]; positivity

theorem dielectric_im : 0 < (m.constantsNonMagnetic tol k0 thickness 0 x0 alphaR).1.im := by
  obtain ⟨σ, hP, hσ⟩ := dielectric_passivity hs hk0 hxi hzeta hgain hr hmu htol thickness x0 alphaR
  have hb := dielectric_beta hs hk0 hxi hzeta hgain hr hmu htol thickness x0 alphaR
  obtain ⟨κ, sE, sM, hκ, hE, hM, -, -, -, hsum⟩ := hP.bound
  have h0 : 0 ≤ σ := le_trans (by positivity) hsum
  have hbp : 0 < (m.constantsNonMagnetic tol k0 thickness 0 x0 alphaR).2 := by rw [hb]; positivity
  by_contra hn
  push Not at hn
  have := mul_nonpos_of_nonpos_of_nonneg hn hbp.le
  linarith

/-- **C35 (as constructed, dielectric).** For all grids, all permittivities without gain (isotropic or not), a uniform positive permeability,
all boundaries, sources and initial fields, and whatever the optimizer returns: if the wave equation has a solution, the iteration converges to a solution. -/
theorem C35_constructed (S F E0 : Field 3 g.shape) (hE0 : WaveEquation (kOf g) k0 m.epsilon m.mu S E0) :
    let c := m.constantsNonMagnetic tol k0 thickness 0 x0 alphaR
    let s := prepare m (m.isMagnetic true x0) c.1 c.2 S F
    ∃ E, WaveEquation (kOf g) k0 m.epsilon m.mu S E ∧ ∀ δ : ℝ, 0 < δ → ∃ j0, ∀ i ≥ j0,
      (∃ t, run (.vectorial hd) (backendK g k0) s i = .ok t ∧ Backend.norm (getE k0 t - E) < δ) ∨
      (run (.vectorial hd) (backendK g k0) s i = .error .zeroDivision ∧
        ∃ j < i, ∃ t, run (.vectorial hd) (backendK g k0) s j = .ok t ∧ getE k0 t = E) := by
  obtain ⟨σ, hP, hσ⟩ := dielectric_passivity hs hk0 hxi hzeta hgain hr hmu htol thickness x0 alphaR
  have hc := dielectric_chosen hs hk0 hxi hzeta hgain hr hmu htol thickness x0 alphaR
  have him := dielectric_im hs hk0 hxi hzeta hgain hr hmu htol thickness x0 alphaR
  have hb := dielectric_beta hs hk0 hxi hzeta hgain hr hmu htol thickness x0 alphaR
  intro c s
  have hbp : 0 < c.2 := by show 0 < (m.constantsNonMagnetic tol k0 thickness 0 x0 alphaR).2; rw [hb]; positivity
  have he : s = prepare m false c.1 c.2 S F := by
    show prepare m (m.isMagnetic true x0) c.1 c.2 S F = _
    rw [← hc.mag_eq]
  rw [he]
  exact C35_converges hs hk0.ne' hd hP hc (fun _ => ⟨r, hr.ne', hmu x0⟩) him hbp hσ S F E0 hE0

end Dielectric

section Magnetic
variable {g : Grid.Obj d ℝ} (hs : ∀ a, g.step a ≠ 0) {k0 : ℝ} (hk0 : 0 < k0) (hd : d ≤ 3) {m : Medium 3 g.shape} (hxi : ∀ x, m.xi x = 0)
  (hzeta : ∀ x, m.zeta x = 0) (hgain : NoGain m.epsilon) (hgainM : NoGain m.mu) (hinv : ∀ x, IsUnit (m.mu x).det) (thickness : List ℝ) (x0 : Idx g.shape)
  {vec : ℝ × ℝ} (hv : vec.2 ≠ 0)
include hs hk0 hxi hzeta hgain hgainM hinv hv

theorem magnetic_passivity : ∃ σ, Passivity g k0 m (m.constantsMagnetic g.step k0 thickness vec).1.re (m.constantsMagnetic g.step k0 thickness vec).2 σ ∧
    0 ≤ σ ∧ σ < (m.constantsMagnetic g.step k0 thickness vec).1.im * (m.constantsMagnetic g.step k0 thickness vec).2 := by
  obtain ⟨sE, sM, sEH, sHE, h1, h2, h3, h4, w1, w2, -, -, hlt⟩ := C36_bias_magnetic m g.step k0 thickness vec hv
  have hD := sigmaD_nonneg g.step hk0
  refine ⟨sE + sigmaD g.step k0 ^ 2 * sM, ⟨hxi, hzeta, hgain, hgainM, hinv, sigmaD g.step k0, sE, sM, hD, h1, h2, kOf_le g hs hk0, ?_, w2, le_rfl⟩,
    by positivity, ?_⟩
  · rw [← epsilonPrime_eq hxi]; exact w1
  · have : 0 ≤ sigmaD g.step k0 * (sEH + sHE) := by positivity
    linarith

/-- **C35 (as constructed, magnetic).** The same for all magnetic materials without gain and without coupling between electric and magnetic fields. -/
theorem C35_constructed_magnetic {muScalar : Bool} (hmag : m.isMagnetic muScalar x0 = true) (S F E0 : Field 3 g.shape)
    (hE0 : WaveEquation (kOf g) k0 m.epsilon m.mu S E0) :
    let c := m.constantsMagnetic g.step k0 thickness vec
    let s := prepare m (m.isMagnetic muScalar x0) c.1 c.2 S F
    ∃ E, WaveEquation (kOf g) k0 m.epsilon m.mu S E ∧ ∀ δ : ℝ, 0 < δ → ∃ j0, ∀ i ≥ j0,
      (∃ t, run (.vectorial hd) (backendK g k0) s i = .ok t ∧ Backend.norm (getE k0 t - E) < δ) ∨
      (run (.vectorial hd) (backendK g k0) s i = .error .zeroDivision ∧
        ∃ j < i, ∃ t, run (.vectorial hd) (backendK g k0) s j = .ok t ∧ getE k0 t = E) := by
  obtain ⟨σ, hP, h0, hσ⟩ := magnetic_passivity hs hk0 hxi hzeta hgain hgainM hinv thickness hv
  intro c s
  have hbp : 0 < c.2 := by show 0 < vec.2 ^ 2; positivity
  have him : 0 < c.1.im := by
    by_contra hn
    push Not at hn
    have := mul_nonpos_of_nonpos_of_nonneg hn hbp.le
    have h3 : σ < c.1.im * c.2 := hσ
    linarith
  have hc : Chosen m muScalar 0 x0 (m.isMagnetic muScalar x0) c.2 := ⟨rfl, fun h => by rw [hmag] at h; exact absurd h (by decide), hbp.ne'⟩
  exact C35_converges hs hk0.ne' hd hP hc (fun h => by rw [hmag] at h; exact absurd h (by decide)) him hbp hσ S F E0 hE0

end Magnetic

/-! ### Gain -/

/-- **C36 (gain).** For materials with gain and no loss, the bias is negative and its magnitude 0.05 less than the deviation that it should exceed. -/
theorem C36_gain (m : Medium n N) {tol : ℝ} (h : m.transposed tol) (k0 : ℝ) (i0 : Fin n) (x0 : Idx N) (alphaR : ℝ) :
    (m.constantsNonMagnetic tol k0 [] i0 x0 alphaR).1.im = - m.sigmaEE alphaR (m.betaNonMagnetic i0 x0) + 0.05 := by
  simp only [Medium.constantsNonMagnetic, if_pos h, increaseBias, add_im, ofReal_im, I_mul_im, zero_add, ofReal_re, conj_im]

theorem roots_smul_one [NeZero n] (w z : ℂ) : z ∈ (w • (1 : Matrix (Fin n) (Fin n) ℂ)).charpoly.roots ↔ z = w := by
  rw [mem_roots_iff]
  constructor
  · rintro ⟨v, hv, h⟩
    rw [Matrix.smul_mulVec, Matrix.one_mulVec] at h
    exact (smul_left_injective ℂ hv h).symm
  · rintro rfl
    exact ⟨1, one_ne_zero, by rw [Matrix.smul_mulVec, Matrix.one_mulVec]⟩

theorem hasGain_smul_one [NeZero n] [Nonempty (Idx N)] (tol : ℝ) (c : ℂ) : hasGain tol (fun _ : Idx N => c • (1 : Matrix (Fin n) (Fin n) ℂ)) ↔ c.im < -tol := by
  have e : (-I / 2) • (c • (1 : Matrix (Fin n) (Fin n) ℂ) - (c • (1 : Matrix (Fin n) (Fin n) ℂ))ᴴ) = (c.im : ℂ) • 1 := by
    rw [Matrix.conjTranspose_smul, Matrix.conjTranspose_one, ← sub_smul, smul_smul]
    congr 1
    rw [RCLike.star_def, sub_conj]
    have := I_mul_I
    push_cast
    linear_combination (-(c.im : ℂ)) * this
  unfold hasGain
  simp only [e, roots_smul_one, exists_eq_left, ofReal_re, exists_const]

theorem largestEigenvalue_smul_one [NeZero n] [Nonempty (Idx N)] (w : ℂ) : largestEigenvalue (fun _ : Idx N => w • (1 : Matrix (Fin n) (Fin n) ℂ)) = ‖w‖ := by
  unfold largestEigenvalue
  have : {r : ℝ | ∃ _ : Idx N, ∃ z ∈ (w • (1 : Matrix (Fin n) (Fin n) ℂ)).charpoly.roots, r = ‖z‖} = {‖w‖} := by
    ext r
    simp only [roots_smul_one, exists_eq_left, exists_const, Set.mem_ofPred_eq, Set.mem_singleton_iff]
  rw [this, csSup_singleton]

/-- A uniform medium with gain. -/
noncomputable def gainMedium (n : ℕ) (N : Fin d → ℕ) : Medium n N where
  epsilon := fun _ => (1 - I) • 1
  xi := fun _ => 0
  zeta := fun _ => 0
  mu := fun _ => 1

/-- **C36 (violated).** In a uniform medium with gain, without boundary, with the best possible centre, the magnitude of the selected bias does not bound the
deviation of the permittivity. -/
theorem C36_gain_violates (N : Fin d → ℕ) [Nonempty (Idx N)] [NeZero n] (i0 : Fin n) (x0 : Idx N) (k0 : ℝ) {tol : ℝ} (h0 : 0 ≤ tol) (h1 : tol < 1) :
    (gainMedium n N).transposed tol ∧
    ¬ Within (fun x => (gainMedium n N).epsilonPrime x - (((((gainMedium n N).constantsNonMagnetic tol k0 [] i0 x0 1).1.re) *
        ((gainMedium n N).constantsNonMagnetic tol k0 [] i0 x0 1).2 : ℝ) : ℂ) • 1)
      (|((gainMedium n N).constantsNonMagnetic tol k0 [] i0 x0 1).1.im| * |((gainMedium n N).constantsNonMagnetic tol k0 [] i0 x0 1).2|) := by
  have hz : (fun _ : Idx N => (0 : Matrix (Fin n) (Fin n) ℂ)) = fun _ => (0 : ℂ) • 1 := by simp
  have ho : (fun _ : Idx N => (1 : Matrix (Fin n) (Fin n) ℂ)) = fun _ => (1 : ℂ) • 1 := by simp
  have ht : (gainMedium n N).transposed tol := by
    refine ⟨.inl ?_, ?_⟩
    · refine (hasGain_smul_one tol (1 - I)).2 ?_
      simp; linarith
    · rintro (h | h | h | h)
      · have : hasGain tol (fun _ : Idx N => (-(1 - I)) • (1 : Matrix (Fin n) (Fin n) ℂ)) := by
          simp only [neg_smul]; exact h
        have := (hasGain_smul_one tol _).1 this
        simp at this; linarith
      · have : hasGain tol (fun _ : Idx N => (0 : ℂ) • (1 : Matrix (Fin n) (Fin n) ℂ)) := by
          simpa [hasLoss, gainMedium] using h
        have := (hasGain_smul_one tol _).1 this
        simp at this; linarith
      · have : hasGain tol (fun _ : Idx N => (0 : ℂ) • (1 : Matrix (Fin n) (Fin n) ℂ)) := by
          simpa [hasLoss, gainMedium] using h
        have := (hasGain_smul_one tol _).1 this
        simp at this; linarith
      · have : hasGain tol (fun _ : Idx N => (-1 : ℂ) • (1 : Matrix (Fin n) (Fin n) ℂ)) := by
          simpa [hasLoss, gainMedium] using h
        have := (hasGain_smul_one tol _).1 this
        simp at this; linarith
  refine ⟨ht, ?_⟩
  have hb : (gainMedium n N).betaNonMagnetic i0 x0 = 1 := by
    simp [Medium.betaNonMagnetic, Medium.muInv, gainMedium]
  have hc2 : ((gainMedium n N).constantsNonMagnetic tol k0 [] i0 x0 1).2 = 1 := hb
  have hre : ((gainMedium n N).constantsNonMagnetic tol k0 [] i0 x0 1).1.re = 1 := by
    simp only [Medium.constantsNonMagnetic, increaseBias_re, if_pos ht]
    simp
  have heps : (gainMedium n N).epsilonPrime = fun _ => (1 - I) • 1 := by
    funext x; simp [Medium.epsilonPrime, gainMedium]
  have hsig : (gainMedium n N).sigmaEE 1 1 = 1 := by
    unfold Medium.sigmaEE Medium.deltaEEBeta2
    simp only [heps]
    have : ∀ x : Idx N, ((((|(1 : ℝ) * 1| ^ 2 : ℝ) : ℂ) • (1 : Matrix (Fin n) (Fin n) ℂ) - (((1 * 1 : ℝ) : ℂ) • ((1 - I) • (1 : Matrix (Fin n) (Fin n) ℂ))ᴴ +
        ((1 * 1 : ℝ) : ℂ) • (1 - I) • 1)) + ((1 - I) • (1 : Matrix (Fin n) (Fin n) ℂ))ᴴ * (1 - I) • 1) = (1 : ℂ) • 1 := by
      intro x
      have h2 : star (1 - I) = 1 + I := by rw [RCLike.star_def, map_sub, map_one, conj_I, sub_neg_eq_add]
      rw [Matrix.conjTranspose_smul, Matrix.conjTranspose_one, h2, smul_mul_smul_comm, Matrix.one_mul, smul_smul, smul_smul, ← add_smul, ← sub_smul,
        ← add_smul]
      congr 1
      have := I_mul_I
      norm_num
      linear_combination - this
    rw [show (fun x : Idx N => ((((|(1 : ℝ) * 1| ^ 2 : ℝ) : ℂ) • (1 : Matrix (Fin n) (Fin n) ℂ) - (((1 * 1 : ℝ) : ℂ) • ((1 - I) • (1 : Matrix (Fin n) (Fin n) ℂ))ᴴ +
        ((1 * 1 : ℝ) : ℂ) • (1 - I) • 1)) + ((1 - I) • (1 : Matrix (Fin n) (Fin n) ℂ))ᴴ * (1 - I) • 1)) = fun _ => (1 : ℂ) • 1 from funext this,
      largestEigenvalue_smul_one]
    simp
  have him := C36_gain (gainMedium n N) ht k0 i0 x0 1
  rw [hb, hsig] at him
  rw [him, hc2, hre, heps]
  intro hw
  have := hw x0 (Pi.single i0 1)
  simp only [mul_one, ofReal_one, one_smul] at this
  have e : ((1 - I) • (1 : Matrix (Fin n) (Fin n) ℂ) - 1) = (-I) • 1 := by
    rw [sub_smul, one_smul, neg_smul]; abel
  rw [e, Matrix.smul_mulVec, Matrix.one_mulVec] at this
  have e2 : ∀ i, ‖((-I) • (Pi.single i0 1 : Fin n → ℂ)) i‖ ^ 2 = ‖(Pi.single i0 1 : Fin n → ℂ) i‖ ^ 2 := by
    intro i; simp
  simp only [e2] at this
  have e3 : ∑ i, ‖(Pi.single i0 1 : Fin n → ℂ) i‖ ^ 2 = 1 := by
    rw [Finset.sum_eq_single i0]
    · simp
    · intro b _ hb; simp [hb]
    · simp
  rw [e3] at this
  norm_num [abs_of_neg] at this

end Verif.Solver
