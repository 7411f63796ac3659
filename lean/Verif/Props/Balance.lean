import Verif.Lemmas.Balance
import Verif.Props.Continuous

/-!
# C125 and C126: the local balance of energy and of momentum

`S`, `divS`, `stress_tensor` and `f` against the conservation laws, with the true derivatives of the interpolated fields.
-/

namespace Verif.Balance

open Verif Verif.Fourier Verif.Backend Verif.Continuous Verif.Spec.Continuous Verif.Spec.Balance Complex
open Verif.Solver (State Const Medium Field Represents Uniform getE getB getH getD getJ getS getDivS getStress getForce backendK angularFrequency vacuum vacuum_uniform)
open Verif.Spec.Solver (WaveEquation NoGain)

variable {d : ℕ}

local notation "conj" => starRingEnd ℂ

section
variable {g : Grid.Obj d ℝ} (hd : d ≤ 3) (hs : ∀ a, g.step a ≠ 0)
include hd hs

theorem smooth_of_bandLimited {f : Point → ℂ} (h : f ∈ BandLimited g.shape g.step) : Smooth f := fun r a => (C123_smooth hd hs h a).1 r (r a)

/-! ### Energy -/

section
variable {k0 : ℝ} (hk0 : k0 ≠ 0) {co : Const} (hc : co.c ≠ 0) (i0 : Fin 3) (x0 : Idx g.shape) (t : State 3 g.shape) {E D H B j : Fin 3 → Point → ℂ}
  (hE : ∀ c, Interpolates g (E c) (getE k0 t c)) (hH : ∀ c, Interpolates g (H c) (getH co k0 (backendK g k0) i0 x0 t c))
  (hD : ∀ c, Interpolates g (D c) (getD co k0 (backendK g k0) i0 x0 t c)) (hB : ∀ c, Interpolates g (B c) (getB co k0 (backendK g k0) t c))
  (hj : ∀ c, Interpolates g (j c) (getJ co k0 t c))

include hk0 hc hE hH hD hB hj in
/-- **C125 (Poynting).** For all states, converged or not, and at all points of space: the divergence of the flow of energy is what the currents deliver minus what the material absorbs. -/
theorem C125_poynting (r : Point) : Spec.Continuous.divergence (fun c r => (flow E H c r : ℂ)) r = ((delivered E j r - absorbed (co.omega k0) E D H B r : ℝ) : ℂ) := by
  rw [divergence_flow (fun c => smooth_of_bandLimited hd hs (hE c).1) (fun c => smooth_of_bandLimited hd hs (hH c).1)]
  congr 1
  simp only [C123_faraday hd hs hk0 hc t hE hB, C123_ampere hd hs hk0 hc i0 x0 t hH hD hj]
  unfold delivered absorbed
  simp only [Fin.sum_univ_three, add_re, sub_re, add_im, mul_re, mul_im, conj_re, conj_im, sub_im, neg_re, neg_im, I_re, I_im, ofReal_re, ofReal_im]
  ring

include hE hH in
omit hd hs in
/-- **C125 (samples).** The property `S` is this flow at the samples. -/
theorem C125_samples (c : Fin 3) (x : Idx g.shape) (r : Point) (hr : AtSample g x r) : getS co k0 (backendK g k0) i0 x0 t c x = flow E H c r := by
  rw [Solver.C45_poynting]
  unfold flow
  rw [show (fun c => E c r) = fun c => getE k0 t c x from funext fun c => (hE c).2 x r hr,
    show (fun c => conj (H c r)) = fun c => conj (getH co k0 (backendK g k0) i0 x0 t c x) from funext fun c => by rw [(hH c).2 x r hr]]
  ring

include hk0 hE hH in
/-- **C125 (divS).** If E and H vary at most half as fast as the samples resolve, then the property `divS`, multiplied by the wavenumber (C45), is the divergence of the flow at the samples.
Full claim: for all fields, see `C125_violates`. -/
theorem C125_divS_partial (hE2 : ∀ c, E c ∈ HalfBand g.shape g.step) (hH2 : ∀ c, H c ∈ HalfBand g.shape g.step) :
    ∃ v, getDivS co k0 (backendK g k0) i0 x0 t = .ok v ∧ ∀ x r, AtSample g x r → k0 * v x = Spec.Continuous.divergence (fun c r => (flow E H c r : ℂ)) r := by
  obtain ⟨v, h1, h2⟩ := Solver.C45_divergence_partial g hs hk0 hd co i0 x0 t
  refine ⟨v, h1, fun x r hr => ?_⟩
  have hmem : ∀ c, (fun r => (flow E H c r : ℂ)) ∈ BandLimited g.shape g.step := by
    have key : ∀ a b a' b', (fun r => (((E a r * conj (H b r) - E a' r * conj (H b' r)).re / 2 : ℝ) : ℂ)) ∈ BandLimited g.shape g.step := fun a b a' b' => by
      have := Submodule.smul_mem _ (1 / 2 : ℂ) (Submodule.sub_mem _ (re_mul_conj_mem (hE2 a) (hH2 b)) (re_mul_conj_mem (hE2 a') (hH2 b')))
      convert this using 1
      funext r
      simp only [Pi.smul_apply, Pi.sub_apply, smul_eq_mul, sub_re]
      push_cast
      ring
    intro c
    unfold flow
    simp only [cross_apply]
    fin_cases c
    · exact key 1 2 2 1
    · exact key 2 0 0 2
    · exact key 0 1 1 0
  have h3 := C123_divergence hd hs (F := fun c r => (flow E H c r : ℂ)) (G := fun c x => (getS co k0 (backendK g k0) i0 x0 t c x : ℂ)) fun c =>
    ⟨hmem c, fun x r hr => by dsimp only; rw [C125_samples i0 x0 t hE hH c x r hr]⟩
  rw [← h2 x, h3.2 x r hr]

include hk0 hc hE hH in
/-- **C125 (as reported).** For such fields: the balance of the properties `divS`, `j`, `E`, `D`, `B` and `H` of the solution, at all samples and for all states. -/
theorem C125_balance_partial (hE2 : ∀ c, E c ∈ HalfBand g.shape g.step) (hH2 : ∀ c, H c ∈ HalfBand g.shape g.step) :
    ∃ v, getDivS co k0 (backendK g k0) i0 x0 t = .ok v ∧ ∀ x, k0 * v x =
      (((∑ c, getJ co k0 t c x * conj (getE k0 t c x)).re / 2 -
        co.omega k0 / 2 * ((∑ c, getD co k0 (backendK g k0) i0 x0 t c x * conj (getE k0 t c x)).im +
          (∑ c, getB co k0 (backendK g k0) t c x * conj (getH co k0 (backendK g k0) i0 x0 t c x)).im) : ℝ) : ℂ) := by
  obtain ⟨v, h1, h2⟩ := C125_divS_partial hd hs hk0 i0 x0 t hE hH hE2 hH2
  choose D hD _ using fun c => C123_interpolation hd hs (getD co k0 (backendK g k0) i0 x0 t c)
  choose B hB _ using fun c => C123_interpolation hd hs (getB co k0 (backendK g k0) t c)
  choose j hj _ using fun c => C123_interpolation hd hs (getJ co k0 t c)
  refine ⟨v, h1, fun x => ?_⟩
  obtain ⟨r, hr⟩ := exists_atSample hd g x
  rw [h2 x r hr, C125_poynting hd hs hk0 hc i0 x0 t hE hH hD hB hj]
  unfold delivered absorbed
  simp only [fun c => (hE c).2 x r hr, fun c => (hH c).2 x r hr, fun c => (hD c).2 x r hr, fun c => (hB c).2 x r hr, fun c => (hj c).2 x r hr]

include hk0 hc hE hH hj in
/-- **C125 (materials).** Once the field has converged: where the material has no gain, no more energy flows out of a sample than the current delivers there. -/
theorem C125_passive (hω : 0 ≤ co.omega k0) (hco : co.c ^ 2 * co.mu0 * co.epsilon0 = 1) (hε : 0 ≤ co.epsilon0) (hμ : 0 ≤ co.mu0) {m : Medium 3 g.shape} {mag : Bool} {S : Field 3 g.shape}
    (h : Represents m mag S t) (hu : Uniform m mag) (hinv : ∀ x, IsUnit (m.mu x).det) (hxi : ∀ x, m.xi x = 0) (hzeta : ∀ x, m.zeta x = 0)
    (hw : WaveEquation (kOf g) k0 m.epsilon m.mu S (getE k0 t)) (x : Idx g.shape) (he : ∀ v : Fin 3 → ℂ, 0 ≤ (star v ⬝ᵥ (m.epsilon x).mulVec v).im)
    (hm : ∀ v : Fin 3 → ℂ, 0 ≤ (star v ⬝ᵥ (m.mu x).mulVec v).im) (r : Point) (hr : AtSample g x r) :
    ∃ p : ℝ, Spec.Continuous.divergence (fun c r => (flow E H c r : ℂ)) r = (p : ℂ) ∧ p ≤ delivered E j r := by
  choose D hD _ using fun c => C123_interpolation hd hs (getD co k0 (backendK g k0) i0 x0 t c)
  choose B hB _ using fun c => C123_interpolation hd hs (getB co k0 (backendK g k0) t c)
  refine ⟨_, C125_poynting hd hs hk0 hc i0 x0 t hE hH hD hB hj r, sub_le_self _ ?_⟩
  have hmu0 : co.mu0 ≠ 0 := by rintro e; rw [e] at hco; simp at hco
  have h1 := (Solver.C43_electric g hs hk0 hc hmu0 h hu i0 x0 hco hxi hzeta).2 hw
  have h2 := Solver.C43_magnetic g (k0 := k0) hc hmu0 h hu hinv i0 x0
  have e1 : ∀ c, D c r = co.epsilon0 * (m.epsilon x).mulVec (fun c => E c r) c := fun c => by
    rw [(hD c).2 x r hr, h1 c x, show (fun c => E c r) = fun c => getE k0 t c x from funext fun c => (hE c).2 x r hr]
    unfold Spec.Solver.act
    rw [hxi x, Matrix.zero_mulVec]
    simp
  have e2 : ∀ c, B c r = co.mu0 * (m.mu x).mulVec (fun c => H c r) c := fun c => by
    rw [(hB c).2 x r hr, h2 c x, show (fun c => H c r) = fun c => getH co k0 (backendK g k0) i0 x0 t c x from funext fun c => (hH c).2 x r hr]
    unfold Spec.Solver.act
    rw [hzeta x, Matrix.zero_mulVec]
    simp
  have e3 : ∀ (z : ℝ) (A : Matrix (Fin 3) (Fin 3) ℂ) (v : Fin 3 → ℂ), (∑ c, (z : ℂ) * A.mulVec v c * conj (v c)).im = z * (star v ⬝ᵥ A.mulVec v).im := fun z A v => by
    rw [← im_ofReal_mul]
    congr 1
    unfold dotProduct
    rw [Finset.mul_sum]
    refine Finset.sum_congr rfl fun c _ => ?_
    rw [Pi.star_apply, starRingEnd_apply]
    ring
  unfold absorbed
  simp only [e1, e2]
  rw [e3 co.epsilon0 (m.epsilon x) fun c => E c r, e3 co.mu0 (m.mu x) fun c => H c r]
  exact mul_nonneg (div_nonneg hω zero_le_two) (add_nonneg (mul_nonneg hε (he _)) (mul_nonneg hμ (hm _)))

/-! ### Momentum -/

include hE hH in
omit hd hs in
/-- **C126 (samples).** The property `stress_tensor` is the flow of momentum at the samples. -/
theorem C126_samples (i c : Fin 3) (x : Idx g.shape) (r : Point) (hr : AtSample g x r) : getStress co k0 (backendK g k0) i0 x0 t i c x = stress co.epsilon0 co.mu0 E H i c r := by
  rw [Solver.C45_stress]
  unfold stress
  simp only [fun c => (hE c).2 x r hr, fun c => (hH c).2 x r hr, normSq_eq_norm_sq]

include hc hH hB in
/-- `B = μ₀ H` at all points of space, if the permeability is 1. -/
theorem flux_eq (hmu0 : co.mu0 ≠ 0) {m : Medium 3 g.shape} {mag : Bool} {S : Field 3 g.shape} (h : Represents m mag S t) (hu : Uniform m mag) (hmu : ∀ x, m.mu x = 1)
    (hzeta : ∀ x, m.zeta x = 0) (c : Fin 3) (r : Point) : B c r = co.mu0 * H c r := by
  have h2 := Solver.C43_magnetic g (k0 := k0) hc hmu0 h hu (fun x => by rw [hmu x]; simp) i0 x0
  have h3 := (hH c).mul (co.mu0 : ℂ)
  rw [show (fun x => (co.mu0 : ℂ) * getH co k0 (backendK g k0) i0 x0 t c x) = getB co k0 (backendK g k0) t c from funext fun x => by
    rw [h2 c x]
    unfold Spec.Solver.act
    rw [hzeta x, hmu x, Matrix.zero_mulVec, Matrix.one_mulVec]
    simp] at h3
  exact congrFun (Interpolates.unique hd hs (hB c) h3) r

include hk0 hc hE hH hD hB hj in
/-- **C126 (Lorentz).** For all materials with a permeability of 1 and no coupling, all states, converged or not, and at all points of space: the divergence of the flow of momentum is the force
`(ρ E* + J × B*) / 2` on all charges `ρ = ε₀ ∇ · E` and all currents `J = - j - i ω (D - ε₀ E)`, those of the material included; the sign of `j` is that of the code. -/
theorem C126_lorentz (hmu0 : co.mu0 ≠ 0) {m : Medium 3 g.shape} {mag : Bool} {S : Field 3 g.shape} (h : Represents m mag S t) (hu : Uniform m mag) (hmu : ∀ x, m.mu x = 1)
    (hzeta : ∀ x, m.zeta x = 0) (c : Fin 3) (r : Point) :
    Spec.Continuous.divergence (fun i r => (stress co.epsilon0 co.mu0 E H i c r : ℂ)) r =
      (lorentz (fun r => co.epsilon0 * Spec.Continuous.divergence E r) E (fun c r => -j c r - I * co.omega k0 * (D c r - co.epsilon0 * E c r)) B c r : ℂ) := by
  have eB := flux_eq hd hs hc i0 x0 t hH hB hmu0 h hu hmu hzeta
  have hdiv : Spec.Continuous.divergence H r = 0 := by
    have h4 := C123_gauss hd hs hk0 hc t hB r
    rw [show B = fun c r => (co.mu0 : ℂ) * H c r from funext fun c => funext fun r => eB c r] at h4
    unfold Spec.Continuous.divergence at h4 ⊢
    simp only [fun c => pd_const_mul (co.mu0 : ℂ) (smooth_of_bandLimited hd hs (hH c).1) c r] at h4
    rw [← Finset.mul_sum] at h4
    exact (mul_eq_zero.1 h4).resolve_left (by exact_mod_cast hmu0)
  rw [divergence_stress (fun c => smooth_of_bandLimited hd hs (hE c).1) (fun c => smooth_of_bandLimited hd hs (hH c).1), hdiv]
  congr 1
  unfold lorentz
  simp only [C123_faraday hd hs hk0 hc t hE hB, C123_ampere hd hs hk0 hc i0 x0 t hH hD hj, eB, cross_apply]
  generalize Spec.Continuous.divergence E r = z
  fin_cases c
  all_goals
    simp only [Fin.zero_eta, Fin.mk_one, Fin.reduceFinMk, Fin.isValue, Matrix.cons_val_zero, Matrix.cons_val_one, Matrix.cons_val, add_re, sub_re, sub_im, mul_re, mul_im, conj_re, conj_im,
      neg_re, neg_im, I_re, I_im, ofReal_re, ofReal_im, zero_re, zero_im, map_mul, conj_ofReal]
    ring

include hk0 hc hE hH hD hB hj in
/-- **C126 (magnetic materials).** For all materials, magnetic ones and those with coupling included, for all states, converged or not, and at all points of space: the divergence of the flow of
momentum is the force on all electric charges `ρ = ε₀ ∇ · E` and currents `J = - j - i ω (D - ε₀ E)`, and on the magnetic charges `- ∇ · (B - μ₀ H)` and currents `- i ω (B - μ₀ H)` of the magnetization. -/
theorem C126_magnetic (c : Fin 3) (r : Point) :
    Spec.Continuous.divergence (fun i r => (stress co.epsilon0 co.mu0 E H i c r : ℂ)) r =
      (forceOnMaterial co.epsilon0 co.mu0 (fun r => co.epsilon0 * Spec.Continuous.divergence E r) (fun r => -Spec.Continuous.divergence (fun c r => B c r - co.mu0 * H c r) r) E H
        (fun c r => -j c r - I * co.omega k0 * (D c r - co.epsilon0 * E c r)) (fun c r => -I * co.omega k0 * (B c r - co.mu0 * H c r)) c r : ℂ) := by
  have sH := fun c => smooth_of_bandLimited hd hs (hH c).1
  have hdiv : -Spec.Continuous.divergence (fun c r => B c r - co.mu0 * H c r) r = co.mu0 * Spec.Continuous.divergence H r := by
    have h4 := C123_gauss hd hs hk0 hc t hB r
    unfold Spec.Continuous.divergence at h4 ⊢
    simp only [fun c => pd_sub (smooth_of_bandLimited hd hs (hB c).1) ((sH c).const_mul (co.mu0 : ℂ)) (a := c) (r := r), fun c => pd_const_mul (co.mu0 : ℂ) (sH c) c r]
    rw [Finset.sum_sub_distrib, h4, ← Finset.mul_sum, zero_sub, neg_neg]
  rw [divergence_stress (fun c => smooth_of_bandLimited hd hs (hE c).1) sH]
  congr 1
  unfold forceOnMaterial
  dsimp only
  rw [hdiv]
  simp only [C123_faraday hd hs hk0 hc t hE hB, C123_ampere hd hs hk0 hc i0 x0 t hH hD hj, cross_apply]
  generalize Spec.Continuous.divergence E r = z
  generalize Spec.Continuous.divergence H r = w
  fin_cases c
  all_goals
    simp only [Fin.zero_eta, Fin.mk_one, Fin.reduceFinMk, Fin.isValue, Matrix.cons_val_zero, Matrix.cons_val_one, Matrix.cons_val, add_re, sub_re, sub_im, mul_re, mul_im, conj_re, conj_im,
      neg_re, neg_im, I_re, I_im, ofReal_re, ofReal_im, zero_re, zero_im, map_mul, conj_ofReal]
    ring

include hk0 hE hH in
/-- **C126 (f).** If E and H vary at most half as fast as the samples resolve, then the property `f` is the divergence of the flow of momentum at the samples. -/
theorem C126_f_partial (hE2 : ∀ c, E c ∈ HalfBand g.shape g.step) (hH2 : ∀ c, H c ∈ HalfBand g.shape g.step) :
    ∃ v, getForce co k0 (backendK g k0) i0 x0 t = .ok v ∧
      ∀ c x r, AtSample g x r → (v c x : ℂ) = Spec.Continuous.divergence (fun i r => (stress co.epsilon0 co.mu0 E H i c r : ℂ)) r := by
  refine ⟨_, Solver.C45_force g hs hk0 hd co i0 x0 t, fun c x r hr => ?_⟩
  have hmem : ∀ i, (fun r => (stress co.epsilon0 co.mu0 E H i c r : ℂ)) ∈ BandLimited g.shape g.step := by
    intro i
    have hT : ∀ F : Fin 3 → Point → ℂ, (∀ c, F c ∈ HalfBand g.shape g.step) → tension F i c ∈ BandLimited g.shape g.step := fun F hF =>
      Submodule.sub_mem _ (Submodule.smul_mem _ _ (re_mul_conj_mem (hF i) (hF c)))
        (Submodule.smul_mem _ _ (Submodule.add_mem _ (Submodule.add_mem _ (re_mul_conj_mem (hF 0) (hF 0)) (re_mul_conj_mem (hF 1) (hF 1))) (re_mul_conj_mem (hF 2) (hF 2))))
    rw [show (fun r => (stress co.epsilon0 co.mu0 E H i c r : ℂ)) = fun r => (co.epsilon0 : ℂ) * tension E i c r + (co.mu0 : ℂ) * tension H i c r from
      funext fun r => stress_tension co.epsilon0 co.mu0 E H i c r]
    exact Submodule.add_mem _ (Submodule.smul_mem _ _ (hT E hE2)) (Submodule.smul_mem _ _ (hT H hH2))
  have h3 := C123_divergence hd hs (F := fun i r => (stress co.epsilon0 co.mu0 E H i c r : ℂ)) (G := fun i x => (getStress co k0 (backendK g k0) i0 x0 t i c x : ℂ)) fun i =>
    ⟨hmem i, fun x r hr => by dsimp only; rw [C126_samples i0 x0 t hE hH i c x r hr]⟩
  rw [← h3.2 x r hr, divergence_stress (fun c => smooth_of_bandLimited hd hs (hE c).1) (fun c => smooth_of_bandLimited hd hs (hH c).1), ofReal_re]

include hk0 hc hE hH in
/-- In materials with a permeability of 1 and no coupling, H varies as slowly as E. -/
theorem halfBand_H (hmu0 : co.mu0 ≠ 0) {m : Medium 3 g.shape} {mag : Bool} {S : Field 3 g.shape} (h : Represents m mag S t) (hu : Uniform m mag) (hmu : ∀ x, m.mu x = 1)
    (hzeta : ∀ x, m.zeta x = 0) (hE2 : ∀ c, E c ∈ HalfBand g.shape g.step) (c : Fin 3) : H c ∈ HalfBand g.shape g.step := by
  choose B hB _ using fun c => C123_interpolation hd hs (getB co k0 (backendK g k0) t c)
  have eB := flux_eq hd hs hc i0 x0 t hH hB hmu0 h hu hmu hzeta
  have hω : (co.omega k0 : ℂ) ≠ 0 := by
    unfold Solver.Const.omega angularFrequency
    exact_mod_cast mul_ne_zero hk0 hc
  have hm' : (co.mu0 : ℂ) ≠ 0 := by exact_mod_cast hmu0
  have e : H c = (I * co.omega k0 * co.mu0)⁻¹ • Spec.Continuous.curl E c := by
    funext r
    rw [Pi.smul_apply, smul_eq_mul, C123_faraday hd hs hk0 hc t hE hB c r, eB]
    have := I_ne_zero
    field_simp
  rw [e]
  exact Submodule.smul_mem _ _ (curl_mem hE2 c)

include hk0 hc hE hH in
/-- **C125, C126 (materials with a permeability of 1).** For all states in which E varies at most half as fast as the samples resolve: the properties of the solution satisfy the balance of energy,
and `f` is the Lorentz force, at all samples. -/
theorem C126_balance_partial (hmu0 : co.mu0 ≠ 0) {m : Medium 3 g.shape} {mag : Bool} {S : Field 3 g.shape} (h : Represents m mag S t) (hu : Uniform m mag) (hmu : ∀ x, m.mu x = 1)
    (hzeta : ∀ x, m.zeta x = 0) (hE2 : ∀ c, E c ∈ HalfBand g.shape g.step) :
    (∃ v, getDivS co k0 (backendK g k0) i0 x0 t = .ok v ∧ ∀ x, k0 * v x =
      (((∑ c, getJ co k0 t c x * conj (getE k0 t c x)).re / 2 -
        co.omega k0 / 2 * ((∑ c, getD co k0 (backendK g k0) i0 x0 t c x * conj (getE k0 t c x)).im +
          (∑ c, getB co k0 (backendK g k0) t c x * conj (getH co k0 (backendK g k0) i0 x0 t c x)).im) : ℝ) : ℂ)) ∧
    ∃ v, getForce co k0 (backendK g k0) i0 x0 t = .ok v ∧ ∀ c x, v c x =
      (co.epsilon0 * Spec.Solver.divergence (kOf g) (getE k0 t) x * conj (getE k0 t c x) +
        crossProduct (fun c => -getJ co k0 t c x - I * co.omega k0 * (getD co k0 (backendK g k0) i0 x0 t c x - co.epsilon0 * getE k0 t c x))
          (fun c => conj (getB co k0 (backendK g k0) t c x)) c).re / 2 := by
  have hH2 := halfBand_H hd hs hk0 hc i0 x0 t hE hH hmu0 h hu hmu hzeta hE2
  refine ⟨C125_balance_partial hd hs hk0 hc i0 x0 t hE hH hE2 hH2, ?_⟩
  obtain ⟨v, h1, h2⟩ := C126_f_partial hd hs hk0 i0 x0 t hE hH hE2 hH2
  choose D hD _ using fun c => C123_interpolation hd hs (getD co k0 (backendK g k0) i0 x0 t c)
  choose B hB _ using fun c => C123_interpolation hd hs (getB co k0 (backendK g k0) t c)
  choose j hj _ using fun c => C123_interpolation hd hs (getJ co k0 t c)
  refine ⟨v, h1, fun c x => ?_⟩
  obtain ⟨r, hr⟩ := exists_atSample hd g x
  have h3 := h2 c x r hr
  rw [C126_lorentz hd hs hk0 hc i0 x0 t hE hH hD hB hj hmu0 h hu hmu hzeta, ofReal_inj] at h3
  rw [h3]
  unfold lorentz
  simp only [(C123_divergence hd hs hE).2 x r hr, fun c => (hE c).2 x r hr, fun c => (hD c).2 x r hr, fun c => (hB c).2 x r hr, fun c => (hj c).2 x r hr]

include hk0 hc hE hH in
/-- **C126 (magnetic materials, samples).** For all states in which E and H vary at most half as fast as the samples resolve, `f` is the force on the electric and magnetic charges and currents, as they follow
from the properties of the solution. -/
theorem C126_magnetic_partial (hE2 : ∀ c, E c ∈ HalfBand g.shape g.step) (hH2 : ∀ c, H c ∈ HalfBand g.shape g.step) :
    ∃ v, getForce co k0 (backendK g k0) i0 x0 t = .ok v ∧ ∀ c x, v c x =
      (co.epsilon0 * Spec.Solver.divergence (kOf g) (getE k0 t) x * conj (getE k0 t c x) +
        co.mu0 * crossProduct (fun c => -getJ co k0 t c x - I * co.omega k0 * (getD co k0 (backendK g k0) i0 x0 t c x - co.epsilon0 * getE k0 t c x))
          (fun c => conj (getH co k0 (backendK g k0) i0 x0 t c x)) c +
        -Spec.Solver.divergence (kOf g) (fun c x => getB co k0 (backendK g k0) t c x - co.mu0 * getH co k0 (backendK g k0) i0 x0 t c x) x * conj (getH co k0 (backendK g k0) i0 x0 t c x) -
        co.epsilon0 * crossProduct (fun c => -I * co.omega k0 * (getB co k0 (backendK g k0) t c x - co.mu0 * getH co k0 (backendK g k0) i0 x0 t c x))
          (fun c => conj (getE k0 t c x)) c).re / 2 := by
  obtain ⟨v, h1, h2⟩ := C126_f_partial hd hs hk0 i0 x0 t hE hH hE2 hH2
  choose D hD _ using fun c => C123_interpolation hd hs (getD co k0 (backendK g k0) i0 x0 t c)
  choose B hB _ using fun c => C123_interpolation hd hs (getB co k0 (backendK g k0) t c)
  choose j hj _ using fun c => C123_interpolation hd hs (getJ co k0 t c)
  refine ⟨v, h1, fun c x => ?_⟩
  obtain ⟨r, hr⟩ := exists_atSample hd g x
  have h3 := h2 c x r hr
  rw [C126_magnetic hd hs hk0 hc i0 x0 t hE hH hD hB hj, ofReal_inj] at h3
  rw [h3]
  have hM : ∀ c, Interpolates g (fun r => B c r - co.mu0 * H c r) fun x => getB co k0 (backendK g k0) t c x - co.mu0 * getH co k0 (backendK g k0) i0 x0 t c x :=
    fun c => (hB c).sub ((hH c).mul (co.mu0 : ℂ))
  unfold forceOnMaterial
  simp only [(C123_divergence hd hs hE).2 x r hr, (C123_divergence hd hs hM).2 x r hr, fun c => (hE c).2 x r hr, fun c => (hH c).2 x r hr, fun c => (hD c).2 x r hr, fun c => (hB c).2 x r hr,
    fun c => (hj c).2 x r hr]

end

end

end Verif.Balance
