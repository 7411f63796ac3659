import Verif.Props.ProblemUniform
import Verif.Props.SolverNegative
import Verif.Props.ScatteringAccuracy

/-!
# C122: uniform materials with a negative permeability, as called

The error of every transverse wave near the resonance of the material never decreases, although the material absorbs and although the solution is unique.
-/

namespace Verif.Problem

open Verif Verif.Fourier Verif.Backend Verif.Solver Verif.Construct Complex Matrix
open Verif.Assign (Arr toMatrixField full CanBroadcast broadcast InShape)
open Verif.Spec.Solver (NoGain Within WaveEquation ScalarWaveEquation)
open Verif.Spec.Backend (kVector)

variable {d n : ℕ}

/-- The wavenumbers of the waves in the material with permittivity `epsilon` and permeability `-r`: those that are near its resonance, with respect to its losses. -/
def NearResonance {N : Fin d → ℕ} (k : Fin d → Idx N → ℝ) (k0 r : ℝ) (epsilon : ℂ) (q : Idx N) : Prop :=
  |k0 ^ 2 * (-r * epsilon.re) - k2 k q| ≤ k0 ^ 2 * (r * epsilon.im)

section
variable {N : Fin d → ℕ} {m : Medium n N} (hxi : ∀ x, m.xi x = 0) (hzeta : ∀ x, m.zeta x = 0) {r : ℝ} (hr : 0 < r) (hmu : ∀ x, m.mu x = ((-r : ℝ) : ℂ) • 1)
  {epsilon : ℂ} (hepsilon : ∀ x, m.epsilon x = epsilon • 1)

include hxi hepsilon in
theorem negative_epsilonPrime (x : Idx N) : m.epsilonPrime x = epsilon • 1 := by
  unfold Medium.epsilonPrime
  rw [hepsilon, hxi]
  simp

include hr hmu in
theorem negative_muInv (x : Idx N) : m.muInv x = ((-r⁻¹ : ℝ) : ℂ) • 1 := by
  unfold Medium.muInv
  rw [hmu, smul_one_inv (ofReal_ne (neg_ne_zero.2 hr.ne')), ← ofReal_inv, inv_neg]

include hxi hzeta hr hmu in
theorem negative_consistent : Consistent m false (-r⁻¹) := .inr ⟨hxi, hzeta, negative_muInv hr hmu⟩

include hepsilon hxi hr in
/-- The bias is at least the absorption. -/
theorem negative_bias [NeZero n] (x0 : Idx N) (alphaR : ℝ) : -(epsilon / ((-r⁻¹ : ℝ) : ℂ)).im ≤ m.sigmaEE alphaR (-r⁻¹) := by
  have hb : (-r⁻¹ : ℝ) ≠ 0 := neg_ne_zero.2 (inv_ne_zero hr.ne')
  have h1 := m.within_sigmaEE alphaR hb x0 (Pi.single 0 1)
  dsimp only at h1
  rw [negative_epsilonPrime hxi hepsilon, ← sub_smul] at h1
  have e : ∑ i, ‖(Pi.single 0 1 : Fin n → ℂ) i‖ ^ 2 = 1 := by
    rw [Finset.sum_eq_single 0 (fun i _ hi => by rw [Pi.single_eq_of_ne hi]; simp) (by simp)]
    simp
  have e2 : ∑ i, ‖((epsilon - ((alphaR * -r⁻¹ : ℝ) : ℂ)) • (1 : Matrix (Fin n) (Fin n) ℂ)).mulVec (Pi.single 0 1) i‖ ^ 2 = ‖epsilon - ((alphaR * -r⁻¹ : ℝ) : ℂ)‖ ^ 2 := by
    simp only [Matrix.smul_mulVec, Matrix.one_mulVec, Pi.smul_apply, smul_eq_mul, norm_mul, mul_pow]
    rw [← Finset.mul_sum, e, mul_one]
  rw [e, e2, mul_one] at h1
  have h2 : ‖epsilon - ((alphaR * -r⁻¹ : ℝ) : ℂ)‖ ≤ m.sigmaEE alphaR (-r⁻¹) * |(-r⁻¹ : ℝ)| :=
    le_of_sq_le_sq h1 (mul_nonneg (sigmaEE_nonneg m _ _) (abs_nonneg _))
  have h3 := (le_abs_self _).trans (abs_im_le_norm (epsilon - ((alphaR * -r⁻¹ : ℝ) : ℂ)))
  rw [sub_im, ofReal_im, sub_zero] at h3
  rw [div_ofReal_im, div_neg, neg_neg, div_le_iff₀ (inv_pos.2 hr)]
  rw [abs_neg, abs_of_pos (inv_pos.2 hr)] at h2
  exact h3.trans h2

end

/-- What is proved of a calculation: the state that it starts with is constructed and has the given initial field, but no number of iterations reduces the error of the wave. -/
def NeverReduced (kind : Kind d n) {N : Fin d → ℕ} (k : Fin d → Idx N → ℝ) (k0 : ℝ) (s : State n N) (v : Fin n → ℂ) (q : Idx N) (E : Solver.Field n N) : Prop :=
  ∀ i t, run kind k s i = .ok t → ‖amplitude v q (getE k0 s - E)‖ ≤ ‖amplitude v q (getE k0 t - E)‖

/-- The amplitude is bounded by the norm. -/
theorem amplitude_bounded {N : Fin d → ℕ} (v : Fin n → ℂ) (q : Idx N) : ∃ K : ℝ, 0 ≤ K ∧ ∀ F : Solver.Field n N, ‖amplitude v q F‖ ≤ K * Backend.norm F := by
  obtain ⟨K, hK, h⟩ := Scattering.bounded (amplitude_isLinear (n := n) v q)
  exact ⟨K, hK, fun F => (h F).trans (mul_le_mul_of_nonneg_left (Scattering.sup_le_norm F) hK)⟩

/-- A calculation that never reduces a part of the error that is not zero does not converge. -/
theorem NeverReduced.not_converges {kind : Kind d n} {N : Fin d → ℕ} {k : Fin d → Idx N → ℝ} {k0 : ℝ} {s : State n N} {v : Fin n → ℂ} {q : Idx N} {E : Solver.Field n N}
    (h : NeverReduced kind k k0 s v q E) (hne : amplitude v q (getE k0 s - E) ≠ 0) : ¬ ConvergesTo kind k k0 s E := by
  intro hc
  obtain ⟨K, hK, hb⟩ := amplitude_bounded (n := n) v q
  have hpos := norm_pos_iff.2 hne
  obtain ⟨j0, hj⟩ := hc (‖amplitude v q (getE k0 s - E)‖ / (K + 1)) (by positivity)
  rcases hj j0 le_rfl with ⟨t, ht, hlt⟩ | ⟨-, j, -, t, ht, he⟩
  · have h1 := (h _ t ht).trans (hb _)
    have h2 : Backend.norm (getE k0 t - E) * (K + 1) < ‖amplitude v q (getE k0 s - E)‖ := by rwa [lt_div_iff₀ (by positivity)] at hlt
    nlinarith [norm_nonneg' (getE k0 t - E)]
  · have h1 := h _ t ht
    rw [he, sub_self, (amplitude_isLinear v q).map_zero, norm_zero] at h1
    exact absurd h1 (not_le.2 hpos)

section
variable {co : Const} {p : Args d} {m : Medium n p.grid.shape} {S E0 : Solver.Field n p.grid.shape}

/-- The state that is constructed, and what happens to the wave. -/
theorem negative_waves [NeZero n] (h : Describes co n p m S E0) (kind : Kind d n) (hs : ∀ a, p.grid.step a ≠ 0) (hk0 : 0 < p.frequency.k0 co.c)
    (hxi : ∀ x, m.xi x = 0) (hzeta : ∀ x, m.zeta x = 0) (o : Optimum) {tol : ℝ} (htol : 0 ≤ tol) (form : ScalarForm d p.mu) {r : ℝ} (hr : 0 < r)
    (hmu : ∀ x, m.mu x = ((-r : ℝ) : ℂ) • 1) {epsilon : ℂ} (he : 0 < epsilon.im) (hepsilon : ∀ x, m.epsilon x = epsilon • 1) :
    ∃ alpha : ℂ, 0 < alpha.im ∧ p.construct co n tol o = .ok (prepare m false alpha (-r⁻¹) S fun c x => E0 c x * ((p.frequency.k0 co.c ^ 2 : ℝ) : ℂ)) ∧
      ∀ E, waveOp (backendK p.grid (p.frequency.k0 co.c)) (-r⁻¹) kind m (((p.frequency.k0 co.c : ℂ) ^ 2) • E) = S → ∀ q v, Transverse (kOf p.grid) q kind v →
        NearResonance (kOf p.grid) (p.frequency.k0 co.c) r epsilon q →
          NeverReduced kind (backendK p.grid (p.frequency.k0 co.c)) (p.frequency.k0 co.c)
            (prepare m false alpha (-r⁻¹) S fun c x => E0 c x * ((p.frequency.k0 co.c ^ 2 : ℝ) : ℂ)) v q E := by
  generalize hk : p.frequency.k0 co.c = k0 at hk0 ⊢
  have hval : ∀ z : ℂ, ∀ v : Fin n → ℂ, (star v ⬝ᵥ (z • (1 : Matrix (Fin n) (Fin n) ℂ)).mulVec v).im = z.im * ∑ i, ‖v i‖ ^ 2 := by
    intro z v
    rw [Matrix.smul_mulVec, Matrix.one_mulVec, dotProduct_smul, star_dot_self, smul_eq_mul, im_mul_ofReal]
  have hgain : NoGain m.epsilon := fun x v => by
    rw [hepsilon, hval]
    exact mul_nonneg he.le (Finset.sum_nonneg fun i _ => sq_nonneg _)
  have hgainM : NoGain m.mu := fun x v => by
    rw [hmu, hval, ofReal_im, zero_mul]
  have hc := C86_construct h tol o
  have hnot : foundMagnetic (toMatrixField d p.xi) (toMatrixField d p.zeta) (toMatrixField d p.mu) = false := by
    rw [C87_decision h form]
    refine ⟨fun x r c => ?_, fun x r c => ?_, fun x => ?_⟩
    · rw [hxi, Matrix.zero_apply, norm_zero]
      norm_num
    · rw [hzeta, Matrix.zero_apply, norm_zero]
      norm_num
    · rw [hmu, hmu, sub_self, norm_zero]
      positivity
  rw [hnot, if_neg (by decide), hk] at hc
  have hbeta : m.betaNonMagnetic 0 (first h.nonempty) = -r⁻¹ := by
    unfold Medium.betaNonMagnetic
    rw [negative_muInv hr hmu, Matrix.smul_apply, Matrix.one_apply_eq, smul_eq_mul, mul_one, ofReal_re]
  have hconst : m.constantsNonMagnetic tol k0 p.thickness 0 (first h.nonempty) o.alphaR =
      (increaseBias k0 p.thickness ((o.alphaR : ℂ) + I * (m.sigmaEE o.alphaR (-r⁻¹) : ℂ)), -r⁻¹) := by
    unfold Medium.constantsNonMagnetic
    simp only [if_neg (not_transposed m htol hgain hxi hzeta hgainM), hbeta]
  rw [hconst] at hc
  dsimp only at hc
  set alpha := increaseBias k0 p.thickness ((o.alphaR : ℂ) + I * (m.sigmaEE o.alphaR (-r⁻¹) : ℂ)) with halpha
  have hbig : m.sigmaEE o.alphaR (-r⁻¹) + 0.05 ≤ alpha.im := by
    have h1 := C36_increase k0 p.thickness ((o.alphaR : ℂ) + I * (m.sigmaEE o.alphaR (-r⁻¹) : ℂ))
    have h2 : ((o.alphaR : ℂ) + I * (m.sigmaEE o.alphaR (-r⁻¹) : ℂ)).im = m.sigmaEE o.alphaR (-r⁻¹) := by simp
    rw [h2] at h1
    exact h1
  have h5 : (0 : ℝ) < 0.05 := by norm_num
  have hb := negative_bias hxi hr hepsilon (first h.nonempty) o.alphaR
  have hsig := sigmaEE_nonneg m o.alphaR (-r⁻¹)
  refine ⟨alpha, by linarith, hc, fun E hE q v hv hq i t ht => ?_⟩
  have hkk := C31_backend p.grid hs hk0.ne'
  have hv' : Transverse (backendK p.grid k0) q kind v := by
    cases kind with
    | scalar => trivial
    | vectorial hd =>
      have e : ∀ c, kVector (kOf p.grid) q c = (k0 : ℂ) * kVector (backendK p.grid k0) q c := by
        intro c
        unfold kVector
        split_ifs
        · rw [hkk, ofReal_mul]
        · rw [mul_zero]
      have hv1 : ∑ c, v c * kVector (kOf p.grid) q c = 0 := hv
      simp only [e] at hv1
      have hv2 : (k0 : ℂ) * ∑ c, v c * kVector (backendK p.grid k0) q c = 0 := by
        rw [← hv1, Finset.mul_sum]
        exact Finset.sum_congr rfl fun c _ => by ring
      exact (mul_eq_zero.1 hv2).resolve_left (ofReal_ne hk0.ne')
  have hdivre : (epsilon / ((-r⁻¹ : ℝ) : ℂ)).re = -r * epsilon.re := by
    rw [div_ofReal_re, div_neg, div_inv_eq_mul]; ring
  have hdivim : (epsilon / ((-r⁻¹ : ℝ) : ℂ)).im = -(r * epsilon.im) := by
    rw [div_ofReal_im, div_neg, div_inv_eq_mul]; ring
  have hk2 : k2 (kOf p.grid) q = k0 ^ 2 * k2 (backendK p.grid k0) q := by
    unfold k2
    rw [Finset.mul_sum]
    exact Finset.sum_congr rfl fun a _ => by rw [hkk, mul_pow]
  have hpos : 0 < k0 ^ 2 := by positivity
  have hq' : |(epsilon / ((-r⁻¹ : ℝ) : ℂ)).re - k2 (backendK p.grid k0) q| ≤ -(epsilon / ((-r⁻¹ : ℝ) : ℂ)).im := by
    unfold NearResonance at hq
    rw [hk2, ← mul_sub, abs_mul, abs_of_pos hpos] at hq
    rw [hdivre, hdivim, neg_neg]
    exact le_of_mul_le_mul_left hq hpos
  have hmain := C122_iterations (backendK_origin p.grid hs hk0.ne') kind hv' (negative_epsilonPrime hxi hepsilon) (neg_ne_zero.2 (inv_ne_zero hr.ne'))
    (negative_consistent hxi hzeta hr hmu) (by rw [hdivim]; exact neg_neg_of_pos (mul_pos hr he)) hq' (by linarith) hE ht
  have hgetE : ∀ (F : Solver.Field n p.grid.shape) (s : State n p.grid.shape), s.field = F →
      amplitude v q (getE k0 s - E) = ((k0 : ℂ) ^ 2)⁻¹ * amplitude v q (F - ((k0 : ℂ) ^ 2) • E) := by
    intro F s hF
    have h0 := pow_ne_zero 2 (ofReal_ne hk0.ne')
    have e : F - ((k0 : ℂ) ^ 2) • E = ((k0 : ℂ) ^ 2) • (getE k0 s - E) := by
      rw [smul_sub, ← field_getE hk0.ne' s, hF]
    rw [e, (amplitude_isLinear v q).map_smul, smul_eq_mul, inv_mul_cancel_left₀ h0]
  rw [hgetE _ _ rfl, hgetE t.field t rfl, norm_mul, norm_mul]
  exact mul_le_mul_of_nonneg_left hmain (_root_.norm_nonneg _)

end

/-- **C122 (negative permeability).** For all arguments that describe a uniform isotropic material that absorbs, with a negative permeability in scalar form: the constructor succeeds and the wave equation has
exactly one solution, but no number of iterations reduces the error of the transverse waves near the resonance of the material. -/
theorem C122_waves {co : Const} {p : Args d} {m : Medium 3 p.grid.shape} {S E0 : Solver.Field 3 p.grid.shape} (h : Describes co 3 p m S E0)
    (hvec : p.source.isVectorial (List.ofFn p.grid.shape) (p.currentFactor co) = true) (hd : d ≤ 3) (hs : ∀ a, p.grid.step a ≠ 0) (hk0 : 0 < p.frequency.k0 co.c)
    (hxi : ∀ x, m.xi x = 0) (hzeta : ∀ x, m.zeta x = 0) (o : Optimum) {tol : ℝ} (htol : 0 ≤ tol) (form : ScalarForm d p.mu) {r : ℝ} (hr : 0 < r)
    (hmu : ∀ x, m.mu x = ((-r : ℝ) : ℂ) • 1) {epsilon : ℂ} (he : 0 < epsilon.im) (hepsilon : ∀ x, m.epsilon x = epsilon • 1) :
    ∃ s, p.start co tol o = .ok ⟨3, s⟩ ∧ getE (p.frequency.k0 co.c) s = E0 ∧
      ∃ E, (∀ E', WaveEquation (kOf p.grid) (p.frequency.k0 co.c) m.epsilon m.mu S E' ↔ E' = E) ∧
        ∀ q v, ∑ c, v c * kVector (kOf p.grid) q c = 0 → NearResonance (kOf p.grid) (p.frequency.k0 co.c) r epsilon q →
          NeverReduced (.vectorial hd) (backendK p.grid (p.frequency.k0 co.c)) (p.frequency.k0 co.c) s v q E ∧
            (amplitude v q (E0 - E) ≠ 0 → ¬ ConvergesTo (.vectorial hd) (backendK p.grid (p.frequency.k0 co.c)) (p.frequency.k0 co.c) s E) := by
  obtain ⟨alpha, -, hc, hw⟩ := negative_waves h (.vectorial hd) hs hk0 hxi hzeta o htol form hr hmu he hepsilon
  have hne : epsilon ≠ 0 := fun h0 => by rw [h0] at he; exact lt_irrefl _ he
  have hclosed : ∀ E', WaveEquation (kOf p.grid) (p.frequency.k0 co.c) m.epsilon m.mu S E' ↔ E' = uniformField (kOf p.grid) (p.frequency.k0 co.c) epsilon ((-r : ℝ) : ℂ) S := by
    intro E'
    rw [funext hepsilon, funext hmu]
    exact C99_closed_form hd (kOf p.grid) hk0.ne' hne (ofReal_ne (neg_ne_zero.2 hr.ne')) (no_resonance (kOf p.grid) hk0.ne' he.ne' (neg_ne_zero.2 hr.ne')) S E'
  refine ⟨_, start_vectorial hvec o tol hc, getE_initial hk0.ne' _ _ _ _ _ _, _, hclosed, fun q v hv hq => ?_⟩
  have h1 := hw _ ((waveEquation_iff (C31_backend p.grid hs hk0.ne') hd m hxi hzeta (-r⁻¹) S _).1 ((hclosed _).2 rfl)) q v hv hq
  refine ⟨h1, fun hne => h1.not_converges ?_⟩
  rw [getE_initial hk0.ne']
  exact hne

/-- **C122 (negative permeability, scalar).** The same for scalar calculations, for all waves near the resonance. -/
theorem C122_waves_scalar {co : Const} {p : Args d} {m : Medium 1 p.grid.shape} {S E0 : Solver.Field 1 p.grid.shape} (h : Describes co 1 p m S E0)
    (hvec : p.source.isVectorial (List.ofFn p.grid.shape) (p.currentFactor co) = false) (hs : ∀ a, p.grid.step a ≠ 0) (hk0 : 0 < p.frequency.k0 co.c)
    (hxi : ∀ x, m.xi x = 0) (hzeta : ∀ x, m.zeta x = 0) (o : Optimum) {tol : ℝ} (htol : 0 ≤ tol) {r : ℝ} (hr : 0 < r)
    (hmu : ∀ x, m.mu x = ((-r : ℝ) : ℂ) • 1) {epsilon : ℂ} (he : 0 < epsilon.im) (hepsilon : ∀ x, m.epsilon x = epsilon • 1) :
    ∃ s, p.start co tol o = .ok ⟨1, s⟩ ∧ getE (p.frequency.k0 co.c) s = E0 ∧
      ∃ E, (∀ E', ScalarWaveEquation (kOf p.grid) (p.frequency.k0 co.c) (fun _ => epsilon) ((-r : ℝ) : ℂ) (S 0) E' ↔ E' = E) ∧
        ∀ q, NearResonance (kOf p.grid) (p.frequency.k0 co.c) r epsilon q →
          NeverReduced .scalar (backendK p.grid (p.frequency.k0 co.c)) (p.frequency.k0 co.c) s 1 q (fun _ => E) ∧
            (amplitude 1 q (E0 - fun _ => E) ≠ 0 → ¬ ConvergesTo .scalar (backendK p.grid (p.frequency.k0 co.c)) (p.frequency.k0 co.c) s (fun _ => E)) := by
  have form : ScalarForm d p.mu := by
    cases h.mu with
    | scalar form => exact form
    | tensor form => exact tensorForm_one form
  obtain ⟨alpha, hα, hc, hw⟩ := negative_waves h .scalar hs hk0 hxi hzeta o htol form hr hmu he hepsilon
  have hclosed := C99_scalar_closed_form (kOf p.grid) (p.frequency.k0 co.c) (epsilon := epsilon) (ofReal_ne (neg_ne_zero.2 hr.ne')) (no_resonance (kOf p.grid) hk0.ne' he.ne' (neg_ne_zero.2 hr.ne')) (S 0)
  refine ⟨_, start_scalar hvec o tol hc, getE_initial hk0.ne' _ _ _ _ _ _, _, hclosed, fun q hq => ?_⟩
  have hch : Chosen m true 0 (first h.nonempty) false (-r⁻¹) := by
    refine ⟨?_, fun _ => ?_, neg_ne_zero.2 (inv_ne_zero hr.ne')⟩
    · simp [Medium.isMagnetic, hxi, hzeta, hmu]
    · unfold Medium.betaNonMagnetic
      rw [negative_muInv hr hmu, Matrix.smul_apply, Matrix.one_apply_eq, smul_eq_mul, mul_one, ofReal_re]
  have hiff := scalar_iff hs hk0.ne' hch (fun _ => ⟨-r, neg_ne_zero.2 hr.ne', hmu _⟩) hα S
  have e1 : (fun x => m.epsilon x 0 0) = fun _ => epsilon := by
    funext x
    rw [hepsilon, Matrix.smul_apply, Matrix.one_apply_eq, smul_eq_mul, mul_one]
  have e2 : m.mu (first h.nonempty) 0 0 = ((-r : ℝ) : ℂ) := by
    rw [hmu, Matrix.smul_apply, Matrix.one_apply_eq, smul_eq_mul, mul_one]
  rw [e1, e2] at hiff
  have h1 := hw _ ((hiff fun _ => _).1 ((hclosed _).2 rfl)) q 1 trivial hq
  refine ⟨h1, fun hne => h1.not_converges ?_⟩
  rw [getE_initial hk0.ne']
  exact hne

/-! ### The refractive index -/

/-- **C122 (refractive index).** For all arguments with a refractive index in scalar form, without boundary: if they describe a problem with the index in the place of the permittivity, then the constructor does what it does for
arguments that describe the problem with the square of the index as the permittivity, where the signs of the permittivity and of the permeability have been changed where the real part of the index is negative. -/
theorem C122_describes [NeZero n] {co : Const} {p : Args d} {v : Arr ℂ} {m : Medium n p.grid.shape} {S E0 : Solver.Field n p.grid.shape} (he : p.epsilon = none) (hv : p.index = some v)
    (h : Describes co n { p with epsilon := some v } m S E0) (hel : p.electric = none) (form : ScalarForm d v) (hre : ∃ x, (m.epsilon x 0 0).re < 0) (tol : ℝ) (o : Optimum) :
    ∃ e u, Describes co n { p with epsilon := some e, mu := u }
        { m with epsilon := fun x => (if (m.epsilon x 0 0).re < 0 then -1 else 1 : ℂ) • (m.epsilon x * m.epsilon x),
                 mu := fun x => (if (m.epsilon x 0 0).re < 0 then -1 else 1 : ℂ) • m.mu x } S E0 ∧
      p.construct co n tol o = Args.construct co { p with epsilon := some e, mu := u } n tol o ∧ (ScalarForm d p.mu → ScalarForm d u) := by
  obtain ⟨e, M, h1, h2, h3⟩ := h.epsilon
  have hM : m.epsilon = M := by
    rcases h3 with ⟨-, h3⟩ | ⟨chi, X, h4, -⟩
    · exact h3
    · exact absurd (hel.symm.trans h4) (by simp)
  obtain rfl : v = e := Option.some.inj h1
  rw [← hM] at h2
  obtain ⟨e, u, h4, h5, h6, h7⟩ := C86_index_negative (co := co) (p := p) h.nonempty he hv h2 form h.mu hre tol o
  exact ⟨e, u, ⟨h.nonempty, ⟨e, _, rfl, h4, .inl ⟨hel, rfl⟩⟩, h.magnetic, h.xi, h.zeta, h5, h.source, h.sourceValue, h.initial, h.initialValue⟩, h6, h7⟩

/-- **C122 (negative refractive index).** For all arguments that describe a uniform material with a refractive index in scalar form with a negative real part and a positive imaginary part: the constructor succeeds and
the wave equation has exactly one solution, but no number of iterations reduces the error of the transverse waves near the resonance. -/
theorem C122_index {co : Const} {p : Args d} {v : Arr ℂ} {m : Medium 3 p.grid.shape} {S E0 : Solver.Field 3 p.grid.shape} (hnone : p.epsilon = none) (hv : p.index = some v)
    (h : Describes co 3 { p with epsilon := some v } m S E0) (hel : p.electric = none) (formV : ScalarForm d v)
    (hvec : p.source.isVectorial (List.ofFn p.grid.shape) (p.currentFactor co) = true) (hd : d ≤ 3) (hs : ∀ a, p.grid.step a ≠ 0) (hk0 : 0 < p.frequency.k0 co.c)
    (hxi : ∀ x, m.xi x = 0) (hzeta : ∀ x, m.zeta x = 0) (o : Optimum) {tol : ℝ} (htol : 0 ≤ tol) (form : ScalarForm d p.mu) {r : ℝ} (hr : 0 < r)
    (hmu : ∀ x, m.mu x = (r : ℂ) • 1) {nu : ℂ} (hre : nu.re < 0) (him : 0 < nu.im) (hnu : ∀ x, m.epsilon x = nu • 1) :
    ∃ s, p.start co tol o = .ok ⟨3, s⟩ ∧ getE (p.frequency.k0 co.c) s = E0 ∧
      ∃ E, (∀ E', WaveEquation (kOf p.grid) (p.frequency.k0 co.c) (fun _ => (-(nu ^ 2)) • 1) (fun _ => ((-r : ℝ) : ℂ) • 1) S E' ↔ E' = E) ∧
        ∀ q v, ∑ c, v c * kVector (kOf p.grid) q c = 0 → |p.frequency.k0 co.c ^ 2 * (r * (nu ^ 2).re) - k2 (kOf p.grid) q| ≤ p.frequency.k0 co.c ^ 2 * (r * -(nu ^ 2).im) →
          NeverReduced (.vectorial hd) (backendK p.grid (p.frequency.k0 co.c)) (p.frequency.k0 co.c) s v q E ∧
            (amplitude v q (E0 - E) ≠ 0 → ¬ ConvergesTo (.vectorial hd) (backendK p.grid (p.frequency.k0 co.c)) (p.frequency.k0 co.c) s E) := by
  have hone : ∀ x, m.epsilon x 0 0 = nu := fun x => by rw [hnu, Matrix.smul_apply, Matrix.one_apply_eq, smul_eq_mul, mul_one]
  obtain ⟨e, u, hdesc, hc, hform⟩ := C122_describes hnone hv h hel formV ⟨first h.nonempty, by rw [hone]; exact hre⟩ tol o
  have e1 : (fun x => (if (m.epsilon x 0 0).re < 0 then -1 else 1 : ℂ) • (m.epsilon x * m.epsilon x)) = fun _ => (-(nu ^ 2)) • 1 := by
    funext x
    rw [hone, if_pos hre, hnu, smul_mul_smul_comm, one_mul, smul_smul]
    congr 1
    ring
  have e2 : (fun x => (if (m.epsilon x 0 0).re < 0 then -1 else 1 : ℂ) • m.mu x) = fun _ => ((-r : ℝ) : ℂ) • 1 := by
    funext x
    rw [hone, if_pos hre, hmu, smul_smul]
    congr 1
    push_cast
    ring
  rw [e1, e2] at hdesc
  have hneg : (nu ^ 2).im < 0 := by
    rw [sq, mul_im]
    nlinarith
  obtain ⟨s, h1, h2, E, h3, h4⟩ := C122_waves hdesc hvec hd hs hk0 hxi hzeta o htol (hform form) hr (fun _ => rfl) (epsilon := -(nu ^ 2)) (by rw [neg_im]; linarith) (fun _ => rfl)
  refine ⟨s, ?_, h2, E, h3, fun q v hq hn => h4 q v hq ?_⟩
  · rw [C86_components] at h1 ⊢
    rw [if_pos hvec, hc]
    exact (if_pos hvec).symm.trans h1
  · unfold NearResonance
    rw [neg_re, neg_im, neg_mul_neg]
    exact hn

/-- Changing the signs of the permittivity and of the permeability changes the sign of the field. -/
theorem waveEquation_neg {N : Fin d → ℕ} (k : Fin d → Idx N → ℝ) (k0 : ℝ) {epsilon mu : Tensor 3 N} (S E : Solver.Field 3 N) :
    WaveEquation k k0 (fun x => (-1 : ℂ) • epsilon x) (fun x => (-1 : ℂ) • mu x) S E ↔ WaveEquation k k0 epsilon mu S (-E) := by
  have hinv : ∀ A : Matrix (Fin 3) (Fin 3) ℂ, ((-1 : ℂ) • A)⁻¹ = (-1 : ℂ) • A⁻¹ := by
    intro A
    by_cases hA : IsUnit A.det
    · refine Matrix.inv_eq_left_inv ?_
      rw [smul_mul_smul_comm, Matrix.nonsing_inv_mul A hA]
      norm_num
    · rw [Matrix.nonsing_inv_apply_not_isUnit A hA, Matrix.nonsing_inv_apply_not_isUnit, smul_zero]
      rw [Matrix.det_smul]
      intro h
      refine hA ?_
      simpa using h
  have hact : ∀ (A : Tensor 3 N) F, mulField (fun x => (-1 : ℂ) • A x) F = -mulField A F := by
    intro A F
    funext c x
    simp [mulField, Finset.sum_neg_distrib]
  unfold WaveEquation
  refine forall_congr' fun c => forall_congr' fun x => ?_
  simp only [spec_curl, spec_act, hinv]
  rw [hact, hact, (curl_isLinear (n := 3) (m := 3) k).map_neg, (curl_isLinear (n := 3) (m := 3) k).map_neg, (mulField_isLinear _).map_neg, (mulField_isLinear _).map_neg,
    (curl_isLinear (n := 3) (m := 3) k).map_neg]

/-- **C122 (the form of the refractive index).** A refractive index without negative real part has the same effect, given as a number for each point or as the same multiples of the identity matrix. -/
theorem C122_form_partial {co : Const} {p : Args d} (hN : ∀ b, 0 < p.grid.shape b) {v w : Arr ℂ} {nu : Idx p.grid.shape → ℂ} (he : p.epsilon = none) (hre : ∀ x, 0 ≤ (nu x).re)
    (hV : Means 3 p.grid.shape v fun x => nu x • 1) (formV : ScalarForm d v) (formW : TensorForm d 3 w) (fitsW : Fits 3 p.grid.shape w)
    (valueW : ∀ x : Idx p.grid.shape, nu x • 1 = tensorMeaning w (fun b => (x b : ℕ)) 3) (tol : ℝ) (o : Optimum) :
    ∃ ev ew, Means 3 p.grid.shape ev (fun x => (nu x ^ 2) • 1) ∧ Means 3 p.grid.shape ew (fun x => (nu x ^ 2) • 1) ∧
      Args.construct co { p with index := some v } 3 tol o = Args.construct co { p with index := some v, epsilon := some ev } 3 tol o ∧
      Args.construct co { p with index := some w } 3 tol o = Args.construct co { p with index := some w, epsilon := some ew } 3 tol o := by
  obtain ⟨ev, h1, h3⟩ := C86_index (co := co) (p := { p with index := some v }) hN he rfl hV formV (fun x => by
    rw [Matrix.smul_apply, Matrix.one_apply_eq, smul_eq_mul, mul_one]
    exact hre x) tol o
  obtain ⟨ew, h4, h5⟩ := C86_index_tensor (co := co) (p := { p with index := some w }) (V := fun x => nu x • 1) (by decide) he rfl formW fitsW valueW tol o
  have e : (fun x => nu x • (1 : Matrix (Fin 3) (Fin 3) ℂ) * nu x • 1) = fun x => (nu x ^ 2) • 1 := by
    funext x
    rw [smul_mul_smul_comm, one_mul, sq]
  rw [← e]
  exact ⟨ev, ew, h1, h4, h3, h5⟩

/-- **C122 (the form of the refractive index).** A refractive index with a negative real part, given as a number for each point or as the same multiples of the identity matrix: the field has the opposite sign.
In detail, the first arguments have the effect of a permittivity and permeability for which the solutions are the opposite of those for the second ones. -/
theorem C122_form_violates {co : Const} {p : Args d} (hN : ∀ b, 0 < p.grid.shape b) {v w : Arr ℂ} {nu : ℂ} {M : Tensor 3 p.grid.shape} (he : p.epsilon = none) (hre : nu.re < 0)
    (hV : Means 3 p.grid.shape v fun _ => nu • 1) (formV : ScalarForm d v) (formW : TensorForm d 3 w) (fitsW : Fits 3 p.grid.shape w)
    (valueW : ∀ x : Idx p.grid.shape, nu • 1 = tensorMeaning w (fun b => (x b : ℕ)) 3) (hM : Means 3 p.grid.shape p.mu M) (tol : ℝ) (o : Optimum) (k : Fin d → Idx p.grid.shape → ℝ) (k0 : ℝ) :
    Means 3 p.grid.shape w (fun _ => nu • 1) ∧
    ∃ ev uv ew Ev Uv Ew, Means 3 p.grid.shape ev Ev ∧ Means 3 p.grid.shape uv Uv ∧ Means 3 p.grid.shape ew Ew ∧
      Args.construct co { p with index := some v } 3 tol o = Args.construct co { p with index := some v, epsilon := some ev, mu := uv } 3 tol o ∧
      Args.construct co { p with index := some w } 3 tol o = Args.construct co { p with index := some w, epsilon := some ew } 3 tol o ∧
      ∀ S E, WaveEquation k k0 Ev Uv S E ↔ WaveEquation k k0 Ew M S (-E) := by
  have hone : ((nu • (1 : Matrix (Fin 3) (Fin 3) ℂ)) 0 0).re < 0 := by
    rw [Matrix.smul_apply, Matrix.one_apply_eq, smul_eq_mul, mul_one]
    exact hre
  obtain ⟨ev, uv, h1, h2, h3, -⟩ := C86_index_negative (co := co) (p := { p with index := some v }) hN he rfl hV formV hM ⟨first hN, hone⟩ tol o
  obtain ⟨ew, h4, h5⟩ := C86_index_tensor (co := co) (p := { p with index := some w }) (V := fun _ => nu • 1) (by decide) he rfl formW fitsW valueW tol o
  refine ⟨.tensor formW fitsW valueW, ev, uv, ew, _, _, _, h1, h2, h4, h3, h5, fun S E => ?_⟩
  simp only [if_pos hone]
  exact waveEquation_neg k k0 S E

/-! ### A concrete case -/

/-- A uniform material with the refractive index -1 + i. -/
noncomputable def negativeArgs : Args 1 := { demoArgs true with epsilon := none, index := some ⟨[], fun _ => -1 + I⟩, mu := ⟨[], fun _ => 1⟩, electric := none }

noncomputable def negativeMedium : Medium 3 demoGrid.shape := ⟨fun _ => (-1 + I) • 1, fun _ => 0, fun _ => 0, fun _ => ((1 : ℝ) : ℂ) • 1⟩

theorem negative_describes (co : Const) : Describes co 3 { negativeArgs with epsilon := some ⟨[], fun _ => -1 + I⟩ } negativeMedium (fun _ _ => 1) (fun _ _ => 3) where
  nonempty := (demo_describes true 3 co).nonempty
  epsilon := ⟨_, _, rfl, constant_means 3 (-1 + I), .inl ⟨rfl, rfl⟩⟩
  magnetic := rfl
  xi := (demo_describes true 3 co).xi
  zeta := (demo_describes true 3 co).zeta
  mu := by
    have h := constant_means 3 ((1 : ℝ) : ℂ)
    rw [ofReal_one] at h
    exact h
  source := (demo_describes true 3 co).source
  sourceValue := (demo_describes true 3 co).sourceValue
  initial := (demo_describes true 3 co).initial
  initialValue := (demo_describes true 3 co).initialValue

/-- The error of the initial field, for the constant wave. -/
theorem negative_amplitude (hq : ∀ a, kOf demoGrid a (fun _ => (0 : Fin 2)) = 0) :
    amplitude (Pi.single 0 1) (fun _ => (0 : Fin 2)) ((fun _ _ => 3 : Solver.Field 3 demoGrid.shape) - uniformField (kOf demoGrid) 1 (2 * I) ((-1 : ℝ) : ℂ) (fun _ _ => 1)) ≠ 0 := by
  let q : Idx demoGrid.shape := fun _ => (0 : Fin 2)
  have horigin : origin q := fun _ => rfl
  have hprod : ∏ a, (demoGrid.shape a : ℂ) = 2 := by
    rw [Fin.prod_univ_one]
    rfl
  have halong : along (kOf demoGrid) (fun _ _ => 1) 0 q = 0 := by
    unfold along kVector
    rw [dif_pos (by decide), show kOf demoGrid _ q = 0 from hq _]
    simp
  have hsquare : square (kOf demoGrid) q = 0 := by
    unfold square
    exact Finset.sum_eq_zero fun a _ => by rw [show kOf demoGrid a q = 0 from hq a]; simp
  have hone : ft (fun _ : Idx demoGrid.shape => (1 : ℂ)) q = 2 := by
    rw [ft_constant, if_pos horigin, hprod, one_mul]
  have hthree : ft (fun _ : Idx demoGrid.shape => (3 : ℂ)) q = 6 := by
    rw [ft_constant, if_pos horigin, hprod]
    norm_num
  have hft : ft (uniformField (kOf demoGrid) 1 (2 * I) ((-1 : ℝ) : ℂ) (fun _ _ => 1) 0) q = I := by
    unfold uniformField
    rw [C23_ft_ift, halong, hsquare, hone]
    push_cast
    field_simp
    rw [I_sq]
    ring
  have hamp : amplitude (Pi.single 0 1) q ((fun _ _ => 3 : Solver.Field 3 demoGrid.shape) - uniformField (kOf demoGrid) 1 (2 * I) ((-1 : ℝ) : ℂ) (fun _ _ => 1)) = 6 - I := by
    unfold amplitude
    rw [Finset.sum_eq_single 0 (fun c _ hc => by rw [Pi.single_eq_of_ne hc, zero_mul]) (by simp), Pi.single_eq_same, one_mul, Pi.sub_apply, ft_isLinear.map_sub, Pi.sub_apply]
    exact congrArg₂ (· - ·) hthree hft
  intro h0
  have := congrArg Complex.im (hamp.symm.trans h0)
  simp at this

/-- **C122 (negative refractive index).** So the calculation for a uniform material with refractive index -1 + i does not converge to the solution. -/
theorem C122_violates (co : Const) (o : Optimum) : ∃ s, negativeArgs.start co 1e-8 o = .ok ⟨3, s⟩ ∧
    ∃ E, (∀ E', WaveEquation (kOf demoGrid) 1 (fun _ => (-((-1 + I) ^ 2)) • 1) (fun _ => ((-1 : ℝ) : ℂ) • 1) (fun _ _ => 1) E' ↔ E' = E) ∧
      ¬ ConvergesTo (.vectorial (show 1 ≤ 3 by decide)) (backendK demoGrid 1) 1 s E := by
  obtain ⟨s, h1, -, E, h3, h4⟩ := C122_index (p := negativeArgs) (v := ⟨[], fun _ => -1 + I⟩) rfl rfl (negative_describes co) rfl ⟨by simp, by simp⟩ rfl (show 1 ≤ 3 by decide) demo_step one_pos
    (fun _ => rfl) (fun _ => rfl) o (tol := 1e-8) (by norm_num) ⟨by simp [negativeArgs], by simp [negativeArgs]⟩ (r := 1) one_pos (fun _ => rfl) (nu := -1 + I) (by simp) (by simp) (fun _ => rfl)
  refine ⟨s, h1, E, h3, ?_⟩
  let q : Idx demoGrid.shape := fun _ => (0 : Fin 2)
  have hq : ∀ a, kOf demoGrid a q = 0 := (kOf_origin demoGrid demo_step q).1 fun _ => rfl
  have hk : ∀ c, kVector (kOf demoGrid) q c = 0 := fun c => by
    unfold kVector
    split_ifs
    · rw [hq, ofReal_zero]
    · rfl
  have hk2 : k2 (kOf demoGrid) q = 0 := by
    unfold k2
    simp [hq]
  have hsq : (-1 + I : ℂ) ^ 2 = -2 * I := by
    rw [show (-1 + I : ℂ) ^ 2 = 1 - 2 * I + I ^ 2 by ring, I_sq]
    ring
  refine (h4 q (Pi.single 0 1) (Finset.sum_eq_zero fun c _ => by rw [show kVector (kOf negativeArgs.grid) q c = 0 from hk c, mul_zero]) ?_).2 ?_
  · rw [show k2 (kOf negativeArgs.grid) q = 0 from hk2, hsq]
    norm_num
    positivity
  · have hE : E = uniformField (kOf demoGrid) 1 (2 * I) ((-1 : ℝ) : ℂ) (fun _ _ => 1) := by
      refine ((h3 _).1 ?_).symm
      have h5 := (C99_closed_form (show 1 ≤ 3 by decide) (kOf demoGrid) one_ne_zero (epsilon := 2 * I) (by simp) (ofReal_ne (by norm_num))
        (no_resonance (kOf demoGrid) one_ne_zero (by simp) (r := -1) (by norm_num)) (fun _ _ => 1) _).2 rfl
      rw [← show -((-1 + I : ℂ) ^ 2) = 2 * I by rw [hsq]; ring] at h5 ⊢
      exact h5
    subst hE
    exact negative_amplitude hq

/-- The hypotheses of `C122_form_violates` are met: the same refractive index as a number and as a matrix. -/
example (co : Const) (o : Optimum) : ∃ v w : Arr ℂ, Means 3 demoGrid.shape v (fun _ => (-1 + I) • 1) ∧ Means 3 demoGrid.shape w (fun _ => (-1 + I) • 1) ∧
    ∃ ev uv ew Ev Uv Ew, Means 3 demoGrid.shape ev Ev ∧ Means 3 demoGrid.shape uv Uv ∧ Means 3 demoGrid.shape ew Ew ∧
      Args.construct co { negativeArgs with index := some v } 3 1e-8 o = Args.construct co { negativeArgs with index := some v, epsilon := some ev, mu := uv } 3 1e-8 o ∧
      Args.construct co { negativeArgs with index := some w } 3 1e-8 o = Args.construct co { negativeArgs with index := some w, epsilon := some ew } 3 1e-8 o ∧
      ∀ S E, WaveEquation (kOf demoGrid) 1 Ev Uv S E ↔ WaveEquation (kOf demoGrid) 1 Ew (fun _ => (1 : ℂ) • 1) S (-E) := by
  refine ⟨⟨[], fun _ => -1 + I⟩, ⟨[3, 3, 1], fun i => if i.getD 0 0 = i.getD 1 0 then -1 + I else 0⟩, constant_means 3 _, ?_⟩
  refine C122_form_violates (p := negativeArgs) (negative_describes co).nonempty rfl (by simp) (constant_means 3 (-1 + I)) ⟨by simp, by simp⟩ (by rfl) ?_ (fun x => ?_)
    (constant_means 3 1) 1e-8 o (kOf demoGrid) 1
  · unfold Fits
    change Refines [1, 3, 3] ((List.ofFn fun _ : Fin 1 => 2).reverse ++ [3, 3])
    simp [Refines]
  · funext r c
    unfold tensorMeaning bval bidxRev
    fin_cases r <;> fin_cases c <;> simp

/-- The hypotheses of `C122_waves_scalar` are met: permeability -1 and permittivity i. -/
example (co : Const) (o : Optimum) : ∃ s, ({ demoArgs false with epsilon := some ⟨[], fun _ => I⟩, mu := ⟨[], fun _ => ((-1 : ℝ) : ℂ)⟩, electric := none } : Args 1).start co 1e-8 o = .ok ⟨1, s⟩ := by
  obtain ⟨s, h, -⟩ := C122_waves_scalar (co := co) (p := { demoArgs false with epsilon := some ⟨[], fun _ => I⟩, mu := ⟨[], fun _ => ((-1 : ℝ) : ℂ)⟩, electric := none })
    (m := ⟨fun _ => I • 1, fun _ => 0, fun _ => 0, fun _ => ((-1 : ℝ) : ℂ) • 1⟩) (S := fun _ _ => 1) (E0 := fun _ _ => 3)
    ⟨(demo_describes false 1 co).nonempty, ⟨_, _, rfl, constant_means 1 I, .inl ⟨rfl, rfl⟩⟩, rfl, (demo_describes false 1 co).xi, (demo_describes false 1 co).zeta, constant_means 1 _,
      (demo_describes false 1 co).source, (demo_describes false 1 co).sourceValue, (demo_describes false 1 co).initial, (demo_describes false 1 co).initialValue⟩
    rfl demo_step one_pos (fun _ => rfl) (fun _ => rfl) o (tol := 1e-8) (by norm_num) (r := 1) one_pos (fun _ => rfl) (epsilon := I) (by simp) (fun _ => rfl)
  exact ⟨s, h⟩

end Verif.Problem
