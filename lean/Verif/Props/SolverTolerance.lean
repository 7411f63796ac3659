import Verif.Lemmas.SolverTolerance
import Verif.Props.SolverExamples

/-!
# C87, C88: what is solved for media that are found not to be magnetic, and in scalar calculations

A medium is found not to be magnetic if its coupling tensors and the variation of its permeability are within the tolerance of `np.allclose` (solver.py 305–307).
-/

namespace Verif.Solver

open Verif Verif.Fourier Verif.Backend Complex Matrix
open Verif.Spec.Solver (NoGain Within WaveEquation ScalarWaveEquation negLaplacian)

variable {d n : ℕ} {N : Fin d → ℕ}

/-! ### C87 -/

/-- **C87.** For all media that are found not to be magnetic, whatever their coupling tensors and permeability, the equation that is solved is that for the permittivity `ε - ξ μ⁻¹ ζ`
and the uniform permeability `1 / β`. -/
theorem C87_equation (g : Grid.Obj d ℝ) (hs : ∀ a, g.step a ≠ 0) {k0 : ℝ} (hk0 : k0 ≠ 0) (hd : d ≤ 3) (m : Medium 3 g.shape) {alpha : ℂ} (hα : alpha.im ≠ 0)
    {beta : ℝ} (hβ : beta ≠ 0) (S F : Field 3 g.shape) :
    Preconditioned (.vectorial hd) (backendK g k0) (prepare m false alpha beta S F) ↔
      WaveEquation (kOf g) k0 (fun x => m.epsilon x - m.xi x * ((m.mu x)⁻¹ * m.zeta x)) (fun _ => (beta : ℂ)⁻¹ • 1) S
        (getE k0 (prepare m false alpha beta S F)) := by
  obtain ⟨a, b, c, e⟩ := prepare_effective m alpha beta S F
  have hE : getE k0 (prepare m false alpha beta S F) = getE k0 (prepare (m.effective beta) false alpha beta S F) := by rw [e]; rfl
  have heps : (fun x => m.epsilon x - m.xi x * ((m.mu x)⁻¹ * m.zeta x)) = m.epsilonPrime := by
    funext x
    unfold Medium.epsilonPrime Medium.chiHEBeta Medium.muInv
    rw [smul_smul, neg_mul, I_mul_I, neg_neg, one_smul]
  rw [hE, heps, e, preconditioned_withMagnetic _ _ (prepare (m.effective beta) false alpha beta S F) rfl]
  by_cases hne : Nonempty (Idx g.shape)
  · obtain ⟨hc, hr⟩ := effective_chosen m hβ 0 (Classical.choice hne)
    exact C32_wave_equation g hs hk0 hd (m.effective beta) (fun _ => rfl) (fun _ => rfl) hc hr hα S F
  · exact ⟨fun _ c x => absurd ⟨x⟩ hne, fun _ c x => absurd ⟨x⟩ hne⟩

/-- A property of the run of a state carries over to the state with other tensors that are not used. -/
theorem transfer (kind : Kind d n) (k : Fin d → Idx N → ℝ) (k0 : ℝ) {s : State n N} (h : s.magnetic = false) (a b c : Tensor n N) (E : Field n N)
    (P : Field n N → Prop) (i : ℕ)
    (hr : (∃ t, run kind k s i = .ok t ∧ P (getE k0 t)) ∨
      (run kind k s i = .error .zeroDivision ∧ ∃ j < i, ∃ t, run kind k s j = .ok t ∧ getE k0 t = E)) :
    (∃ t, run kind k (s.withMagnetic a b c) i = .ok t ∧ P (getE k0 t)) ∨
      (run kind k (s.withMagnetic a b c) i = .error .zeroDivision ∧ ∃ j < i, ∃ t, run kind k (s.withMagnetic a b c) j = .ok t ∧ getE k0 t = E) := by
  have key : ∀ i t, run kind k s i = .ok t → ∃ t', run kind k (s.withMagnetic a b c) i = .ok t' ∧ getE k0 t' = getE k0 t := fun i t ht => by
    rcases run_withMagnetic kind k s h a b c i with ⟨e, h1, -⟩ | ⟨t1, a', b', c', -, h1, h2⟩
    · rw [ht] at h1
      exact (nomatch h1)
    · rw [ht] at h1
      cases h1
      exact ⟨_, h2, rfl⟩
  rcases hr with ⟨t, ht, hP⟩ | ⟨he, j, hj, t, ht, hE⟩
  · obtain ⟨t', h1, h2⟩ := key i t ht
    exact .inl ⟨t', h1, by rw [h2]; exact hP⟩
  · obtain ⟨t', h1, h2⟩ := key j t ht
    refine .inr ⟨?_, j, hj, t', h1, by rw [h2]; exact hE⟩
    rcases run_withMagnetic kind k s h a b c i with ⟨e, h3, h4⟩ | ⟨t1, a', b', c', -, h3, -⟩
    · rw [he] at h3
      cases h3
      exact h4
    · rw [he] at h3
      exact (nomatch h3)

theorem ConvergesAtRate.withMagnetic {kind : Kind d n} {k : Fin d → Idx N → ℝ} {k0 : ℝ} {s : State n N} {E : Field n N} {q : ℝ}
    (hconv : ConvergesAtRate kind k k0 s E q) (h : s.magnetic = false) (a b c : Tensor n N) : ConvergesAtRate kind k k0 (s.withMagnetic a b c) E q := by
  obtain ⟨h0, h1, hstep, hrun⟩ := hconv
  have back : ∀ i t, run kind k (s.withMagnetic a b c) i = .ok t →
      ∃ t', run kind k s i = .ok t' ∧ t'.field = t.field ∧ t'.prevNorm = t.prevNorm ∧ getE k0 t' = getE k0 t := fun i t ht => by
    rcases run_withMagnetic kind k s h a b c i with ⟨e, -, h2⟩ | ⟨t1, a', b', c', -, h2, h3⟩
    · rw [ht] at h2
      exact (nomatch h2)
    · rw [ht] at h3
      cases h3
      exact ⟨t1, h2, rfl, rfl, rfl⟩
  refine ⟨h0, h1, fun i t t' ht ht' => ?_, fun i => ?_⟩
  · obtain ⟨u, hu, f1, -, f3⟩ := back i t ht
    obtain ⟨u', hu', g1, g2, g3⟩ := back (i + 1) t' ht'
    have := hstep i u u' hu hu'
    rw [f1, f3, g1, g2, g3] at this
    exact this
  · have h2 := transfer kind k k0 h a b c E (fun _ => True) i ((hrun i).imp_left fun ⟨t, ht⟩ => ⟨t, ht, trivial⟩)
    exact h2.imp_left fun ⟨t, ht, _⟩ => ⟨t, ht⟩

theorem ConvergesExponentially.withMagnetic {kind : Kind d n} {k : Fin d → Idx N → ℝ} {k0 : ℝ} {s : State n N} {E : Field n N}
    (hconv : ConvergesExponentially kind k k0 s E) (h : s.magnetic = false) (a b c : Tensor n N) : ConvergesExponentially kind k k0 (s.withMagnetic a b c) E := by
  obtain ⟨q, hq⟩ := hconv
  exact ⟨q, hq.withMagnetic h a b c⟩

section
variable {g : Grid.Obj d ℝ} (hs : ∀ a, g.step a ≠ 0) {k0 : ℝ} (hk0 : 0 < k0) (hd : d ≤ 3) {m : Medium 3 g.shape} (hxi : ∀ x, m.xi x = 0)
  (hzeta : ∀ x, m.zeta x = 0) (hgain : NoGain m.epsilon) (hmu : NoGain m.mu) {tol : ℝ} (htol : 0 ≤ tol) (thickness : List ℝ) (x0 : Idx g.shape)
  (hβ : 0 < ((m.mu x0)⁻¹ 0 0).re) (alphaR : ℝ)
include hs hk0 hxi hzeta hgain hmu htol hβ

/-- The medium that the calculation is for meets the assumptions of C34 and C35, for any bound on the deviation of the permittivity. -/
theorem tolerance_bound {s : ℝ} (hs0 : 0 ≤ s) (hw : Within (fun x => m.epsilon x - (((m.constantsNonMagnetic tol k0 thickness 0 x0 alphaR).1.re *
      (m.constantsNonMagnetic tol k0 thickness 0 x0 alphaR).2 : ℝ) : ℂ) • 1) s) : Passivity g k0 (m.effective (m.constantsNonMagnetic tol k0 thickness 0 x0 alphaR).2)
      (m.constantsNonMagnetic tol k0 thickness 0 x0 alphaR).1.re (m.constantsNonMagnetic tol k0 thickness 0 x0 alphaR).2 s := by
  set c := m.constantsNonMagnetic tol k0 thickness 0 x0 alphaR with hc
  have hbp : 0 < c.2 := hβ
  have heps : (m.effective c.2).epsilon = m.epsilon := by
    change m.epsilonPrime = m.epsilon
    exact epsilonPrime_eq hxi
  refine ⟨fun _ => rfl, fun _ => rfl, by rw [heps]; exact hgain, ?_, fun x => ?_, sigmaD g.step k0, s, 0, sigmaD_nonneg _ hk0, hs0, le_rfl, kOf_le g hs hk0, ?_, ?_, ?_⟩
  · intro x v
    change 0 ≤ (star v ⬝ᵥ ((c.2 : ℂ)⁻¹ • (1 : Matrix (Fin 3) (Fin 3) ℂ)).mulVec v).im
    rw [Matrix.smul_mulVec, Matrix.one_mulVec, dotProduct_smul, star_dot_self, smul_eq_mul, ← ofReal_inv, ← ofReal_mul, ofReal_im]
  · change IsUnit ((c.2 : ℂ)⁻¹ • (1 : Matrix (Fin 3) (Fin 3) ℂ)).det
    rw [Matrix.det_smul, Matrix.det_one, mul_one]
    exact isUnit_iff_ne_zero.2 (pow_ne_zero _ (inv_ne_zero (ofReal_ne hbp.ne')))
  · rw [heps]
    exact hw
  · intro x v
    have : ((m.effective c.2).mu x)⁻¹ - (c.2 : ℂ) • (1 : Matrix (Fin 3) (Fin 3) ℂ) = 0 := by
      rw [show ((m.effective c.2).mu x)⁻¹ = (m.effective c.2).muInv x from rfl, effective_muInv m hbp.ne', sub_self]
    simp only [this]; simp
  · simp

theorem tolerance_passivity : ∃ σ, Passivity g k0 (m.effective (m.constantsNonMagnetic tol k0 thickness 0 x0 alphaR).2)
      (m.constantsNonMagnetic tol k0 thickness 0 x0 alphaR).1.re (m.constantsNonMagnetic tol k0 thickness 0 x0 alphaR).2 σ ∧ 0 ≤ σ ∧
    σ < (m.constantsNonMagnetic tol k0 thickness 0 x0 alphaR).1.im * (m.constantsNonMagnetic tol k0 thickness 0 x0 alphaR).2 := by
  have hb : m.betaNonMagnetic 0 x0 ≠ 0 := hβ.ne'
  obtain ⟨s, hs0, hw, hlt⟩ := C36_bias m (not_transposed m htol hgain hxi hzeta hmu) k0 thickness 0 x0 hb alphaR
  have hbp : 0 < (m.constantsNonMagnetic tol k0 thickness 0 x0 alphaR).2 := hβ
  rw [abs_of_pos hbp] at hlt
  rw [epsilonPrime_eq hxi] at hw
  exact ⟨s, tolerance_bound hs hk0 hxi hzeta hgain hmu htol thickness x0 hβ alphaR hs0 hw, hs0, hlt⟩

/-- **C87 (convergence).** For the constants that the code selects for a medium that it finds not to be magnetic, whatever its permeability, without gain and with an inverse
permeability with positive real part at the first point: the iteration converges to a solution of the equation with the
permeability at the first point everywhere, if that has a solution. -/
theorem C87_converges (S F E0 : Field 3 g.shape) (hE0 : WaveEquation (kOf g) k0 m.epsilon (fun _ => (((m.mu x0)⁻¹ 0 0).re : ℂ)⁻¹ • 1) S E0) :
    ∃ E, WaveEquation (kOf g) k0 m.epsilon (fun _ => (((m.mu x0)⁻¹ 0 0).re : ℂ)⁻¹ • 1) S E ∧ ∀ δ : ℝ, 0 < δ → ∃ j0, ∀ i ≥ j0,
      (∃ t, run (.vectorial hd) (backendK g k0) (prepare m false (m.constantsNonMagnetic tol k0 thickness 0 x0 alphaR).1
          (m.constantsNonMagnetic tol k0 thickness 0 x0 alphaR).2 S F) i = .ok t ∧ Backend.norm (getE k0 t - E) < δ) ∨
      (run (.vectorial hd) (backendK g k0) (prepare m false (m.constantsNonMagnetic tol k0 thickness 0 x0 alphaR).1
          (m.constantsNonMagnetic tol k0 thickness 0 x0 alphaR).2 S F) i = .error .zeroDivision ∧
        ∃ j < i, ∃ t, run (.vectorial hd) (backendK g k0) (prepare m false (m.constantsNonMagnetic tol k0 thickness 0 x0 alphaR).1
          (m.constantsNonMagnetic tol k0 thickness 0 x0 alphaR).2 S F) j = .ok t ∧ getE k0 t = E) := by
  obtain ⟨σ, hP, h0, hσ⟩ := tolerance_passivity hs hk0 hxi hzeta hgain hmu htol thickness x0 hβ alphaR
  set c := m.constantsNonMagnetic tol k0 thickness 0 x0 alphaR with hc
  have hbp : 0 < c.2 := hβ
  have him : 0 < c.1.im := by
    by_contra hn
    push Not at hn
    have := mul_nonpos_of_nonpos_of_nonneg hn hbp.le
    linarith
  obtain ⟨hch, hr⟩ := effective_chosen m hbp.ne' 0 x0
  have heps : (m.effective c.2).epsilon = m.epsilon := by
    change m.epsilonPrime = m.epsilon
    exact epsilonPrime_eq hxi
  have hmu' : (m.effective c.2).mu = fun _ => (((m.mu x0)⁻¹ 0 0).re : ℂ)⁻¹ • 1 := rfl
  obtain ⟨E, hE, hconv⟩ := C35_converges hs hk0.ne' hd hP hch hr him hbp hσ S F E0 (by rw [heps, hmu']; exact hE0)
  rw [heps, hmu'] at hE
  refine ⟨E, hE, fun δ hδ => ?_⟩
  obtain ⟨j0, hj0⟩ := hconv δ hδ
  obtain ⟨a, b, t, e⟩ := prepare_effective m c.1 c.2 S F
  refine ⟨j0, fun i hi => ?_⟩
  rw [e]
  exact transfer (.vectorial hd) (backendK g k0) k0 (s := prepare (m.effective c.2) false c.1 c.2 S F) rfl a b t E
    (fun G => Backend.norm (G - E) < δ) i (hj0 i hi)

/-- **C87 (one rate).** If that equation without source only has the solution 0, it has exactly one solution for every source, and the error decreases exponentially, with the same rate for all
sources and initial fields. -/
theorem C87_rate (hu : ∀ E, WaveEquation (kOf g) k0 m.epsilon (fun _ => (((m.mu x0)⁻¹ 0 0).re : ℂ)⁻¹ • 1) 0 E → E = 0) : ∃ q : ℝ, ∀ S F : Field 3 g.shape,
    ∃ E, WaveEquation (kOf g) k0 m.epsilon (fun _ => (((m.mu x0)⁻¹ 0 0).re : ℂ)⁻¹ • 1) S E ∧
      ConvergesAtRate (.vectorial hd) (backendK g k0) k0 (prepare m false (m.constantsNonMagnetic tol k0 thickness 0 x0 alphaR).1
        (m.constantsNonMagnetic tol k0 thickness 0 x0 alphaR).2 S F) E q := by
  obtain ⟨σ, hP, h0, hσ⟩ := tolerance_passivity hs hk0 hxi hzeta hgain hmu htol thickness x0 hβ alphaR
  set c := m.constantsNonMagnetic tol k0 thickness 0 x0 alphaR with hc
  have hbp : 0 < c.2 := hβ
  have him : 0 < c.1.im := by
    by_contra hn
    push Not at hn
    have := mul_nonpos_of_nonpos_of_nonneg hn hbp.le
    linarith
  obtain ⟨hch, hr⟩ := effective_chosen m hbp.ne' 0 x0
  have heps : (m.effective c.2).epsilon = m.epsilon := by
    change m.epsilonPrime = m.epsilon
    exact epsilonPrime_eq hxi
  have hmu' : (m.effective c.2).mu = fun _ => (((m.mu x0)⁻¹ 0 0).re : ℂ)⁻¹ • 1 := rfl
  obtain ⟨q, hq⟩ := C35_uniform hs hk0.ne' hd hP hch hr him hbp hσ (fun E hE => hu E (by rw [heps, hmu'] at hE; exact hE))
  refine ⟨q, fun S F => ?_⟩
  obtain ⟨E, hE, hconv⟩ := hq S F
  rw [heps, hmu'] at hE
  obtain ⟨a, b, t, e⟩ := prepare_effective m c.1 c.2 S F
  refine ⟨E, hE, ?_⟩
  rw [e]
  exact hconv.withMagnetic rfl a b t

/-- **C87 (absorption).** Where the medium absorbs a little everywhere there is such a solution, it is the only one, and the error decreases exponentially. -/
theorem C87_absorbing {δ : ℝ} (hδ : 0 < δ) (habs : ∀ x (v : Fin 3 → ℂ), δ * ∑ i, ‖v i‖ ^ 2 ≤ (star v ⬝ᵥ (m.epsilon x).mulVec v).im) (S F : Field 3 g.shape) :
    ∃ E, WaveEquation (kOf g) k0 m.epsilon (fun _ => (((m.mu x0)⁻¹ 0 0).re : ℂ)⁻¹ • 1) S E ∧
      ConvergesExponentially (.vectorial hd) (backendK g k0) k0 (prepare m false (m.constantsNonMagnetic tol k0 thickness 0 x0 alphaR).1
        (m.constantsNonMagnetic tol k0 thickness 0 x0 alphaR).2 S F) E := by
  obtain ⟨σ, hP, -, -⟩ := tolerance_passivity hs hk0 hxi hzeta hgain hmu htol thickness x0 hβ alphaR
  have heps : (m.effective (m.constantsNonMagnetic tol k0 thickness 0 x0 alphaR).2).epsilon = m.epsilon := by
    change m.epsilonPrime = m.epsilon
    exact epsilonPrime_eq hxi
  obtain ⟨q, hq⟩ := C87_rate hs hk0 hd hxi hzeta hgain hmu htol thickness x0 hβ alphaR fun E hE =>
    absorbing hP hk0.ne' hδ (by rw [heps]; exact habs) E (by rw [heps]; exact hE)
  obtain ⟨E, hE, h⟩ := hq S F
  exact ⟨E, hE, q, h⟩

end

/-- What is missing from the wave equation for a given permeability. -/
noncomputable def defect (k : Fin d → Idx N → ℝ) (k0 : ℝ) (epsilon mu : Tensor 3 N) (S E : Field 3 N) : Field 3 N := fun c x =>
  Spec.Solver.curl k (Spec.Solver.act (fun x => (mu x)⁻¹) (Spec.Solver.curl k E)) c x - (k0 : ℂ) ^ 2 * Spec.Solver.act epsilon E c x - S c x

theorem kOf_bound (g : Grid.Obj d ℝ) (hs : ∀ a, g.step a ≠ 0) {k0 : ℝ} (hk0 : 0 < k0) (x : Idx g.shape) :
    k2 (kOf g) x ≤ (k0 * sigmaD g.step k0) ^ 2 := kOf_le g hs hk0 x

/-- **C87 (accuracy).** A solution for another uniform permeability solves the wave equation up to an error that is proportional to the difference
between the inverse permeabilities, and to the square of the largest wavenumber of the grid. -/
theorem C87_residual (g : Grid.Obj d ℝ) (hs : ∀ a, g.step a ≠ 0) {k0 : ℝ} (hk0 : 0 < k0) (hd : d ≤ 3) (epsilon mu : Tensor 3 g.shape) {beta r : ℝ} (hβ : beta ≠ 0)
    (hr : 0 ≤ r) (hw : Within (fun x => (mu x)⁻¹ - (beta : ℂ) • 1) r) (S E : Field 3 g.shape)
    (hE : WaveEquation (kOf g) k0 epsilon (fun _ => (beta : ℂ)⁻¹ • 1) S E) :
    Backend.norm (defect (kOf g) k0 epsilon mu S E) ≤ r * (k0 * sigmaD g.step k0) ^ 2 * Backend.norm E := by
  have hD : 0 ≤ k0 * sigmaD g.step k0 := mul_nonneg hk0.le (sigmaD_nonneg _ hk0)
  have e : defect (kOf g) k0 epsilon mu S E = curl 3 (kOf g) (mulField (fun x => (mu x)⁻¹ - (beta : ℂ) • 1) (curl 3 (kOf g) E)) := by
    have hL := curl_isLinear (n := 3) (m := 3) (kOf g)
    have hsub : mulField (fun x => (mu x)⁻¹ - (beta : ℂ) • 1) (curl 3 (kOf g) E) =
        mulField (fun x => (mu x)⁻¹) (curl 3 (kOf g) E) - mulField (fun _ => ((beta : ℂ)⁻¹ • (1 : Matrix (Fin 3) (Fin 3) ℂ))⁻¹) (curl 3 (kOf g) E) := by
      rw [mulField_sub_real, smul_one_inv (inv_ne_zero (ofReal_ne hβ)), inv_inv, mulField_smul_left, mulField_one]
    rw [hsub, hL.map_sub]
    funext c x
    have h := hE c x
    rw [spec_curl, spec_curl, spec_act, spec_act] at h
    simp only [defect, spec_curl, spec_act, Pi.sub_apply]
    rw [← h]
    ring
  rw [e]
  refine (norm_curl_le hd (kOf g) hD (kOf_bound g hs hk0) _).trans ?_
  refine (mul_le_mul_of_nonneg_left (norm_mulField_le _ hr hw _) hD).trans ?_
  refine (mul_le_mul_of_nonneg_left (mul_le_mul_of_nonneg_left (norm_curl_le hd (kOf g) hD (kOf_bound g hs hk0) E) hr) hD).trans (le_of_eq ?_)
  ring

theorem within_smul_one {v : Idx N → ℂ} {r : ℝ} (h : ∀ x, ‖v x‖ ≤ r) : Within (fun x => v x • (1 : Matrix (Fin n) (Fin n) ℂ)) r := by
  intro x w
  rw [Matrix.smul_mulVec, Matrix.one_mulVec, Finset.mul_sum]
  refine Finset.sum_le_sum fun i _ => ?_
  rw [Pi.smul_apply, smul_eq_mul, norm_mul, mul_pow]
  exact mul_le_mul_of_nonneg_right (pow_le_pow_left₀ (norm_nonneg _) (h x) 2) (sq_nonneg _)

/-- **C87 (tolerance).** The inverse of a permeability that is within the tolerance of a real number that is not very small differs by little from that of this number. -/
theorem C87_tolerance {v : Idx N → ℂ} {v0 : ℝ} (h0 : 0.01 ≤ v0) (h : ∀ x, ‖v x - (v0 : ℂ)‖ ≤ 1e-8 + 1e-5 * ‖(v0 : ℂ)‖) :
    Within (fun x => (v x • (1 : Matrix (Fin n) (Fin n) ℂ))⁻¹ - ((v0⁻¹ : ℝ) : ℂ) • 1) (1.2e-5 / v0) := by
  have hp : 0 < v0 := by linarith [show (0 : ℝ) < 0.01 by norm_num]
  have hv : ∀ x, v0 * (1 - 1.1e-5) ≤ ‖v x‖ := fun x => by
    have h1 := h x
    rw [norm_real, Real.norm_of_nonneg hp.le] at h1
    have h2 := norm_sub_norm_le (v0 : ℂ) (v x)
    rw [norm_real, Real.norm_of_nonneg hp.le, norm_sub_rev] at h2
    nlinarith
  have hne : ∀ x, v x ≠ 0 := fun x hx => by
    have h1 := hv x
    rw [hx, norm_zero] at h1
    nlinarith
  have e : (fun x => (v x • (1 : Matrix (Fin n) (Fin n) ℂ))⁻¹ - ((v0⁻¹ : ℝ) : ℂ) • 1) = fun x => ((v x)⁻¹ - ((v0⁻¹ : ℝ) : ℂ)) • (1 : Matrix (Fin n) (Fin n) ℂ) := by
    funext x
    rw [smul_one_inv (hne x), sub_smul]
  rw [e]
  refine within_smul_one fun x => ?_
  have hx := hne x
  have hv0 : (v0 : ℂ) ≠ 0 := ofReal_ne hp.ne'
  have e2 : (v x)⁻¹ - ((v0⁻¹ : ℝ) : ℂ) = ((v0 : ℂ) - v x) / (v x * v0) := by
    push_cast
    field_simp
  have h1 := h x
  rw [norm_real, Real.norm_of_nonneg hp.le, norm_sub_rev] at h1
  rw [e2, norm_div, norm_mul, norm_real, Real.norm_of_nonneg hp.le]
  have hvx := hv x
  have hpos : 0 < ‖v x‖ := norm_pos_iff.mpr hx
  rw [div_le_div_iff₀ (by positivity) hp]
  have h3 : ‖(v0 : ℂ) - v x‖ ≤ 1.1e-5 * v0 := by linarith
  nlinarith

/-! ### C88 -/

/-- **C88.** In scalar calculations, for all media, magnetic or not, with or without coupling, the equation that is solved is that for the permittivity `ε - ξ μ⁻¹ ζ` and the uniform
permeability `1 / β`: the permeability is only used to choose `β`. -/
theorem C88_equation (g : Grid.Obj d ℝ) (hs : ∀ a, g.step a ≠ 0) {k0 : ℝ} (hk0 : k0 ≠ 0) (m : Medium 1 g.shape) (mag : Bool) {alpha : ℂ} (hα : alpha.im ≠ 0)
    {beta : ℝ} (hβ : beta ≠ 0) (S F : Field 1 g.shape) :
    Preconditioned .scalar (backendK g k0) (prepare m mag alpha beta S F) ↔
      ScalarWaveEquation (kOf g) k0 (fun x => m.epsilon x 0 0 - m.xi x 0 0 * ((m.mu x 0 0)⁻¹ * m.zeta x 0 0)) (beta : ℂ)⁻¹ (S 0)
        (getE k0 (prepare m mag alpha beta S F) 0) := by
  have heff : Preconditioned .scalar (backendK g k0) (prepare m mag alpha beta S F) ↔
      Preconditioned .scalar (backendK g k0) (prepare (m.effective beta) false alpha beta S F) := by
    cases mag with
    | true =>
      rw [preconditioned_iff (backendK_origin g hs hk0) .scalar m true hα hβ S F (.inl rfl),
        preconditioned_iff (backendK_origin g hs hk0) .scalar (m.effective beta) false hα hβ S F (effective_consistent m false hβ)]
      simp only [waveOp, effective_epsilonPrime]
    | false =>
      obtain ⟨a, b, c, e⟩ := prepare_effective m alpha beta S F
      rw [e, preconditioned_withMagnetic _ _ (prepare (m.effective beta) false alpha beta S F) rfl]
  rw [heff]
  by_cases hne : Nonempty (Idx g.shape)
  · obtain ⟨hc, hr⟩ := effective_chosen m hβ 0 (Classical.choice hne)
    rw [C32_scalar g hs hk0 (m.effective beta) hc hr hα S F]
    have h1 : (m.effective beta).mu (Classical.choice hne) 0 0 = (beta : ℂ)⁻¹ := by
      change ((beta : ℂ)⁻¹ • (1 : Matrix (Fin 1) (Fin 1) ℂ)) 0 0 = _
      simp
    have h2 : (fun x => (m.effective beta).epsilon x 0 0) = fun x => m.epsilon x 0 0 - m.xi x 0 0 * ((m.mu x 0 0)⁻¹ * m.zeta x 0 0) := by
      funext x
      change m.epsilonPrime x 0 0 = _
      have hinv : (m.mu x)⁻¹ 0 0 = (m.mu x 0 0)⁻¹ := by
        rw [Matrix.inv_def, Matrix.adjugate_fin_one, Matrix.det_fin_one, Ring.inverse_eq_inv']
        simp
      unfold Medium.epsilonPrime Medium.chiHEBeta Medium.muInv
      rw [smul_smul, neg_mul, I_mul_I, neg_neg, one_smul]
      simp [Matrix.sub_apply, Matrix.mul_apply]
    rw [h1, h2]
    rfl
  · exact ⟨fun _ x => absurd ⟨x⟩ hne, fun _ c x => absurd ⟨x⟩ hne⟩

/-- **C88.** For a given `β`, the fields that the iteration leaves unchanged are the same for all permeabilities, when there is no coupling. -/
theorem C88_ignored (g : Grid.Obj d ℝ) (hs : ∀ a, g.step a ≠ 0) {k0 : ℝ} (hk0 : k0 ≠ 0) (m : Medium 1 g.shape) (hxi : ∀ x, m.xi x = 0) (mu : Tensor 1 g.shape)
    (mag mag' : Bool) {alpha : ℂ} (hα : alpha.im ≠ 0) {beta : ℝ} (hβ : beta ≠ 0) (S F : Field 1 g.shape) :
    Preconditioned .scalar (backendK g k0) (prepare m mag alpha beta S F) ↔
      Preconditioned .scalar (backendK g k0) (prepare { m with mu := mu } mag' alpha beta S F) := by
  rw [C88_equation g hs hk0 m mag hα hβ, C88_equation g hs hk0 { m with mu := mu } mag' hα hβ]
  have e : ∀ (m' : Medium 1 g.shape) mg, getE k0 (prepare m' mg alpha beta S F) 0 = fun x => F 0 x / (k0 ^ 2 : ℝ) := fun m' mg => by
    rw [getE_prepare]
  rw [e, e]
  simp only [hxi, Matrix.zero_apply, zero_mul, sub_zero]

end Verif.Solver
