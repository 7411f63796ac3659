import Verif.Props.Problem
import Verif.Props.Bound

/-!
# C86: what the iteration converges to, from the arguments of the constructor
-/

namespace Verif.Problem

open Verif Verif.Fourier Verif.Backend Verif.Solver Verif.Construct Complex Matrix
open Verif.Assign (Arr toMatrixField full CanBroadcast broadcast InShape)
open Verif.Spec.Solver (NoGain Within WaveEquation ScalarWaveEquation)

variable {d n : ℕ}

/-- A little absorption everywhere. -/
def Absorbs {N : Fin d → ℕ} (epsilon : Tensor n N) : Prop :=
  ∃ δ : ℝ, 0 < δ ∧ ∀ x (v : Fin n → ℂ), δ * ∑ i, ‖v i‖ ^ 2 ≤ (star v ⬝ᵥ (epsilon x).mulVec v).im

theorem getE_initial {N : Fin d → ℕ} {k0 : ℝ} (hk0 : k0 ≠ 0) (m : Medium n N) (mag : Bool) (alpha : ℂ) (beta : ℝ) (S E : Solver.Field n N) :
    getE k0 (prepare m mag alpha beta S fun c x => E c x * ((k0 ^ 2 : ℝ) : ℂ)) = E := by
  rw [getE_prepare]
  funext c x
  exact mul_div_cancel_right₀ _ (ofReal_ne (pow_ne_zero 2 hk0))

/-! ### Vectorial calculations -/

section Vectorial
variable {co : Const} {p : Args d} {m : Medium 3 p.grid.shape} {S E0 : Solver.Field 3 p.grid.shape} (h : Describes co 3 p m S E0)
  (hvec : p.source.isVectorial (List.ofFn p.grid.shape) (p.currentFactor co) = true) (hd : d ≤ 3) (hs : ∀ a, p.grid.step a ≠ 0) (hk0 : 0 < p.frequency.k0 co.c)
  (hxi : ∀ x, m.xi x = 0) (hzeta : ∀ x, m.zeta x = 0) (hgain : NoGain m.epsilon) (hgainM : NoGain m.mu) (o : Optimum) (tol : ℝ)

include hxi hzeta in
/-- With a permeability in scalar form that is within the tolerance, the material is found not to be magnetic. -/
theorem not_magnetic (form : ScalarForm d p.mu) (hmu : ∀ x, ‖m.mu x 0 0 - m.mu (first h.nonempty) 0 0‖ ≤ 1e-8 + 1e-5 * ‖m.mu (first h.nonempty) 0 0‖) :
    foundMagnetic (toMatrixField d p.xi) (toMatrixField d p.zeta) (toMatrixField d p.mu) = false := by
  rw [C87_decision h form]
  refine ⟨fun x r c => ?_, fun x r c => ?_, hmu⟩
  · rw [hxi, Matrix.zero_apply, norm_zero]
    norm_num
  · rw [hzeta, Matrix.zero_apply, norm_zero]
    norm_num

include hvec in
theorem start_vectorial {s : State 3 p.grid.shape} (hc : p.construct co 3 tol o = .ok s) : p.start co tol o = .ok ⟨3, s⟩ := by
  rw [C86_components, if_pos hvec, hc]
  rfl

include h hvec hs hk0 hxi hzeta hgain hgainM

/-- **C86 (vectorial, as called).** For all arguments that describe a problem without gain, without coupling, and with a permeability in scalar form that is nearly uniform:
the constructor succeeds, the iteration starts with the initial field, and it converges to a solution of the wave equation for the permittivity with that of the boundary added and with the
permeability at the first point, if there is a solution. -/
theorem C86_dielectric (htol : 0 ≤ tol) (form : ScalarForm d p.mu)
    (hmu : ∀ x, ‖m.mu x 0 0 - m.mu (first h.nonempty) 0 0‖ ≤ 1e-8 + 1e-5 * ‖m.mu (first h.nonempty) 0 0‖)
    (hβ : 0 < ((m.mu (first h.nonempty))⁻¹ 0 0).re) (E1 : Solver.Field 3 p.grid.shape)
    (hE1 : WaveEquation (kOf p.grid) (p.frequency.k0 co.c) m.epsilon (fun _ => (((m.mu (first h.nonempty))⁻¹ 0 0).re : ℂ)⁻¹ • 1) S E1) :
    ∃ s E, p.start co tol o = .ok ⟨3, s⟩ ∧ getE (p.frequency.k0 co.c) s = E0 ∧
      WaveEquation (kOf p.grid) (p.frequency.k0 co.c) m.epsilon (fun _ => (((m.mu (first h.nonempty))⁻¹ 0 0).re : ℂ)⁻¹ • 1) S E ∧
      ConvergesTo (.vectorial hd) (backendK p.grid (p.frequency.k0 co.c)) (p.frequency.k0 co.c) s E := by
  have hc := C86_construct h tol o
  rw [not_magnetic h hxi hzeta form hmu, if_neg (by decide)] at hc
  obtain ⟨E, hE, hconv⟩ := C87_converges hs hk0 hd hxi hzeta hgain hgainM htol p.thickness (first h.nonempty) hβ o.alphaR S
    (fun c x => E0 c x * ((p.frequency.k0 co.c ^ 2 : ℝ) : ℂ)) E1 hE1
  exact ⟨_, E, start_vectorial hvec o tol hc, getE_initial hk0.ne' _ _ _ _ _ _, hE, hconv⟩

/-- **C86 (vectorial, no field without source).** If the equation only has the solution 0 without source, there is a unique solution for the source, and the error decreases exponentially. -/
theorem C86_unique (htol : 0 ≤ tol) (form : ScalarForm d p.mu)
    (hmu : ∀ x, ‖m.mu x 0 0 - m.mu (first h.nonempty) 0 0‖ ≤ 1e-8 + 1e-5 * ‖m.mu (first h.nonempty) 0 0‖)
    (hβ : 0 < ((m.mu (first h.nonempty))⁻¹ 0 0).re)
    (hu : ∀ E, WaveEquation (kOf p.grid) (p.frequency.k0 co.c) m.epsilon (fun _ => (((m.mu (first h.nonempty))⁻¹ 0 0).re : ℂ)⁻¹ • 1) 0 E → E = 0) :
    ∃ s E, p.start co tol o = .ok ⟨3, s⟩ ∧ getE (p.frequency.k0 co.c) s = E0 ∧
      WaveEquation (kOf p.grid) (p.frequency.k0 co.c) m.epsilon (fun _ => (((m.mu (first h.nonempty))⁻¹ 0 0).re : ℂ)⁻¹ • 1) S E ∧
      ConvergesExponentially (.vectorial hd) (backendK p.grid (p.frequency.k0 co.c)) (p.frequency.k0 co.c) s E := by
  have hc := C86_construct h tol o
  rw [not_magnetic h hxi hzeta form hmu, if_neg (by decide)] at hc
  obtain ⟨q, hq⟩ := C87_rate hs hk0 hd hxi hzeta hgain hgainM htol p.thickness (first h.nonempty) hβ o.alphaR hu
  obtain ⟨E, hE, hconv⟩ := hq S (fun c x => E0 c x * ((p.frequency.k0 co.c ^ 2 : ℝ) : ℂ))
  exact ⟨_, E, start_vectorial hvec o tol hc, getE_initial hk0.ne' _ _ _ _ _ _, hE, q, hconv⟩

/-- **C86 (vectorial, absorbing).** With a little absorption everywhere, there is a unique solution, and the error decreases exponentially. -/
theorem C86_absorbing (htol : 0 ≤ tol) (form : ScalarForm d p.mu)
    (hmu : ∀ x, ‖m.mu x 0 0 - m.mu (first h.nonempty) 0 0‖ ≤ 1e-8 + 1e-5 * ‖m.mu (first h.nonempty) 0 0‖)
    (hβ : 0 < ((m.mu (first h.nonempty))⁻¹ 0 0).re) (habs : Absorbs m.epsilon) :
    ∃ s E, p.start co tol o = .ok ⟨3, s⟩ ∧ getE (p.frequency.k0 co.c) s = E0 ∧
      WaveEquation (kOf p.grid) (p.frequency.k0 co.c) m.epsilon (fun _ => (((m.mu (first h.nonempty))⁻¹ 0 0).re : ℂ)⁻¹ • 1) S E ∧
      ConvergesExponentially (.vectorial hd) (backendK p.grid (p.frequency.k0 co.c)) (p.frequency.k0 co.c) s E := by
  have hc := C86_construct h tol o
  rw [not_magnetic h hxi hzeta form hmu, if_neg (by decide)] at hc
  obtain ⟨δ, hδ, habs⟩ := habs
  obtain ⟨E, hE, hconv⟩ := C87_absorbing hs hk0 hd hxi hzeta hgain hgainM htol p.thickness (first h.nonempty) hβ o.alphaR hδ habs S
    (fun c x => E0 c x * ((p.frequency.k0 co.c ^ 2 : ℝ) : ℂ))
  exact ⟨_, E, start_vectorial hvec o tol hc, getE_initial hk0.ne' _ _ _ _ _ _, hE, hconv⟩

/-- **C86 (vectorial, not magnetic).** In particular for a uniform and positive permeability: the limit is a solution of the wave equation that the arguments describe. -/
theorem C86_uniform (htol : 0 ≤ tol) (form : ScalarForm d p.mu) {r : ℝ} (hr : 0 < r) (hmu : ∀ x, m.mu x = (r : ℂ) • 1) (habs : Absorbs m.epsilon) :
    ∃ s E, p.start co tol o = .ok ⟨3, s⟩ ∧ getE (p.frequency.k0 co.c) s = E0 ∧ WaveEquation (kOf p.grid) (p.frequency.k0 co.c) m.epsilon m.mu S E ∧
      ConvergesExponentially (.vectorial hd) (backendK p.grid (p.frequency.k0 co.c)) (p.frequency.k0 co.c) s E := by
  have hinv : ((m.mu (first h.nonempty))⁻¹ 0 0).re = r⁻¹ := by
    rw [hmu, smul_one_inv (ofReal_ne hr.ne'), Matrix.smul_apply, Matrix.one_apply_eq, smul_eq_mul, mul_one, ← ofReal_inv, ofReal_re]
  have hmu' : m.mu = fun _ => (((m.mu (first h.nonempty))⁻¹ 0 0).re : ℂ)⁻¹ • (1 : Matrix (Fin 3) (Fin 3) ℂ) := by
    funext x
    rw [hmu x, hinv]
    push_cast
    rw [inv_inv]
  have := C86_absorbing h hvec hd hs hk0 hxi hzeta hgain hgainM o tol htol form (fun x => by
    rw [hmu, hmu, sub_self, norm_zero]; positivity) (by rw [hinv]; positivity) habs
  rw [← hmu'] at this
  exact this

/-- **C86 (vectorial, magnetic, no field without source).** For materials that are found to be magnetic, without coupling: the same, for the permeability that is given. -/
theorem C86_magnetic_unique (hmag : foundMagnetic (toMatrixField d p.xi) (toMatrixField d p.zeta) (toMatrixField d p.mu) = true) (hinv : ∀ x, IsUnit (m.mu x).det)
    (hv : o.vec.2 ≠ 0) (hu : ∀ E, WaveEquation (kOf p.grid) (p.frequency.k0 co.c) m.epsilon m.mu 0 E → E = 0) :
    ∃ s E, p.start co tol o = .ok ⟨3, s⟩ ∧ getE (p.frequency.k0 co.c) s = E0 ∧ WaveEquation (kOf p.grid) (p.frequency.k0 co.c) m.epsilon m.mu S E ∧
      ConvergesExponentially (.vectorial hd) (backendK p.grid (p.frequency.k0 co.c)) (p.frequency.k0 co.c) s E := by
  have hc := C86_construct h tol o
  rw [hmag, if_pos rfl] at hc
  obtain ⟨σ, hP, h0, hσ⟩ := magnetic_passivity hs hk0 hxi hzeta hgain hgainM hinv p.thickness hv
  set c := m.constantsMagnetic p.grid.step (p.frequency.k0 co.c) p.thickness o.vec with hcc
  have hbp : 0 < c.2 := by
    change 0 < o.vec.2 ^ 2
    positivity
  have him : 0 < c.1.im := by
    by_contra hn
    push Not at hn
    have := mul_nonpos_of_nonpos_of_nonneg hn hbp.le
    linarith
  have hch : Chosen m false 0 (first h.nonempty) true c.2 := ⟨by unfold Medium.isMagnetic; simp, (nomatch ·), hbp.ne'⟩
  obtain ⟨E, hE, hconv⟩ := C35_unique hs hk0.ne' hd hP hch (nomatch ·) him hbp hσ hu S (fun c x => E0 c x * ((p.frequency.k0 co.c ^ 2 : ℝ) : ℂ))
  exact ⟨_, E, start_vectorial hvec o tol hc, getE_initial hk0.ne' _ _ _ _ _ _, hE, hconv⟩

/-- **C86 (vectorial, magnetic).** In particular with a little absorption everywhere. -/
theorem C86_magnetic (hmag : foundMagnetic (toMatrixField d p.xi) (toMatrixField d p.zeta) (toMatrixField d p.mu) = true) (hinv : ∀ x, IsUnit (m.mu x).det)
    (hv : o.vec.2 ≠ 0) (habs : Absorbs m.epsilon) :
    ∃ s E, p.start co tol o = .ok ⟨3, s⟩ ∧ getE (p.frequency.k0 co.c) s = E0 ∧ WaveEquation (kOf p.grid) (p.frequency.k0 co.c) m.epsilon m.mu S E ∧
      ConvergesExponentially (.vectorial hd) (backendK p.grid (p.frequency.k0 co.c)) (p.frequency.k0 co.c) s E := by
  obtain ⟨σ, hP, -, -⟩ := magnetic_passivity hs hk0 hxi hzeta hgain hgainM hinv p.thickness hv
  obtain ⟨δ, hδ, habs⟩ := habs
  exact C86_magnetic_unique h hvec hd hs hk0 hxi hzeta hgain hgainM o tol hmag hinv hv (fun E hE => absorbing hP hk0.ne' hδ habs E hE)

end Vectorial

/-! ### Scalar calculations -/

theorem within_one {N : Fin d → ℕ} {A : Tensor 1 N} {r : ℝ} (hr : 0 ≤ r) (h : Within A r) (x : Idx N) : ‖A x 0 0‖ ≤ r := by
  have h1 := h x 1
  simp only [Finset.univ_unique, Finset.sum_singleton, Fin.default_eq_zero, Matrix.mulVec, dotProduct, Pi.one_apply, mul_one, norm_one, one_pow] at h1
  exact le_of_sq_le_sq h1 hr

section Scalar
variable {co : Const} {p : Args d} {m : Medium 1 p.grid.shape} {S E0 : Solver.Field 1 p.grid.shape} (h : Describes co 1 p m S E0)
  (hvec : p.source.isVectorial (List.ofFn p.grid.shape) (p.currentFactor co) = false) (hs : ∀ a, p.grid.step a ≠ 0) (hk0 : 0 < p.frequency.k0 co.c)
  (hxi : ∀ x, m.xi x = 0) (hzeta : ∀ x, m.zeta x = 0) (hgain : ∀ x, 0 ≤ (m.epsilon x 0 0).im) (habs : ∀ x, 0 < (m.epsilon x 0 0).im) (o : Optimum) (tol : ℝ)

include hvec in
theorem start_scalar {s : State 1 p.grid.shape} (hc : p.construct co 1 tol o = .ok s) : p.start co tol o = .ok ⟨1, s⟩ := by
  rw [C86_components, if_neg (by rw [hvec]; decide), hc]
  rfl

include hxi in
theorem scalarEpsilon_eq : m.scalarEpsilon = fun x => m.epsilon x 0 0 := by
  funext x
  unfold Medium.scalarEpsilon
  rw [hxi, Matrix.zero_apply, zero_mul, sub_zero]

theorem noGain_one {N : Fin d → ℕ} {A : Tensor 1 N} (h : ∀ x, 0 ≤ (A x 0 0).im) : NoGain A := by
  intro x v
  simp only [Finset.univ_unique, Finset.sum_singleton, Fin.default_eq_zero, Matrix.mulVec, dotProduct, Pi.star_apply, RCLike.star_def]
  rw [mul_left_comm, ← Complex.normSq_eq_conj_mul_self, mul_comm, im_ofReal_mul]
  exact mul_nonneg (normSq_nonneg _) (h x)

section NotMagnetic
variable (hgainM : ∀ x, 0 ≤ (m.mu x 0 0).im) (htol : 0 ≤ tol)
  (hmu : ∀ x, ‖m.mu x 0 0 - m.mu (first h.nonempty) 0 0‖ ≤ 1e-8 + 1e-5 * ‖m.mu (first h.nonempty) 0 0‖) (hβ : 0 < ((m.mu (first h.nonempty) 0 0)⁻¹).re)
include h hvec hk0 hxi hzeta hgain hgainM htol hmu hβ

omit hk0 in
/-- The state that is constructed, and its constants. -/
theorem scalar_constants : ∃ (alpha : ℂ) (beta σ : ℝ),
    p.start co tol o = .ok ⟨1, prepare m false alpha beta S fun c x => E0 c x * ((p.frequency.k0 co.c ^ 2 : ℝ) : ℂ)⟩ ∧ beta = ((m.mu (first h.nonempty) 0 0)⁻¹).re ∧ 0 < beta ∧
      0 < alpha.im ∧ σ < alpha.im * beta ∧ ∀ x, ‖m.scalarEpsilon x - (alpha.re * beta : ℝ)‖ ≤ σ := by
  have form : ScalarForm d p.mu := by
    cases h.mu with
    | scalar form => exact form
    | tensor form => exact tensorForm_one form
  have hc := C86_construct h tol o
  have hnot : foundMagnetic (toMatrixField d p.xi) (toMatrixField d p.zeta) (toMatrixField d p.mu) = false := by
    rw [C87_decision h form]
    refine ⟨fun x r c => ?_, fun x r c => ?_, hmu⟩
    · rw [hxi, Matrix.zero_apply, norm_zero]
      norm_num
    · rw [hzeta, Matrix.zero_apply, norm_zero]
      norm_num
  rw [hnot, if_neg (by decide)] at hc
  have hinv : (m.mu (first h.nonempty))⁻¹ 0 0 = (m.mu (first h.nonempty) 0 0)⁻¹ := by
    rw [Matrix.inv_def, Matrix.adjugate_fin_one, Matrix.det_fin_one, Ring.inverse_eq_inv']
    simp
  have hb : m.betaNonMagnetic 0 (first h.nonempty) = ((m.mu (first h.nonempty) 0 0)⁻¹).re := by
    unfold Medium.betaNonMagnetic Medium.muInv
    rw [hinv]
  obtain ⟨σ, hσ0, hw, hσ⟩ := C36_bias m (not_transposed m htol (noGain_one hgain) hxi hzeta (noGain_one hgainM)) (p.frequency.k0 co.c) p.thickness 0
    (first h.nonempty) (by rw [hb]; exact hβ.ne') o.alphaR
  set c := m.constantsNonMagnetic tol (p.frequency.k0 co.c) p.thickness 0 (first h.nonempty) o.alphaR with hcc
  have hc2 : c.2 = ((m.mu (first h.nonempty) 0 0)⁻¹).re := hb
  have hbp : 0 < c.2 := by rw [hc2]; exact hβ
  rw [abs_of_pos hbp] at hσ
  have him : 0 < c.1.im := by
    by_contra hn
    push Not at hn
    have := mul_nonpos_of_nonpos_of_nonneg hn hbp.le
    linarith
  have hbound : ∀ x, ‖m.scalarEpsilon x - (c.1.re * c.2 : ℝ)‖ ≤ σ := fun x => by
    have h1 := within_one hσ0 hw x
    rw [Matrix.sub_apply, Matrix.smul_apply, Matrix.one_apply_eq, smul_eq_mul, mul_one, epsilonPrime_one] at h1
    exact h1
  exact ⟨c.1, c.2, σ, start_scalar hvec o tol hc, hc2, hbp, him, hσ, hbound⟩

include hs

/-- **C86 (scalar, as called).** For all arguments that describe a scalar problem without gain and coupling, and with a permeability that is nearly uniform: the constructor succeeds, the iteration starts with
the initial field, and it converges to a solution of the scalar wave equation with the permeability at the first point, if there is a solution. -/
theorem C86_scalar_dielectric (E1 : Idx p.grid.shape → ℂ)
    (hE1 : ScalarWaveEquation (kOf p.grid) (p.frequency.k0 co.c) (fun x => m.epsilon x 0 0) (((m.mu (first h.nonempty) 0 0)⁻¹).re : ℂ)⁻¹ (S 0) E1) :
    ∃ s E, p.start co tol o = .ok ⟨1, s⟩ ∧ getE (p.frequency.k0 co.c) s = E0 ∧
      ScalarWaveEquation (kOf p.grid) (p.frequency.k0 co.c) (fun x => m.epsilon x 0 0) (((m.mu (first h.nonempty) 0 0)⁻¹).re : ℂ)⁻¹ (S 0) (E 0) ∧
      ConvergesTo .scalar (backendK p.grid (p.frequency.k0 co.c)) (p.frequency.k0 co.c) s E := by
  obtain ⟨alpha, beta, σ, hst, hb, hbp, him, hσ, hbound⟩ := scalar_constants h hvec hxi hzeta hgain o tol hgainM htol hmu hβ
  obtain ⟨E, hE, hconv⟩ := C88_converges hs hk0.ne' (first h.nonempty) (mag := false) (by rw [scalarEpsilon_eq hxi]; exact hgain) hbound him hbp hσ S
    (fun c x => E0 c x * ((p.frequency.k0 co.c ^ 2 : ℝ) : ℂ)) E1 (by rw [scalarEpsilon_eq hxi, hb]; exact hE1)
  rw [scalarEpsilon_eq hxi, hb] at hE
  exact ⟨_, E, hst, getE_initial hk0.ne' _ _ _ _ _ _, hE, hconv⟩

/-- **C86 (scalar, no field without source).** If the equation only has the solution 0 without source, there is a unique solution for the source, and the error decreases exponentially. -/
theorem C86_scalar_unique
    (hu : ∀ E, ScalarWaveEquation (kOf p.grid) (p.frequency.k0 co.c) (fun x => m.epsilon x 0 0) (((m.mu (first h.nonempty) 0 0)⁻¹).re : ℂ)⁻¹ 0 E → E = 0) :
    ∃ s E, p.start co tol o = .ok ⟨1, s⟩ ∧ getE (p.frequency.k0 co.c) s = E0 ∧
      ScalarWaveEquation (kOf p.grid) (p.frequency.k0 co.c) (fun x => m.epsilon x 0 0) (((m.mu (first h.nonempty) 0 0)⁻¹).re : ℂ)⁻¹ (S 0) (E 0) ∧
      ConvergesExponentially .scalar (backendK p.grid (p.frequency.k0 co.c)) (p.frequency.k0 co.c) s E := by
  obtain ⟨alpha, beta, σ, hst, hb, hbp, him, hσ, hbound⟩ := scalar_constants h hvec hxi hzeta hgain o tol hgainM htol hmu hβ
  obtain ⟨E, hE, hconv⟩ := C88_unique hs hk0.ne' (first h.nonempty) (mag := false) (by rw [scalarEpsilon_eq hxi]; exact hgain) hbound him hbp hσ
    (fun E hE => hu E (by rw [scalarEpsilon_eq hxi, hb] at hE; exact hE)) S (fun c x => E0 c x * ((p.frequency.k0 co.c ^ 2 : ℝ) : ℂ))
  rw [scalarEpsilon_eq hxi, hb] at hE
  exact ⟨_, E, hst, getE_initial hk0.ne' _ _ _ _ _ _, hE, hconv⟩

end NotMagnetic

include h hvec hs hk0 hxi hzeta habs

/-- **C86 (scalar, absorbing).** For all arguments that describe a scalar problem with a little absorption everywhere, without gain in the permeability and without coupling:
the constructor succeeds, the iteration starts with the initial field, and it converges to the solution of the scalar wave equation with the permeability at the first point, if it is nearly uniform. -/
theorem C86_scalar (hgainM : ∀ x, 0 ≤ (m.mu x 0 0).im) (htol : 0 ≤ tol)
    (hmu : ∀ x, ‖m.mu x 0 0 - m.mu (first h.nonempty) 0 0‖ ≤ 1e-8 + 1e-5 * ‖m.mu (first h.nonempty) 0 0‖)
    (hβ : 0 < ((m.mu (first h.nonempty) 0 0)⁻¹).re) :
    ∃ s E, p.start co tol o = .ok ⟨1, s⟩ ∧ getE (p.frequency.k0 co.c) s = E0 ∧
      ScalarWaveEquation (kOf p.grid) (p.frequency.k0 co.c) (fun x => m.epsilon x 0 0) (((m.mu (first h.nonempty) 0 0)⁻¹).re : ℂ)⁻¹ (S 0) (E 0) ∧
      ConvergesExponentially .scalar (backendK p.grid (p.frequency.k0 co.c)) (p.frequency.k0 co.c) s E := by
  refine C86_scalar_unique h hvec hs hk0 hxi hzeta (fun x => (habs x).le) o tol hgainM htol hmu hβ fun E hE => ?_
  exact scalar_absorbing p.grid hk0.ne' _ _ habs E hE

/-- **C86 (scalar, magnetic).** If the permeability is not nearly uniform, the calculation converges too, but to the solution for the uniform permeability `1 / β` that the optimization has chosen. -/
theorem C86_scalar_magnetic (hmag : foundMagnetic (toMatrixField d p.xi) (toMatrixField d p.zeta) (toMatrixField d p.mu) = true) (hv : o.vec.2 ≠ 0) :
    ∃ s E, p.start co tol o = .ok ⟨1, s⟩ ∧ getE (p.frequency.k0 co.c) s = E0 ∧
      ScalarWaveEquation (kOf p.grid) (p.frequency.k0 co.c) (fun x => m.epsilon x 0 0) ((o.vec.2 ^ 2 : ℝ) : ℂ)⁻¹ (S 0) (E 0) ∧
      ConvergesExponentially .scalar (backendK p.grid (p.frequency.k0 co.c)) (p.frequency.k0 co.c) s E := by
  have hc := C86_construct h tol o
  rw [hmag, if_pos rfl] at hc
  obtain ⟨sE, sM, sEH, sHE, h1, h2, h3, h4, w1, -, -, -, hlt⟩ := C36_bias_magnetic m p.grid.step (p.frequency.k0 co.c) p.thickness o.vec hv
  set c := m.constantsMagnetic p.grid.step (p.frequency.k0 co.c) p.thickness o.vec with hcc
  have hc2 : c.2 = o.vec.2 ^ 2 := rfl
  have hbp : 0 < c.2 := by
    rw [hc2]
    positivity
  have hσ : sE < c.1.im * c.2 := by
    have hD := sigmaD_nonneg p.grid.step hk0
    have : 0 ≤ sigmaD p.grid.step (p.frequency.k0 co.c) ^ 2 * sM + sigmaD p.grid.step (p.frequency.k0 co.c) * (sEH + sHE) := by positivity
    linarith
  have him : 0 < c.1.im := by
    by_contra hn
    push Not at hn
    have := mul_nonpos_of_nonpos_of_nonneg hn hbp.le
    linarith
  have hbound : ∀ x, ‖m.scalarEpsilon x - (c.1.re * c.2 : ℝ)‖ ≤ sE := fun x => by
    have h1 := within_one h1 w1 x
    rw [Matrix.sub_apply, Matrix.smul_apply, Matrix.one_apply_eq, smul_eq_mul, mul_one, epsilonPrime_one] at h1
    exact h1
  obtain ⟨E, hE, hconv⟩ := C88_absorbing hs hk0.ne' (first h.nonempty) (mag := true) (by rw [scalarEpsilon_eq hxi]; exact habs) hbound him hbp hσ S
    (fun c x => E0 c x * ((p.frequency.k0 co.c ^ 2 : ℝ) : ℂ))
  rw [scalarEpsilon_eq hxi, hc2] at hE
  exact ⟨_, E, start_scalar hvec o tol hc, getE_initial hk0.ne' _ _ _ _ _ _, hE, hconv⟩

end Scalar

/-! ### Absorbing boundaries -/

/-- **C86 (boundaries).** An absorbing boundary (C22) never adds gain to a material without gain: the assumption of the theorems above is met. -/
theorem C86_boundary {N : Fin d → ℕ} {b : Bound.Absorbing d ℝ} (hg : Bound.Plain b.grid) (background : ℂ) (M : Tensor n N) (hM : NoGain M) (X : Idx N → ℂ)
    (hX : ∀ x, ∃ point kappa, Bound.OnGrid b.grid point ∧ Bound.extinction b point = .ok kappa ∧ X x = Bound.susceptibility background kappa) :
    NoGain fun x => M x + X x • (1 : Matrix (Fin n) (Fin n) ℂ) := by
  intro x v
  obtain ⟨point, kappa, h1, h2, h3⟩ := hX x
  obtain ⟨kappa', h4, h5, -⟩ := Bound.C22_bound hg h1 background
  rw [h2] at h4
  cases h4
  rw [Matrix.add_mulVec, dotProduct_add, add_im, Matrix.smul_mulVec, Matrix.one_mulVec, dotProduct_smul, star_dot_self, smul_eq_mul, mul_comm, im_ofReal_mul]
  refine add_nonneg (hM x v) (mul_nonneg (Finset.sum_nonneg fun i _ => sq_nonneg _) ?_)
  rw [h3]
  exact h5

end Verif.Problem
