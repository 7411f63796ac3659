import Verif.Lemmas.SolverConverge

/-!
# Properties C34 and C35: the error never grows, and the iteration converges

`Passivity` lists what is assumed of a material: no coupling between electric and magnetic fields, no gain at any point, for any polarization, and a
deviation from the reference medium of at most `σ`, which is that of the permittivity, plus `κ²` times that of the inverse permeability where `κ` is
the largest wavenumber on the grid.  The theorems hold for all grids, sources and fields, and for all biases that are at least as large as `σ`
(C36 is about the biases that the code selects).
-/

namespace Verif.Solver

open Verif Verif.Fourier Verif.Backend Complex
open Verif.Spec.Solver (NoGain Within WaveEquation ScalarWaveEquation)

variable {d : ℕ}

/-- Assumptions on a material for vectorial calculations. -/
structure Passivity (g : Grid.Obj d ℝ) (k0 : ℝ) (m : Medium 3 g.shape) (alphaR beta σ : ℝ) : Prop where
  xi : ∀ x, m.xi x = 0
  zeta : ∀ x, m.zeta x = 0
  epsilon : NoGain m.epsilon
  mu : NoGain m.mu
  invertible : ∀ x, IsUnit (m.mu x).det
  bound : ∃ κ sE sM : ℝ, 0 ≤ κ ∧ 0 ≤ sE ∧ 0 ≤ sM ∧ (∀ x, ∑ a, kOf g a x ^ 2 ≤ (k0 * κ) ^ 2) ∧
    Within (fun x => m.epsilon x - ((alphaR * beta : ℝ) : ℂ) • 1) sE ∧ Within (fun x => (m.mu x)⁻¹ - (beta : ℂ) • 1) sM ∧ sE + κ ^ 2 * sM ≤ σ

/-- Assumptions on a material for scalar calculations. -/
structure ScalarPassivity (g : Grid.Obj d ℝ) (m : Medium 1 g.shape) (alphaR beta σ : ℝ) : Prop where
  epsilon : ∀ x, 0 ≤ (m.epsilon x 0 0).im
  bound : ∀ x, ‖m.epsilon x 0 0 - (alphaR * beta : ℝ)‖ ≤ σ

theorem epsilonPrime_eq {n : ℕ} {N : Fin d → ℕ} {m : Medium n N} (h : ∀ x, m.xi x = 0) : m.epsilonPrime = m.epsilon := by
  funext x; simp [Medium.epsilonPrime, h]

section
variable {g : Grid.Obj d ℝ} (hs : ∀ a, g.step a ≠ 0) {k0 : ℝ} (hk0 : k0 ≠ 0) (hd : d ≤ 3) {m : Medium 3 g.shape} {alphaR beta σ : ℝ}
  (h : Passivity g k0 m alphaR beta σ)
include hs hk0 h

theorem Passivity.deviation_norm (F : Field 3 g.shape) :
    Backend.norm (deviation (backendK g k0) alphaR beta (.vectorial hd) m F) ≤ σ * Backend.norm F := by
  obtain ⟨κ, sE, sM, hκ, hE, hM, hk2, b1, b2, hσ⟩ := h.bound
  have z1 : m.chiEHBeta = fun _ => 0 := by funext x; simp [Medium.chiEHBeta, h.xi]
  have z2 : m.chiHEBeta = fun _ => 0 := by funext x; simp [Medium.chiHEBeta, h.zeta]
  have hz : Within (fun _ : Idx g.shape => (0 : Matrix (Fin 3) (Fin 3) ℂ)) 0 := by intro x v; simp
  have hk2' : ∀ x, k2 (backendK g k0) x ≤ κ ^ 2 := by
    intro x
    have := hk2 x
    simp only [C31_backend g hs hk0, mul_pow, ← Finset.mul_sum] at this
    exact le_of_mul_le_mul_left this (by positivity)
  have := deviation_norm_vectorial hd (backendK g k0) hκ hk2' m hE hM le_rfl le_rfl (alphaR := alphaR) (beta := beta)
    (by rw [epsilonPrime_eq h.xi]; exact b1) b2 (by rw [z1]; exact hz) (by rw [z2]; exact hz) F
  refine this.trans (mul_le_mul_of_nonneg_right ?_ (norm_nonneg' F))
  linarith

omit hs hk0 in
theorem Passivity.deviation_im (F : Field 3 g.shape) : 0 ≤ (dot F (deviation (backendK g k0) alphaR beta (.vectorial hd) m F)).im := by
  have z1 : m.chiEHBeta = fun _ => 0 := by funext x; simp [Medium.chiEHBeta, h.xi]
  have z2 : m.chiHEBeta = fun _ => 0 := by funext x; simp [Medium.chiHEBeta, h.zeta]
  rw [deviation_im_vectorial, z1, z2, epsilonPrime_eq h.xi]
  refine Finset.sum_nonneg fun x _ => ?_
  simp only [Matrix.zero_mulVec, dotProduct_zero, add_zero, sub_im]
  have h1 := h.epsilon x fun j => F j x
  have h2 := im_inv (m.mu x) (h.invertible x) (h.mu x) fun j => curl 3 (backendK g k0) F j x
  exact sub_nonneg.2 (h2.trans h1)

end

section
variable {g : Grid.Obj d ℝ} {k0 : ℝ} {m : Medium 1 g.shape} (hxi : ∀ x, m.xi x = 0) {alphaR beta σ : ℝ} (h : ScalarPassivity g m alphaR beta σ)
include hxi h

theorem ScalarPassivity.deviation_norm (F : Field 1 g.shape) :
    Backend.norm (deviation (backendK g k0) alphaR beta .scalar m F) ≤ σ * Backend.norm F := by
  rcases isEmpty_or_nonempty (Idx g.shape) with he | ⟨⟨x0⟩⟩
  · unfold Backend.norm; simp
  have hσ : 0 ≤ σ := (norm_nonneg _).trans (h.bound x0)
  simp only [deviation]
  refine norm_mulField_le _ hσ ?_ F
  intro x v
  simp only [epsilonPrime_eq hxi, Matrix.mulVec, dotProduct, Finset.univ_unique, Finset.sum_singleton, Fin.default_eq_zero, Matrix.sub_apply, Matrix.smul_apply,
    Matrix.one_apply_eq, smul_eq_mul, mul_one, norm_mul, mul_pow]
  have h1 := h.bound x
  have h2 : ‖m.epsilon x 0 0 - (alphaR * beta : ℝ)‖ ^ 2 ≤ σ ^ 2 := by
    have := norm_nonneg (m.epsilon x 0 0 - (alphaR * beta : ℝ))
    nlinarith
  exact mul_le_mul_of_nonneg_right h2 (sq_nonneg _)

theorem ScalarPassivity.deviation_im (F : Field 1 g.shape) : 0 ≤ (dot F (deviation (backendK g k0) alphaR beta .scalar m F)).im := by
  rw [deviation_im_scalar, epsilonPrime_eq hxi]
  refine Finset.sum_nonneg fun x _ => ?_
  simp only [Matrix.mulVec, dotProduct, Finset.univ_unique, Finset.sum_singleton, Fin.default_eq_zero, Pi.star_apply, RCLike.star_def]
  rw [mul_left_comm, ← Complex.normSq_eq_conj_mul_self, mul_comm, im_ofReal_mul]
  exact mul_nonneg (normSq_nonneg _) (h.epsilon x)

end

theorem getE_sub {n : ℕ} {N : Fin d → ℕ} {k0 : ℝ} (hk0 : k0 ≠ 0) (s : State n N) (E : Field n N) :
    s.field - ((k0 : ℂ) ^ 2) • E = ((k0 : ℂ) ^ 2) • (getE k0 s - E) := by
  rw [smul_sub, ← field_getE hk0]

theorem norm_getE_sub {n : ℕ} {N : Fin d → ℕ} {k0 : ℝ} (hk0 : k0 ≠ 0) (s : State n N) (E : Field n N) :
    Backend.norm (s.field - ((k0 : ℂ) ^ 2) • E) = k0 ^ 2 * Backend.norm (getE k0 s - E) := by
  rw [getE_sub hk0, norm_smul', norm_pow, norm_real, Real.norm_eq_abs, sq_abs]

/-- From the field as it is stored to the electric field. -/
theorem ContractsAtRate.electric {n : ℕ} {N : Fin d → ℕ} {kind : Kind d n} {k : Fin d → Idx N → ℝ} {k0 : ℝ} (hk0 : k0 ≠ 0) {s : State n N} {E : Field n N} {q : ℝ}
    (h : ContractsAtRate kind k s (((k0 : ℂ) ^ 2) • E) q) : ConvergesAtRate kind k k0 s E q := by
  have hpos : 0 < k0 ^ 2 := by positivity
  obtain ⟨h0, h1, hstep, hrun⟩ := h
  refine ⟨h0, h1, fun i t t' ht ht' => ?_, fun i => ?_⟩
  · obtain ⟨h2, h3⟩ := hstep i t t' ht ht'
    rw [norm_getE_sub hk0, norm_getE_sub hk0] at h2
    refine ⟨le_of_mul_le_mul_left ?_ hpos, h3⟩
    linarith
  · rcases hrun i with h2 | ⟨he, j, hj, t, ht, hf⟩
    · exact .inl h2
    · refine .inr ⟨he, j, hj, t, ht, ?_⟩
      rw [field_getE hk0] at hf
      exact smul_right_injective _ (pow_ne_zero 2 (ofReal_ne hk0)) hf

theorem ContractsTo.electric {n : ℕ} {N : Fin d → ℕ} {kind : Kind d n} {k : Fin d → Idx N → ℝ} {k0 : ℝ} (hk0 : k0 ≠ 0) {s : State n N} {E : Field n N}
    (h : ContractsTo kind k s (((k0 : ℂ) ^ 2) • E)) : ConvergesExponentially kind k k0 s E := by
  obtain ⟨q, hq⟩ := h
  exact ⟨q, hq.electric hk0⟩

/-- Where the medium absorbs a little everywhere, the wave equation without source only has the solution 0. -/
theorem absorbing_unique {g : Grid.Obj d ℝ} {m : Medium 3 g.shape} (hinv : ∀ x, IsUnit (m.mu x).det) (hmu : NoGain m.mu) {k0 : ℝ} (hk0 : k0 ≠ 0) {δ : ℝ} (hδ : 0 < δ)
    (habs : ∀ x (v : Fin 3 → ℂ), δ * ∑ i, ‖v i‖ ^ 2 ≤ (star v ⬝ᵥ (m.epsilon x).mulVec v).im) (E : Field 3 g.shape)
    (hE : WaveEquation (kOf g) k0 m.epsilon m.mu 0 E) : E = 0 := by
  have h0 : curl 3 (kOf g) (mulField m.muInv (curl 3 (kOf g) E)) - ((k0 : ℂ) ^ 2) • mulField m.epsilon E = 0 := by
    funext c x
    have := hE c x
    rw [spec_curl, spec_curl, spec_act, spec_act] at this
    exact this
  have h1 : (dot E (curl 3 (kOf g) (mulField m.muInv (curl 3 (kOf g) E)) - ((k0 : ℂ) ^ 2) • mulField m.epsilon E)).im = 0 := by
    rw [h0]; simp [dot]
  rw [dot_sub, curl_adjoint, dot_smul, dot_mulField, dot_mulField, sub_im, im_sum] at h1
  have h2 : ∑ x, (star (fun j => curl 3 (kOf g) E j x) ⬝ᵥ (m.muInv x).mulVec (fun j => curl 3 (kOf g) E j x)).im ≤ 0 :=
    Finset.sum_nonpos fun x _ => im_inv (m.mu x) (hinv x) (hmu x) _
  have h3 : δ * Backend.norm E ^ 2 ≤ (∑ x, star (fun j => E j x) ⬝ᵥ (m.epsilon x).mulVec (fun j => E j x)).im := by
    rw [norm_sq, Finset.sum_comm, Finset.mul_sum, im_sum]
    exact Finset.sum_le_sum fun x _ => habs x _
  rw [← ofReal_pow, im_ofReal_mul] at h1
  have hpos : 0 < k0 ^ 2 := by positivity
  have h4 : (∑ x, star (fun j => E j x) ⬝ᵥ (m.epsilon x).mulVec (fun j => E j x)).im ≤ 0 := by nlinarith
  have h5 : Backend.norm E ^ 2 ≤ 0 := by
    by_contra hne
    push Not at hne
    have := mul_pos hδ hne
    linarith
  exact (norm_eq_zero_iff E).1 (pow_eq_zero_iff two_ne_zero |>.1 (le_antisymm h5 (sq_nonneg _)))

section Vectorial
variable {g : Grid.Obj d ℝ} (hs : ∀ a, g.step a ≠ 0) {k0 : ℝ} (hk0 : k0 ≠ 0) (hd : d ≤ 3) {m : Medium 3 g.shape}
  {muScalar : Bool} {i0 : Fin 3} {x0 : Idx g.shape} {mag : Bool} {alpha : ℂ} {beta σ : ℝ} (hm : Passivity g k0 m alpha.re beta σ)
  (hc : Chosen m muScalar i0 x0 mag beta) (hr : RealPermeability m mag x0) (hα : 0 < alpha.im) (hβ : 0 < beta)
include hs hk0 hm hc hr hα hβ

/-- **C32 (nothing else is left unchanged).** If the bias is larger than the deviation of the medium, the change of the field in an
iteration is zero if and only if the field solves the wave equation. -/
theorem C32_update_zero_iff (hσ : σ < alpha.im * beta) (S F : Field 3 g.shape) :
    (∀ c x, update (.vectorial hd) (backendK g k0) (prepare m mag alpha beta S F) c x = 0) ↔
      WaveEquation (kOf g) k0 m.epsilon m.mu S (getE k0 (prepare m mag alpha beta S F)) := by
  rw [waveEquation_iff (C31_backend g hs hk0) hd m hm.xi hm.zeta beta, ← field_getE hk0]
  have := update_zero_iff (backendK_origin g hs hk0) (.vectorial hd) hα hβ (hc.consistent hr) (hm.deviation_norm hs hk0 hd) hσ S F
  rw [show (prepare m mag alpha beta S F).field = F from rfl, ← this]
  constructor
  · intro h; funext c x; exact h c x
  · intro h c x; exact congrFun (congrFun h c) x

/-- **C34 (updates).** The change of the field in the iteration that follows is not larger than the change in this one. -/
theorem C34_update (hσ : σ ≤ alpha.im * beta) (S F : Field 3 g.shape) :
    Backend.norm (update (.vectorial hd) (backendK g k0) (next (.vectorial hd) (backendK g k0) (prepare m mag alpha beta S F))) ≤
      Backend.norm (update (.vectorial hd) (backendK g k0) (prepare m mag alpha beta S F)) :=
  update_le (backendK_origin g hs hk0) _ hα hβ (hc.consistent hr) (hm.deviation_norm hs hk0 hd) (hm.deviation_im hd) hσ S F

/-- **C34 (errors).** In no execution of the iteration, with or without increases of the bias, does the distance to a solution `E` of the wave equation
increase, whatever the initial field. -/
theorem C34_error (hσ : σ ≤ alpha.im * beta) (S F E : Field 3 g.shape) (hE : WaveEquation (kOf g) k0 m.epsilon m.mu S E) (p : WithTop ℝ)
    (i : ℕ) {t t' : State 3 g.shape}
    (ht : run (.vectorial hd) (backendK g k0) { prepare m mag alpha beta S F with prevNorm := p } i = .ok t)
    (ht' : run (.vectorial hd) (backendK g k0) { prepare m mag alpha beta S F with prevNorm := p } (i + 1) = .ok t') :
    Backend.norm (getE k0 t' - E) ≤ Backend.norm (getE k0 t - E) := by
  have hof : ∀ (i : ℕ) t, run (.vectorial hd) (backendK g k0) { prepare m mag alpha beta S F with prevNorm := p } i = .ok t →
      Of m mag alpha beta S t := by
    intro i
    induction i with
    | zero =>
      intro t h
      simp only [run, Except.ok.injEq] at h
      subst h
      exact ⟨alpha, F, p, _, _, rfl, rfl, le_rfl⟩
    | succ i ih =>
      intro t h
      simp only [run] at h
      split at h
      · exact of_step hα _ _ (ih _ ‹_›) h
      · simp at h
  have hstep : step (.vectorial hd) (backendK g k0) t = .ok t' := by
    simpa only [run, ht] using ht'
  have hw := (waveEquation_iff (C31_backend g hs hk0) hd m hm.xi hm.zeta beta S E).1 hE
  have := error_le_step (backendK_origin g hs hk0) _ hβ (hc.consistent hr) hα (hm.deviation_norm hs hk0 hd) (hm.deviation_im hd) hσ S _ hw
    (hof i t ht) hstep
  rw [norm_getE_sub hk0, norm_getE_sub hk0] at this
  exact le_of_mul_le_mul_left this (by positivity)

/-- **C35 (one rate).** If the wave equation without source only has the solution 0, then the wave equation has exactly one solution, and the field
converges to it with a geometric rate, which is the same for all sources and initial fields.  The iteration never increases the bias, and only raises an exception after reaching
the solution exactly. -/
theorem C35_uniform (hσ : σ < alpha.im * beta) (hu : ∀ E, WaveEquation (kOf g) k0 m.epsilon m.mu 0 E → E = 0) : ∃ q : ℝ, ∀ S F : Field 3 g.shape,
    ∃ E, WaveEquation (kOf g) k0 m.epsilon m.mu S E ∧ ConvergesAtRate (.vectorial hd) (backendK g k0) k0 (prepare m mag alpha beta S F) E q := by
  have hk2 : ((k0 : ℂ) ^ 2) ≠ 0 := pow_ne_zero 2 (ofReal_ne hk0)
  have hw := fun S E => waveEquation_iff (C31_backend g hs hk0) hd m hm.xi hm.zeta beta S E
  obtain ⟨q, hq⟩ := converges_uniform (mag := mag) (backendK_origin g hs hk0) (.vectorial hd) hα hβ (hc.consistent hr) (hm.deviation_norm hs hk0 hd)
    (hm.deviation_im hd) hσ (fun F hF => by
      have := hu (((k0 : ℂ) ^ 2)⁻¹ • F) ((hw 0 _).2 (by rw [smul_smul, mul_inv_cancel₀ hk2, one_smul]; exact hF))
      exact (smul_eq_zero.1 this).resolve_left (inv_ne_zero hk2))
  refine ⟨q, fun S F => ?_⟩
  obtain ⟨P, hP, hq⟩ := hq S F
  have hPE : P = ((k0 : ℂ) ^ 2) • (((k0 : ℂ) ^ 2)⁻¹ • P) := by rw [smul_smul, mul_inv_cancel₀ hk2, one_smul]
  set E := ((k0 : ℂ) ^ 2)⁻¹ • P with hE
  exact ⟨E, (hw S E).2 (by rw [← hPE]; exact hP), (hPE ▸ hq).electric hk0⟩

/-- **C35 (unique solution).** If the wave equation without source only has the solution 0, then the wave equation has exactly one solution, and the field
converges to it with a geometric rate, from any initial field.  The iteration never increases the bias, and only raises an exception after reaching
the solution exactly. -/
theorem C35_unique (hσ : σ < alpha.im * beta) (hu : ∀ E, WaveEquation (kOf g) k0 m.epsilon m.mu 0 E → E = 0) (S F : Field 3 g.shape) :
    ∃ E, WaveEquation (kOf g) k0 m.epsilon m.mu S E ∧ ConvergesExponentially (.vectorial hd) (backendK g k0) k0 (prepare m mag alpha beta S F) E := by
  obtain ⟨q, hq⟩ := C35_uniform (mag := mag) hs hk0 hd hm hc hr hα hβ hσ hu
  obtain ⟨E, hE, h⟩ := hq S F
  exact ⟨E, hE, q, h⟩

/-- **C35 (any solution).** Whenever there is a solution, the field converges to a solution of the wave equation, from any initial field. -/
theorem C35_converges (hσ : σ < alpha.im * beta) (S F E0 : Field 3 g.shape) (hE0 : WaveEquation (kOf g) k0 m.epsilon m.mu S E0) :
    ∃ E, WaveEquation (kOf g) k0 m.epsilon m.mu S E ∧ ∀ δ : ℝ, 0 < δ → ∃ j0, ∀ i ≥ j0,
      (∃ t, run (.vectorial hd) (backendK g k0) (prepare m mag alpha beta S F) i = .ok t ∧ Backend.norm (getE k0 t - E) < δ) ∨
      (run (.vectorial hd) (backendK g k0) (prepare m mag alpha beta S F) i = .error .zeroDivision ∧
        ∃ j < i, ∃ t, run (.vectorial hd) (backendK g k0) (prepare m mag alpha beta S F) j = .ok t ∧ getE k0 t = E) := by
  have hk2 : ((k0 : ℂ) ^ 2) ≠ 0 := pow_ne_zero 2 (ofReal_ne hk0)
  have hw := fun S E => waveEquation_iff (C31_backend g hs hk0) hd m hm.xi hm.zeta beta S E
  obtain ⟨P, hP, hq⟩ := converges (backendK_origin g hs hk0) (.vectorial hd) hα hβ (hc.consistent hr) (hm.deviation_norm hs hk0 hd)
    (hm.deviation_im hd) hσ S F _ ((hw S E0).1 hE0)
  have hPE : P = ((k0 : ℂ) ^ 2) • (((k0 : ℂ) ^ 2)⁻¹ • P) := by rw [smul_smul, mul_inv_cancel₀ hk2, one_smul]
  set E := ((k0 : ℂ) ^ 2)⁻¹ • P with hE
  refine ⟨E, (hw S E).2 (by rw [← hPE]; exact hP), fun δ hδ => ?_⟩
  have hpos : 0 < k0 ^ 2 := by positivity
  obtain ⟨j0, hj0⟩ := hq (k0 ^ 2 * δ) (mul_pos hpos hδ)
  refine ⟨j0, fun i hi => ?_⟩
  rcases hj0 i hi with ⟨t, ht, hn⟩ | ⟨he, j, hj, t, ht, hf⟩
  · refine .inl ⟨t, ht, ?_⟩
    rw [hPE, norm_getE_sub hk0] at hn
    exact lt_of_mul_lt_mul_left hn hpos.le
  · refine .inr ⟨he, j, hj, t, ht, ?_⟩
    rw [field_getE hk0, hPE] at hf
    exact smul_right_injective _ hk2 hf

omit hs hk0 hc hr hα hβ in
/-- Where the medium absorbs a little everywhere, the wave equation without source only has the solution 0. -/
theorem absorbing (hk0 : k0 ≠ 0) {δ : ℝ} (hδ : 0 < δ)
    (habs : ∀ x (v : Fin 3 → ℂ), δ * ∑ i, ‖v i‖ ^ 2 ≤ (star v ⬝ᵥ (m.epsilon x).mulVec v).im) (E : Field 3 g.shape)
    (hE : WaveEquation (kOf g) k0 m.epsilon m.mu 0 E) : E = 0 :=
  absorbing_unique hm.invertible hm.mu hk0 hδ habs E hE

/-- **C35 (absorbing media).** Where the medium absorbs a little at all points the assumption of uniqueness is always met. -/
theorem C35_absorbing (hσ : σ < alpha.im * beta) {δ : ℝ} (hδ : 0 < δ)
    (habs : ∀ x (v : Fin 3 → ℂ), δ * ∑ i, ‖v i‖ ^ 2 ≤ (star v ⬝ᵥ (m.epsilon x).mulVec v).im) (S F : Field 3 g.shape) :
    ∃ E, WaveEquation (kOf g) k0 m.epsilon m.mu S E ∧ ConvergesExponentially (.vectorial hd) (backendK g k0) k0 (prepare m mag alpha beta S F) E :=
  C35_unique hs hk0 hd hm hc hr hα hβ hσ (fun E hE => absorbing hm hk0 hδ habs E hE) S F

end Vectorial

/-! ### Scalar calculations -/

section Scalar
variable {g : Grid.Obj d ℝ} (hs : ∀ a, g.step a ≠ 0) {k0 : ℝ} (hk0 : k0 ≠ 0) {m : Medium 1 g.shape}
  {muScalar : Bool} {x0 : Idx g.shape} {alpha : ℂ} {beta σ : ℝ} (hm : ScalarPassivity g m alpha.re beta σ)
  (hc : Chosen m muScalar 0 x0 false beta) (hr : RealPermeability m false x0) (hα : 0 < alpha.im) (hβ : 0 < beta)
include hs hk0 hc hr hα hβ

omit hβ in
theorem scalar_iff (S E : Field 1 g.shape) :
    ScalarWaveEquation (kOf g) k0 (fun x => m.epsilon x 0 0) (m.mu x0 0 0) (S 0) (E 0) ↔
      waveOp (backendK g k0) beta .scalar m (((k0 : ℂ) ^ 2) • E) = S := by
  have h1 := preconditioned_iff (backendK_origin g hs hk0) .scalar m false hα.ne' hc.beta_ne S (((k0 : ℂ) ^ 2) • E) (hc.consistent hr)
  have h2 := C32_scalar g hs hk0 m hc hr hα.ne' S (((k0 : ℂ) ^ 2) • E)
  rw [← h1, h2]
  have : getE k0 (prepare m false alpha beta S (((k0 : ℂ) ^ 2) • E)) = E := by
    have := field_getE hk0 (prepare m false alpha beta S (((k0 : ℂ) ^ 2) • E))
    exact (smul_right_injective _ (pow_ne_zero 2 (ofReal_ne hk0)) this).symm
  rw [this]

include hm

/-- **C34 (scalar, updates).** -/
theorem C34_scalar_update (hσ : σ ≤ alpha.im * beta) (S F : Field 1 g.shape) :
    Backend.norm (update .scalar (backendK g k0) (next .scalar (backendK g k0) (prepare m false alpha beta S F))) ≤
      Backend.norm (update .scalar (backendK g k0) (prepare m false alpha beta S F)) := by
  obtain ⟨hxi, -, -, -⟩ := hc.nonmagnetic rfl
  exact update_le (backendK_origin g hs hk0) _ hα hβ (hc.consistent hr) (hm.deviation_norm hxi) (hm.deviation_im hxi) hσ S F

/-- **C34 (scalar, errors).** -/
theorem C34_scalar_error (hσ : σ ≤ alpha.im * beta) (S F E : Field 1 g.shape)
    (hE : ScalarWaveEquation (kOf g) k0 (fun x => m.epsilon x 0 0) (m.mu x0 0 0) (S 0) (E 0)) :
    Backend.norm (getE k0 (next .scalar (backendK g k0) (prepare m false alpha beta S F)) - E) ≤
      Backend.norm (getE k0 (prepare m false alpha beta S F) - E) := by
  obtain ⟨hxi, -, -, -⟩ := hc.nonmagnetic rfl
  have := error_le (backendK_origin g hs hk0) _ hα hβ (hc.consistent hr) (hm.deviation_norm hxi) (hm.deviation_im hxi) hσ S F _
    ((scalar_iff hs hk0 hc hr hα S E).1 hE)
  have e := norm_getE_sub hk0 (prepare m false alpha beta S F) E
  rw [show (prepare m false alpha beta S F).field = F from rfl] at e
  rw [norm_getE_sub hk0, e] at this
  exact le_of_mul_le_mul_left this (by positivity)

/-- **C35 (scalar).** -/
theorem C35_scalar (hσ : σ < alpha.im * beta)
    (hu : ∀ E, ScalarWaveEquation (kOf g) k0 (fun x => m.epsilon x 0 0) (m.mu x0 0 0) 0 E → E = 0) (S F : Field 1 g.shape) :
    ∃ E : Field 1 g.shape, ScalarWaveEquation (kOf g) k0 (fun x => m.epsilon x 0 0) (m.mu x0 0 0) (S 0) (E 0) ∧
      ConvergesExponentially .scalar (backendK g k0) k0 (prepare m false alpha beta S F) E := by
  obtain ⟨hxi, -, -, -⟩ := hc.nonmagnetic rfl
  have hk2 : ((k0 : ℂ) ^ 2) ≠ 0 := pow_ne_zero 2 (ofReal_ne hk0)
  have hw := fun S E => scalar_iff hs hk0 hc hr hα S E
  obtain ⟨P, hP, hq⟩ := converges_unique (backendK_origin g hs hk0) .scalar hα hβ (hc.consistent hr) (hm.deviation_norm hxi)
    (hm.deviation_im hxi) hσ (fun F hF => by
      have := hu ((((k0 : ℂ) ^ 2)⁻¹ • F) 0) ((hw 0 _).2 (by rw [smul_smul, mul_inv_cancel₀ hk2, one_smul]; exact hF))
      have h2 : ((k0 : ℂ) ^ 2)⁻¹ • F = 0 := by
        funext c; rw [Fin.fin_one_eq_zero c]; exact this
      exact (smul_eq_zero.1 h2).resolve_left (inv_ne_zero hk2)) S F
  have hPE : P = ((k0 : ℂ) ^ 2) • (((k0 : ℂ) ^ 2)⁻¹ • P) := by rw [smul_smul, mul_inv_cancel₀ hk2, one_smul]
  set E := ((k0 : ℂ) ^ 2)⁻¹ • P with hE
  exact ⟨E, (hw S E).2 (by rw [← hPE]; exact hP), (hPE ▸ hq).electric hk0⟩

end Scalar

end Verif.Solver
