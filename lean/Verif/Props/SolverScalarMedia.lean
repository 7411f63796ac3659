import Verif.Props.SolverTolerance
import Verif.Props.SolverEnergy

/-!
# C88: the convergence of scalar calculations, for all materials without gain
-/

namespace Verif.Solver

open Verif Verif.Fourier Verif.Backend Complex Matrix
open Verif.Spec.Solver (NoGain Within WaveEquation ScalarWaveEquation negLaplacian)

variable {d n : ℕ}

/-- The permittivity that a scalar calculation uses. -/
noncomputable def Medium.scalarEpsilon {N : Fin d → ℕ} (m : Medium 1 N) (x : Idx N) : ℂ := m.epsilon x 0 0 - m.xi x 0 0 * ((m.mu x 0 0)⁻¹ * m.zeta x 0 0)

theorem epsilonPrime_one {N : Fin d → ℕ} (m : Medium 1 N) (x : Idx N) : m.epsilonPrime x 0 0 = m.scalarEpsilon x := by
  have hinv : (m.mu x)⁻¹ 0 0 = (m.mu x 0 0)⁻¹ := by
    rw [Matrix.inv_def, Matrix.adjugate_fin_one, Matrix.det_fin_one, Ring.inverse_eq_inv']
    simp
  unfold Medium.epsilonPrime Medium.chiHEBeta Medium.muInv Medium.scalarEpsilon
  rw [smul_smul, neg_mul, I_mul_I, neg_neg, one_smul]
  simp [Matrix.sub_apply, Matrix.mul_apply]

section
variable {g : Grid.Obj d ℝ} (hs : ∀ a, g.step a ≠ 0) {k0 : ℝ} (hk0 : k0 ≠ 0) {m : Medium 1 g.shape} (x0 : Idx g.shape) {mag : Bool} {alpha : ℂ} {beta σ : ℝ}
  (hgain : ∀ x, 0 ≤ (m.scalarEpsilon x).im) (hb : ∀ x, ‖m.scalarEpsilon x - (alpha.re * beta : ℝ)‖ ≤ σ) (hα : 0 < alpha.im) (hβ : 0 < beta)

include hs hk0 x0 hα hβ in
theorem scalar_iff_all (S E : Field 1 g.shape) :
    ScalarWaveEquation (kOf g) k0 m.scalarEpsilon (beta : ℂ)⁻¹ (S 0) (E 0) ↔ waveOp (backendK g k0) beta .scalar m (((k0 : ℂ) ^ 2) • E) = S := by
  obtain ⟨hc, hr⟩ := effective_chosen m hβ.ne' 0 x0
  have h := scalar_iff hs hk0 hc hr hα S E
  have h1 : (m.effective beta).mu x0 0 0 = (beta : ℂ)⁻¹ := by
    change ((beta : ℂ)⁻¹ • (1 : Matrix (Fin 1) (Fin 1) ℂ)) 0 0 = _
    simp
  have h2 : (fun x => (m.effective beta).epsilon x 0 0) = m.scalarEpsilon := by
    funext x
    exact epsilonPrime_one m x
  rw [h1, h2] at h
  rw [h]
  simp only [waveOp, effective_epsilonPrime]

include hgain hb in
theorem scalar_passivity : ScalarPassivity g (m.effective beta) alpha.re beta σ :=
  ⟨fun x => by rw [show (m.effective beta).epsilon x 0 0 = m.scalarEpsilon x from epsilonPrime_one m x]; exact hgain x,
   fun x => by rw [show (m.effective beta).epsilon x 0 0 = m.scalarEpsilon x from epsilonPrime_one m x]; exact hb x⟩

theorem deviation_scalar (k : Fin d → Idx g.shape → ℝ) (alphaR : ℝ) (F : Field 1 g.shape) :
    deviation k alphaR beta .scalar m F = deviation k alphaR beta .scalar (m.effective beta) F := by
  simp only [deviation, effective_epsilonPrime]

include hs hk0 x0 hgain hb hα hβ

/-- **C88 (convergence).** In scalar calculations, for all materials without gain, magnetic or not: the iteration converges to a solution of the scalar wave equation with
permeability `1 / β`, if there is one. -/
theorem C88_converges (hσ : σ < alpha.im * beta) (S F : Field 1 g.shape) (E0 : Idx g.shape → ℂ)
    (hE0 : ScalarWaveEquation (kOf g) k0 m.scalarEpsilon (beta : ℂ)⁻¹ (S 0) E0) :
    ∃ E : Field 1 g.shape, ScalarWaveEquation (kOf g) k0 m.scalarEpsilon (beta : ℂ)⁻¹ (S 0) (E 0) ∧ ∀ δ : ℝ, 0 < δ → ∃ j0, ∀ i ≥ j0,
      (∃ t, run .scalar (backendK g k0) (prepare m mag alpha beta S F) i = .ok t ∧ Backend.norm (getE k0 t - E) < δ) ∨
      (run .scalar (backendK g k0) (prepare m mag alpha beta S F) i = .error .zeroDivision ∧
        ∃ j < i, ∃ t, run .scalar (backendK g k0) (prepare m mag alpha beta S F) j = .ok t ∧ getE k0 t = E) := by
  have hk2 : ((k0 : ℂ) ^ 2) ≠ 0 := pow_ne_zero 2 (ofReal_ne hk0)
  have hpos : 0 < k0 ^ 2 := by positivity
  have hp := scalar_passivity hgain hb
  have hxi : ∀ x, (m.effective beta).xi x = 0 := fun _ => rfl
  have hdev := hp.deviation_norm (k0 := k0) hxi
  have hpas := hp.deviation_im (k0 := k0) hxi
  have hw := fun S E => scalar_iff_all hs hk0 (m := m) x0 hα hβ S E
  -- the statement for the fields of the code
  have key : ∀ (s : State 1 g.shape), (∃ P, waveOp (backendK g k0) beta .scalar m P = S ∧ ∀ δ : ℝ, 0 < δ → ∃ i0, ∀ i ≥ i0,
      (∃ t, run .scalar (backendK g k0) s i = .ok t ∧ Backend.norm (t.field - P) < δ) ∨
      (run .scalar (backendK g k0) s i = .error .zeroDivision ∧ ∃ j < i, ∃ t, run .scalar (backendK g k0) s j = .ok t ∧ t.field = P)) →
      ∃ E : Field 1 g.shape, ScalarWaveEquation (kOf g) k0 m.scalarEpsilon (beta : ℂ)⁻¹ (S 0) (E 0) ∧ ∀ δ : ℝ, 0 < δ → ∃ j0, ∀ i ≥ j0,
      (∃ t, run .scalar (backendK g k0) s i = .ok t ∧ Backend.norm (getE k0 t - E) < δ) ∨
      (run .scalar (backendK g k0) s i = .error .zeroDivision ∧ ∃ j < i, ∃ t, run .scalar (backendK g k0) s j = .ok t ∧ getE k0 t = E) := by
    rintro s ⟨P, hP, hq⟩
    have hPE : P = ((k0 : ℂ) ^ 2) • (((k0 : ℂ) ^ 2)⁻¹ • P) := by rw [smul_smul, mul_inv_cancel₀ hk2, one_smul]
    refine ⟨((k0 : ℂ) ^ 2)⁻¹ • P, (hw S _).2 (by rw [← hPE]; exact hP), fun δ hδ => ?_⟩
    obtain ⟨j0, hj0⟩ := hq (k0 ^ 2 * δ) (mul_pos hpos hδ)
    refine ⟨j0, fun i hi => ?_⟩
    rcases hj0 i hi with ⟨t, ht, hn⟩ | ⟨he, j, hj, t, ht, hf⟩
    · refine .inl ⟨t, ht, ?_⟩
      rw [hPE, norm_getE_sub hk0] at hn
      exact lt_of_mul_lt_mul_left hn hpos.le
    · refine .inr ⟨he, j, hj, t, ht, ?_⟩
      rw [field_getE hk0, hPE] at hf
      exact smul_right_injective _ hk2 hf
  have hE : waveOp (backendK g k0) beta .scalar m (((k0 : ℂ) ^ 2) • fun _ => E0) = S := (hw S fun _ => E0).1 hE0
  cases mag with
  | true =>
    refine key _ (converges (backendK_origin g hs hk0) .scalar hα hβ (.inl rfl) ?_ ?_ hσ S F _ hE)
    · intro G
      rw [deviation_scalar]
      exact hdev G
    · intro G
      rw [deviation_scalar]
      exact hpas G
  | false =>
    obtain ⟨a, b, c, e⟩ := prepare_effective m alpha beta S F
    have hE' : waveOp (backendK g k0) beta .scalar (m.effective beta) (((k0 : ℂ) ^ 2) • fun _ => E0) = S := by
      rw [← hE]
      simp only [waveOp, effective_epsilonPrime]
    obtain ⟨P, hP, hq⟩ := converges (backendK_origin g hs hk0) .scalar hα hβ (effective_consistent m false hβ.ne') hdev hpas hσ S F _ hE'
    obtain ⟨E, h1, h2⟩ := key (prepare (m.effective beta) false alpha beta S F) ⟨P, by rw [← hP]; simp only [waveOp, effective_epsilonPrime], hq⟩
    refine ⟨E, h1, fun δ hδ => ?_⟩
    obtain ⟨j0, hj0⟩ := h2 δ hδ
    refine ⟨j0, fun i hi => ?_⟩
    rw [e]
    exact transfer .scalar (backendK g k0) k0 (s := prepare (m.effective beta) false alpha beta S F) rfl a b c E
      (fun G => Backend.norm (G - E) < δ) i (hj0 i hi)

/-- **C88 (one rate).** If the scalar wave equation without source only has the solution 0, it has exactly one solution and the iteration converges to it exponentially, with the same rate for all sources
and initial fields. -/
theorem C88_rate (hσ : σ < alpha.im * beta) (hu : ∀ E, ScalarWaveEquation (kOf g) k0 m.scalarEpsilon (beta : ℂ)⁻¹ 0 E → E = 0) : ∃ q : ℝ, ∀ S F : Field 1 g.shape,
    ∃ E : Field 1 g.shape, ScalarWaveEquation (kOf g) k0 m.scalarEpsilon (beta : ℂ)⁻¹ (S 0) (E 0) ∧
      ConvergesAtRate .scalar (backendK g k0) k0 (prepare m mag alpha beta S F) E q := by
  have hk2 : ((k0 : ℂ) ^ 2) ≠ 0 := pow_ne_zero 2 (ofReal_ne hk0)
  have hpos : 0 < k0 ^ 2 := by positivity
  have hp := scalar_passivity hgain hb
  have hxi : ∀ x, (m.effective beta).xi x = 0 := fun _ => rfl
  have hdev := hp.deviation_norm (k0 := k0) hxi
  have hpas := hp.deviation_im (k0 := k0) hxi
  have hw := fun S E => scalar_iff_all hs hk0 (m := m) x0 hα hβ S E
  have huw : ∀ F, waveOp (backendK g k0) beta .scalar m F = 0 → F = 0 := fun F hF => by
    have := hu ((((k0 : ℂ) ^ 2)⁻¹ • F) 0) ((hw 0 _).2 (by rw [smul_smul, mul_inv_cancel₀ hk2, one_smul]; exact hF))
    have h2 : ((k0 : ℂ) ^ 2)⁻¹ • F = 0 := by
      funext c; rw [Fin.fin_one_eq_zero c]; exact this
    exact (smul_eq_zero.1 h2).resolve_left (inv_ne_zero hk2)
  have key : ∀ (q : ℝ) (S : Field 1 g.shape) (s : State 1 g.shape), (∃ P, waveOp (backendK g k0) beta .scalar m P = S ∧ ContractsAtRate .scalar (backendK g k0) s P q) →
      ∃ E : Field 1 g.shape, ScalarWaveEquation (kOf g) k0 m.scalarEpsilon (beta : ℂ)⁻¹ (S 0) (E 0) ∧ ConvergesAtRate .scalar (backendK g k0) k0 s E q := by
    rintro q S s ⟨P, hP, hq⟩
    have hPE : P = ((k0 : ℂ) ^ 2) • (((k0 : ℂ) ^ 2)⁻¹ • P) := by rw [smul_smul, mul_inv_cancel₀ hk2, one_smul]
    exact ⟨((k0 : ℂ) ^ 2)⁻¹ • P, (hw S _).2 (by rw [← hPE]; exact hP), (hPE ▸ hq).electric hk0⟩
  cases mag with
  | true =>
    obtain ⟨q, hq⟩ := converges_uniform (mag := true) (m := m) (backendK_origin g hs hk0) .scalar hα hβ (.inl rfl) (fun G => by rw [deviation_scalar]; exact hdev G)
      (fun G => by rw [deviation_scalar]; exact hpas G) hσ huw
    exact ⟨q, fun S F => key q S _ (hq S F)⟩
  | false =>
    obtain ⟨q, hq⟩ := converges_uniform (mag := false) (m := m.effective beta) (backendK_origin g hs hk0) .scalar hα hβ (effective_consistent m false hβ.ne') hdev hpas hσ
      (fun F hF => huw F (by rw [← hF]; simp only [waveOp, effective_epsilonPrime]))
    refine ⟨q, fun S F => ?_⟩
    obtain ⟨a, b, c, e⟩ := prepare_effective m alpha beta S F
    obtain ⟨P, hP, hq⟩ := hq S F
    obtain ⟨E, h1, h2⟩ := key q S (prepare (m.effective beta) false alpha beta S F) ⟨P, by rw [← hP]; simp only [waveOp, effective_epsilonPrime], hq⟩
    refine ⟨E, h1, ?_⟩
    rw [e]
    exact h2.withMagnetic rfl a b c

/-- **C88 (unique solution).** If the scalar wave equation without source only has the solution 0, it has exactly one solution and the iteration converges to it exponentially. -/
theorem C88_unique (hσ : σ < alpha.im * beta) (hu : ∀ E, ScalarWaveEquation (kOf g) k0 m.scalarEpsilon (beta : ℂ)⁻¹ 0 E → E = 0) (S F : Field 1 g.shape) :
    ∃ E : Field 1 g.shape, ScalarWaveEquation (kOf g) k0 m.scalarEpsilon (beta : ℂ)⁻¹ (S 0) (E 0) ∧
      ConvergesExponentially .scalar (backendK g k0) k0 (prepare m mag alpha beta S F) E := by
  obtain ⟨q, hq⟩ := C88_rate (mag := mag) hs hk0 x0 hgain hb hα hβ hσ hu
  obtain ⟨E, hE, h⟩ := hq S F
  exact ⟨E, hE, q, h⟩

end

/-- Where the medium absorbs everywhere, the scalar wave equation without source only has the solution 0. -/
theorem scalar_absorbing (g : Grid.Obj d ℝ) {k0 : ℝ} (hk0 : k0 ≠ 0) (epsilon : Idx g.shape → ℂ) (beta : ℝ) (habs : ∀ x, 0 < (epsilon x).im) (E : Idx g.shape → ℂ)
    (hE : ScalarWaveEquation (kOf g) k0 epsilon (beta : ℂ)⁻¹ 0 E) : E = 0 := by
  have h := C75_scalar (k := kOf g) (k0 := k0) (epsilon := epsilon) (r := beta⁻¹) (S := 0) (E := E) (by push_cast; exact hE)
  simp only [Pi.zero_apply, mul_zero, Finset.sum_const_zero, zero_im] at h
  have h1 : ∑ x, (epsilon x).im * ‖E x‖ ^ 2 = 0 := by
    have hpos : 0 < k0 ^ 2 := by positivity
    have : k0 ^ 2 * ∑ x, (epsilon x).im * ‖E x‖ ^ 2 = 0 := by linarith
    exact (mul_eq_zero.1 this).resolve_left hpos.ne'
  rw [Finset.sum_eq_zero_iff_of_nonneg fun x _ => mul_nonneg (habs x).le (sq_nonneg _)] at h1
  funext x
  have h2 := (mul_eq_zero.1 (h1 x (Finset.mem_univ x))).resolve_left (habs x).ne'
  exact norm_eq_zero.1 (pow_eq_zero_iff two_ne_zero |>.1 h2)

/-- **C88 (absorption).** Where the permittivity that is used has a positive imaginary part everywhere, there is a unique solution and the iteration converges to it exponentially. -/
theorem C88_absorbing {g : Grid.Obj d ℝ} (hs : ∀ a, g.step a ≠ 0) {k0 : ℝ} (hk0 : k0 ≠ 0) {m : Medium 1 g.shape} (x0 : Idx g.shape) {mag : Bool} {alpha : ℂ} {beta σ : ℝ}
    (habs : ∀ x, 0 < (m.scalarEpsilon x).im) (hb : ∀ x, ‖m.scalarEpsilon x - (alpha.re * beta : ℝ)‖ ≤ σ) (hα : 0 < alpha.im) (hβ : 0 < beta)
    (hσ : σ < alpha.im * beta) (S F : Field 1 g.shape) :
    ∃ E : Field 1 g.shape, ScalarWaveEquation (kOf g) k0 m.scalarEpsilon (beta : ℂ)⁻¹ (S 0) (E 0) ∧
      ConvergesExponentially .scalar (backendK g k0) k0 (prepare m mag alpha beta S F) E :=
  C88_unique hs hk0 x0 (fun x => (habs x).le) hb hα hβ hσ (fun E hE => scalar_absorbing g hk0 m.scalarEpsilon beta habs E hE) S F

end Verif.Solver
