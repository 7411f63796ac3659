import Verif.Lemmas.SolverRate
import Verif.Props.SolverScalarMedia
import Verif.Props.SolverStop

/-!
# C117: how many iterations are needed

The bias is `A = α_im β`; `σ` is a bound on the deviation of the medium from its centre, and `δ` a bound on the absorption, at every point.  The rate and the number of iterations only depend on these
three numbers and on the tolerance: not on the number of dimensions, the grid, the wavelength, the source, or the shape of the object.
-/

namespace Verif.Solver

open Verif Verif.Fourier Verif.Backend Complex Matrix
open Verif.Spec.Solver (NoGain Within WaveEquation ScalarWaveEquation gainOf rateOf iterationsOf)

variable {d n : ℕ}

/-! ### From the rate to the number of iterations -/

section Count
variable {N : Fin d → ℕ} {kind : Kind d n} {k : Fin d → Idx N → ℝ} {k0 : ℝ} (hk0 : k0 ≠ 0) {s : State n N} {E : Field n N} {q : ℝ}
include hk0

omit hk0 in
theorem ConvergesAtRate.mono {q' : ℝ} (h : ConvergesAtRate kind k k0 s E q) (hq : q ≤ q') (h1 : q' < 1) : ConvergesAtRate kind k k0 s E q' := by
  obtain ⟨h0, -, hstep, hrun⟩ := h
  refine ⟨h0.trans hq, h1, fun i t t' ht ht' => ?_, hrun⟩
  obtain ⟨h2, h3⟩ := hstep i t t' ht ht'
  exact ⟨h2.trans (mul_le_mul_of_nonneg_right hq (norm_nonneg' _)), h3⟩

omit hk0 in
theorem ConvergesAtRate.error (h : ConvergesAtRate kind k k0 s E q) : ∀ i t, run kind k (Solver.start s) i = .ok t → Backend.norm (getE k0 t - E) ≤ q ^ i * Backend.norm (getE k0 s - E) := by
  obtain ⟨h0, h1, hstep, -⟩ := h.start
  intro i
  induction i with
  | zero =>
    intro t ht
    simp only [run, Except.ok.injEq] at ht
    rw [← ht, pow_zero, one_mul]
    exact le_rfl
  | succ i ih =>
    intro t ht
    obtain ⟨t', ht'⟩ := run_of_succ ht
    have h2 := mul_le_mul_of_nonneg_left (ih t' ht') h0
    have h3 := (hstep i t' t ht' ht).1
    rw [pow_succ]
    linarith

/-- **C117 (end).** When every iteration reduces the error by a factor `q`, `solve` has ended after `l + 1` iterations if `(2 + rtol) qˡ` times the initial error is at most the tolerance times the norm of the
solution. -/
theorem C117_ends (h : ConvergesAtRate kind k k0 s E q) (hp : ((0 : ℝ) : WithTop ℝ) ≤ s.prevNorm) {rtol : ℝ} (hr : 0 ≤ rtol) (maxiter : WithTop ℝ) {l : ℕ}
    (hl : (2 + rtol) * (q ^ l * Backend.norm (getE k0 s - E)) ≤ rtol * Backend.norm E) (t : State n N) : solve kind k .none rtol maxiter s (l + 1) ≠ .running () t := by
  have hbound := h.error
  obtain ⟨h0, h1, hstep, -⟩ := h.start
  intro ht
  obtain ⟨t, ht, -, r, hr', h2⟩ := (C39_running rtol maxiter s hp (l + 1)).1 ⟨t, ht⟩ l (Nat.lt_succ_self l)
  obtain ⟨t', ht'⟩ := run_of_succ ht
  obtain ⟨h3, h4⟩ := hstep _ _ _ ht' ht
  obtain ⟨-, h5⟩ := residue_gt hk0 (run_residue_none ht) h4 hr hr' h2
  have h6 := hbound l t' ht'
  have h7 : Backend.norm (getE k0 t - getE k0 t') ≤ Backend.norm (getE k0 t - E) + Backend.norm (getE k0 t' - E) := by
    have := norm_sub_le' (getE k0 t - E) (getE k0 t' - E)
    rwa [sub_sub_sub_cancel_right] at this
  have h8 : Backend.norm E ≤ Backend.norm (getE k0 t) + Backend.norm (getE k0 t - E) := by
    have := norm_sub_le' (getE k0 t) (getE k0 t - E)
    rwa [sub_sub_cancel] at this
  have h9 : Backend.norm (getE k0 t - E) ≤ Backend.norm (getE k0 t' - E) :=
    h3.trans (mul_le_of_le_one_left (norm_nonneg' _) h1.le)
  have h10 : rtol * Backend.norm E ≤ rtol * (Backend.norm (getE k0 t) + Backend.norm (getE k0 t - E)) := mul_le_mul_of_nonneg_left h8 hr
  have h11 : rtol * Backend.norm (getE k0 t - E) ≤ rtol * (q ^ l * Backend.norm (getE k0 s - E)) := mul_le_mul_of_nonneg_left (h9.trans h6) hr
  linarith

/-- **C117 (returns).** With the default initial field, 0, and a solution that is not 0: `solve` has returned after `l + 1` iterations, and later, if `(2 + rtol) qˡ` is at most the tolerance. -/
theorem C117_returns (h : ConvergesAtRate kind k k0 s E q) (hp : ((0 : ℝ) : WithTop ℝ) < s.prevNorm) (hs : getE k0 s = 0) (hE : E ≠ 0) {rtol : ℝ} (hr : 0 < rtol)
    (maxiter : WithTop ℝ) {l : ℕ} (hl : (2 + rtol) * q ^ l ≤ rtol) {i : ℕ} (hi : l < i) : ∃ t, solve kind k .none rtol maxiter s i = .done () t := by
  have hbound := h.error
  have h0 := h.1
  have h1 := h.2.1
  have hnorm : Backend.norm (getE k0 s - E) = Backend.norm E := by
    rw [hs, zero_sub, ← neg_one_smul ℂ E, norm_smul', norm_neg, norm_one, one_mul]
  have hEpos : 0 < Backend.norm E := lt_of_le_of_ne (norm_nonneg' _) fun h2 => hE ((norm_eq_zero_iff _).1 h2.symm)
  cases hout : solve kind k .none rtol maxiter s i with
  | running u t =>
    exfalso
    obtain ⟨j, rfl⟩ : ∃ j, i = j + 1 := ⟨i - 1, by omega⟩
    refine C117_ends hk0 h hp.le hr.le maxiter (l := j) ?_ t hout
    rw [hnorm, ← mul_assoc]
    refine mul_le_mul_of_nonneg_right (le_trans ?_ hl) hEpos.le
    exact mul_le_mul_of_nonneg_left (pow_le_pow_of_le_one h0 h1.le (by omega)) (by linarith)
  | done u t => exact ⟨t, rfl⟩
  | raised e =>
    exfalso
    obtain ⟨-, j, -, t, ht, hz⟩ := C90_raises hk0 ⟨q, h⟩ hp hr.le maxiter hout
    have h3 := hbound (j + 1) t ht
    rw [hz, ← hs, hnorm] at h3
    have h4 : q ^ (j + 1) < 1 := pow_lt_one₀ h0 h1 (Nat.succ_ne_zero j)
    nlinarith

/-- **C117 (number of iterations).** When every iteration reduces the error at the rate for a bias `A`, a contrast `σ`, and an absorption `δ`: with the default initial field, `solve` has returned after
`iterationsOf A σ δ rtol` iterations, and unless the limit is reached the error is at most `q / (1 - q)` times the tolerance. -/
theorem C117_count {A σ δ : ℝ} (hA : 0 < A) (hσ : σ < A) (hδ : 0 < δ) (h : ConvergesAtRate kind k k0 s E (rateOf A σ δ)) (hp : ((0 : ℝ) : WithTop ℝ) < s.prevNorm)
    (hs : getE k0 s = 0) (hE : E ≠ 0) {rtol : ℝ} (hr : 0 < rtol) (maxiter : WithTop ℝ) {i : ℕ} (hi : iterationsOf A σ δ rtol ≤ i) :
    ∃ t, solve kind k .none rtol maxiter s i = .done () t ∧
      (maxiter ≤ ((t.iteration : ℝ) : WithTop ℝ) ∨ Backend.norm (getE k0 t - E) ≤ rateOf A σ δ / (1 - rateOf A σ δ) * rtol * Backend.norm (getE k0 t)) := by
  have hpos : 0 < A - σ := sub_pos.2 hσ
  have hlog : 0 < Real.log ((2 + rtol) / rtol) := Real.log_pos (by rw [lt_div_iff₀ hr]; linarith)
  have hc : A ^ 3 * (A - σ + 4 * δ) / (δ * (A - σ) ^ 3) = 2 / gainOf A σ δ := by
    unfold gainOf
    have : A - σ + 4 * δ ≠ 0 := by positivity
    field_simp
  unfold iterationsOf at hi
  rw [hc] at hi
  have hg := gainOf_pos hA hσ hδ
  have hi0 : (1 : ℝ) ≤ i := le_trans (by have : 0 ≤ 2 / gainOf A σ δ * Real.log ((2 + rtol) / rtol) := by positivity
                                         linarith) hi
  obtain ⟨j, rfl⟩ : ∃ j, i = j + 1 := ⟨i - 1, by have : 1 ≤ i := by exact_mod_cast hi0
                                                 omega⟩
  push_cast at hi
  have h1 := rateOf_pow hA hσ hδ (div_pos (by linarith) hr : 0 < (2 + rtol) / rtol) (l := j) (by linarith)
  rw [div_mul_eq_mul_div, div_le_one hr] at h1
  obtain ⟨t, ht⟩ := C117_returns hk0 h hp hs hE hr maxiter h1 (Nat.lt_succ_self j)
  exact ⟨t, ht, C90_rate hk0 h rtol maxiter _ t ht⟩

end Count

/-! ### Vectorial calculations -/

section Vectorial
variable {g : Grid.Obj d ℝ} (hs : ∀ a, g.step a ≠ 0) {k0 : ℝ} (hk0 : k0 ≠ 0) (hd : d ≤ 3) {m : Medium 3 g.shape}
  {muScalar : Bool} {i0 : Fin 3} {x0 : Idx g.shape} {mag : Bool} {alpha : ℂ} {beta σ : ℝ} (hm : Passivity g k0 m alpha.re beta σ)

include hm in
theorem Passivity.deviation_absorbs {δ : ℝ} (habs : ∀ x (v : Fin 3 → ℂ), δ * ∑ i, ‖v i‖ ^ 2 ≤ (star v ⬝ᵥ (m.epsilon x).mulVec v).im) (F : Field 3 g.shape) :
    δ * Backend.norm F ^ 2 ≤ (dot F (deviation (backendK g k0) alpha.re beta (.vectorial hd) m F)).im := by
  have z1 : m.chiEHBeta = fun _ => 0 := by funext x; simp [Medium.chiEHBeta, hm.xi]
  have z2 : m.chiHEBeta = fun _ => 0 := by funext x; simp [Medium.chiHEBeta, hm.zeta]
  rw [deviation_im_vectorial, z1, z2, epsilonPrime_eq hm.xi, norm_sq, Finset.sum_comm, Finset.mul_sum]
  refine Finset.sum_le_sum fun x _ => ?_
  simp only [Matrix.zero_mulVec, dotProduct_zero, add_zero, sub_im]
  have h1 := habs x fun j => F j x
  have h2 := im_inv (m.mu x) (hm.invertible x) (hm.mu x) fun j => curl 3 (backendK g k0) F j x
  exact h1.trans (le_sub_self_iff _ |>.2 h2)

include hs hk0 hm in
/-- **C117 (rate).** For all grids, anisotropic and magnetic materials without coupling, sources and initial fields: if the permittivity absorbs at least `δ` at every point for every polarization, then every
iteration reduces the error by the factor `rateOf` for the bias, the contrast and the absorption, which does not depend on the grid. -/
theorem C117_rate (hc : Chosen m muScalar i0 x0 mag beta) (hr : RealPermeability m mag x0) (hα : 0 < alpha.im) (hβ : 0 < beta) (hσ : σ < alpha.im * beta) {δ : ℝ} (hδ : 0 < δ)
    (habs : ∀ x (v : Fin 3 → ℂ), δ * ∑ i, ‖v i‖ ^ 2 ≤ (star v ⬝ᵥ (m.epsilon x).mulVec v).im) (S F : Field 3 g.shape) :
    ∃ E, WaveEquation (kOf g) k0 m.epsilon m.mu S E ∧
      ConvergesAtRate (.vectorial hd) (backendK g k0) k0 (prepare m mag alpha beta S F) E (rateOf (alpha.im * beta) σ δ) := by
  have hk2 : ((k0 : ℂ) ^ 2) ≠ 0 := pow_ne_zero 2 (ofReal_ne hk0)
  have hw := fun S E => waveEquation_iff (C31_backend g hs hk0) hd m hm.xi hm.zeta beta S E
  obtain ⟨P, hP, hq⟩ := converges_absorbing (mag := mag) (backendK_origin g hs hk0) (.vectorial hd) hα hβ (hc.consistent hr) (hm.deviation_norm hs hk0 hd) hσ hδ
    (hm.deviation_absorbs hd habs) S F
  have hPE : P = ((k0 : ℂ) ^ 2) • (((k0 : ℂ) ^ 2)⁻¹ • P) := by rw [smul_smul, mul_inv_cancel₀ hk2, one_smul]
  set E := ((k0 : ℂ) ^ 2)⁻¹ • P with hE
  exact ⟨E, (hw S E).2 (by rw [← hPE]; exact hP), (hPE ▸ hq).electric hk0⟩

end Vectorial

section Constructed
variable {g : Grid.Obj d ℝ} (hs : ∀ a, g.step a ≠ 0) {k0 : ℝ} (hk0 : 0 < k0) (hd : d ≤ 3) {m : Medium 3 g.shape} (hxi : ∀ x, m.xi x = 0)
  (hzeta : ∀ x, m.zeta x = 0) (hgain : NoGain m.epsilon) (hmu : NoGain m.mu) {tol : ℝ} (htol : 0 ≤ tol) (thickness : List ℝ) (x0 : Idx g.shape)
  (hβ : 0 < ((m.mu x0)⁻¹ 0 0).re) (alphaR : ℝ) {δ : ℝ} (hδ : 0 < δ)
  (habs : ∀ x (v : Fin 3 → ℂ), δ * ∑ i, ‖v i‖ ^ 2 ≤ (star v ⬝ᵥ (m.epsilon x).mulVec v).im)
include hs hk0 hxi hzeta hgain hmu htol hβ hδ habs

/-- **C117 (as constructed).** For the constants that the code selects for a medium that it finds not to be magnetic: the rate with the bias that is selected. -/
theorem C117_constructed {s : ℝ} (h0 : 0 ≤ s) (hw : Within (fun x => m.epsilon x - (((m.constantsNonMagnetic tol k0 thickness 0 x0 alphaR).1.re *
      (m.constantsNonMagnetic tol k0 thickness 0 x0 alphaR).2 : ℝ) : ℂ) • 1) s)
    (hlt : s < (m.constantsNonMagnetic tol k0 thickness 0 x0 alphaR).1.im * (m.constantsNonMagnetic tol k0 thickness 0 x0 alphaR).2) (S F : Field 3 g.shape) :
    ∃ E, WaveEquation (kOf g) k0 m.epsilon (fun _ => (((m.mu x0)⁻¹ 0 0).re : ℂ)⁻¹ • 1) S E ∧
      ConvergesAtRate (.vectorial hd) (backendK g k0) k0 (prepare m false (m.constantsNonMagnetic tol k0 thickness 0 x0 alphaR).1
        (m.constantsNonMagnetic tol k0 thickness 0 x0 alphaR).2 S F) E
        (rateOf ((m.constantsNonMagnetic tol k0 thickness 0 x0 alphaR).1.im * (m.constantsNonMagnetic tol k0 thickness 0 x0 alphaR).2) s δ) := by
  have hP := tolerance_bound hs hk0 hxi hzeta hgain hmu htol thickness x0 hβ alphaR h0 hw
  set c := m.constantsNonMagnetic tol k0 thickness 0 x0 alphaR with hc
  have hbp : 0 < c.2 := hβ
  have him : 0 < c.1.im := by
    by_contra hn
    push Not at hn
    have := mul_nonpos_of_nonpos_of_nonneg hn hbp.le
    linarith
  obtain ⟨hch, hr⟩ := effective_chosen m hbp.ne' 0 x0
  have heps : (m.effective c.2).epsilon = m.epsilon := by
    change m.epsilonPrime = m.epsilon
    exact epsilonPrime_eq hxi
  have hmu' : (m.effective c.2).mu = fun _ => (((m.mu x0)⁻¹ 0 0).re : ℂ)⁻¹ • 1 := rfl
  obtain ⟨E, hE, hconv⟩ := C117_rate hs hk0.ne' hd hP hch hr him hbp hlt hδ (by rw [heps]; exact habs) S F
  rw [heps, hmu'] at hE
  obtain ⟨a, b, t, e⟩ := prepare_effective m c.1 c.2 S F
  refine ⟨E, hE, ?_⟩
  rw [e]
  exact hconv.withMagnetic rfl a b t

/-- **C117 (without boundary).** If no axis has an absorbing layer, the bias exceeds the contrast by 0.05 (times the inverse permeability): the rate follows from the contrast and the absorption alone,
for any bound `s` on the contrast. -/
theorem C117_open {s : ℝ} (h0 : 0 ≤ s) (hw : Within (fun x => m.epsilon x - ((alphaR * ((m.mu x0)⁻¹ 0 0).re : ℝ) : ℂ) • 1) s) (S F : Field 3 g.shape) :
    ∃ E, WaveEquation (kOf g) k0 m.epsilon (fun _ => (((m.mu x0)⁻¹ 0 0).re : ℂ)⁻¹ • 1) S E ∧
      ConvergesAtRate (.vectorial hd) (backendK g k0) k0 (prepare m false (m.constantsNonMagnetic tol k0 [] 0 x0 alphaR).1
        (m.constantsNonMagnetic tol k0 [] 0 x0 alphaR).2 S F) E (rateOf (s + 0.05 * ((m.mu x0)⁻¹ 0 0).re) s δ) := by
  have hne : m.betaNonMagnetic 0 x0 ≠ 0 := hβ.ne'
  have hb : (m.constantsNonMagnetic tol k0 [] 0 x0 alphaR).2 = ((m.mu x0)⁻¹ 0 0).re := rfl
  have hnt := not_transposed m htol hgain hxi hzeta hmu
  have hre : (m.constantsNonMagnetic tol k0 [] 0 x0 alphaR).1.re = alphaR := by
    unfold Medium.constantsNonMagnetic
    simp only [if_neg hnt, increaseBias_re]
    simp
  have him : (m.constantsNonMagnetic tol k0 [] 0 x0 alphaR).1.im = m.sigmaEE alphaR (m.betaNonMagnetic 0 x0) + 0.05 := by
    unfold Medium.constantsNonMagnetic increaseBias
    simp only [if_neg hnt]
    simp
  have hb' : m.betaNonMagnetic 0 x0 = ((m.mu x0)⁻¹ 0 0).re := rfl
  set b := ((m.mu x0)⁻¹ 0 0).re with hbe
  have hle := m.sigmaEE_le alphaR hne h0 (by rw [epsilonPrime_eq hxi, hb']; exact hw)
  have hwi := m.within_sigmaEE alphaR hne
  have hn0 := sigmaEE_nonneg m alphaR (m.betaNonMagnetic 0 x0)
  rw [hb', abs_of_pos hβ] at hle
  rw [epsilonPrime_eq hxi, hb', abs_of_pos hβ] at hwi
  rw [hb'] at hn0 him
  have hA : (m.constantsNonMagnetic tol k0 [] 0 x0 alphaR).1.im * (m.constantsNonMagnetic tol k0 [] 0 x0 alphaR).2 = m.sigmaEE alphaR b * b + 0.05 * b := by
    rw [him, hb]
    ring
  have h5 : 0 < 0.05 * b := by positivity
  obtain ⟨E, hE, hconv⟩ := C117_constructed hs hk0 hd hxi hzeta hgain hmu htol [] x0 hβ alphaR hδ habs (mul_nonneg hn0 hβ.le) (by rw [hre, hb]; exact hwi)
    (by rw [hA]; linarith) S F
  rw [hA] at hconv
  exact ⟨E, hE, hconv.mono (rateOf_mono h5 (mul_nonneg hn0 hβ.le) hle hδ) (rateOf_lt_one (by linarith) (by linarith) hδ)⟩

end Constructed

/-! ### Scalar calculations -/

section Scalar
variable {g : Grid.Obj d ℝ} (hs : ∀ a, g.step a ≠ 0) {k0 : ℝ} (hk0 : k0 ≠ 0) {m : Medium 1 g.shape} (x0 : Idx g.shape) {mag : Bool} {alpha : ℂ} {beta σ : ℝ}
include hs hk0 x0

/-- **C117 (scalar).** The same for all scalar calculations, magnetic or not. -/
theorem C117_scalar (hα : 0 < alpha.im) (hβ : 0 < beta) (hb : ∀ x, ‖m.scalarEpsilon x - (alpha.re * beta : ℝ)‖ ≤ σ) (hσ : σ < alpha.im * beta) {δ : ℝ} (hδ : 0 < δ)
    (habs : ∀ x, δ ≤ (m.scalarEpsilon x).im) (S F : Field 1 g.shape) :
    ∃ E : Field 1 g.shape, ScalarWaveEquation (kOf g) k0 m.scalarEpsilon (beta : ℂ)⁻¹ (S 0) (E 0) ∧
      ConvergesAtRate .scalar (backendK g k0) k0 (prepare m mag alpha beta S F) E (rateOf (alpha.im * beta) σ δ) := by
  have hk2 : ((k0 : ℂ) ^ 2) ≠ 0 := pow_ne_zero 2 (ofReal_ne hk0)
  have hgain : ∀ x, 0 ≤ (m.scalarEpsilon x).im := fun x => hδ.le.trans (habs x)
  have hp := scalar_passivity hgain hb
  have hxi : ∀ x, (m.effective beta).xi x = 0 := fun _ => rfl
  have hdev := hp.deviation_norm (k0 := k0) hxi
  have habs' : ∀ F, δ * Backend.norm F ^ 2 ≤ (dot F (deviation (backendK g k0) alpha.re beta .scalar (m.effective beta) F)).im := by
    intro F
    rw [deviation_im_scalar, epsilonPrime_eq hxi, norm_sq, Finset.sum_comm, Finset.mul_sum]
    refine Finset.sum_le_sum fun x _ => ?_
    have e : (m.effective beta).epsilon x 0 0 = m.scalarEpsilon x := epsilonPrime_one m x
    simp only [Matrix.mulVec, dotProduct, Finset.univ_unique, Finset.sum_singleton, Fin.default_eq_zero, Pi.star_apply, RCLike.star_def]
    rw [mul_left_comm, ← Complex.normSq_eq_conj_mul_self, mul_comm ((m.effective beta).epsilon x 0 0), im_ofReal_mul, e, normSq_eq_norm_sq, mul_comm]
    exact mul_le_mul_of_nonneg_left (habs x) (sq_nonneg _)
  have hw := fun S E => scalar_iff_all hs hk0 (m := m) x0 hα hβ S E
  have key : ∀ (q : ℝ) (S : Field 1 g.shape) (s : State 1 g.shape), (∃ P, waveOp (backendK g k0) beta .scalar m P = S ∧ ContractsAtRate .scalar (backendK g k0) s P q) →
      ∃ E : Field 1 g.shape, ScalarWaveEquation (kOf g) k0 m.scalarEpsilon (beta : ℂ)⁻¹ (S 0) (E 0) ∧ ConvergesAtRate .scalar (backendK g k0) k0 s E q := by
    rintro q S s ⟨P, hP, hq⟩
    have hPE : P = ((k0 : ℂ) ^ 2) • (((k0 : ℂ) ^ 2)⁻¹ • P) := by rw [smul_smul, mul_inv_cancel₀ hk2, one_smul]
    exact ⟨((k0 : ℂ) ^ 2)⁻¹ • P, (hw S _).2 (by rw [← hPE]; exact hP), (hPE ▸ hq).electric hk0⟩
  cases mag with
  | true =>
    exact key _ S _ (converges_absorbing (mag := true) (m := m) (backendK_origin g hs hk0) .scalar hα hβ (.inl rfl) (fun G => by rw [deviation_scalar]; exact hdev G) hσ hδ
      (fun G => by rw [deviation_scalar]; exact habs' G) S F)
  | false =>
    obtain ⟨P, hP, hq⟩ := converges_absorbing (mag := false) (m := m.effective beta) (backendK_origin g hs hk0) .scalar hα hβ (effective_consistent m false hβ.ne') hdev hσ hδ
      habs' S F
    obtain ⟨a, b, c, e⟩ := prepare_effective m alpha beta S F
    obtain ⟨E, h1, h2⟩ := key _ S (prepare (m.effective beta) false alpha beta S F) ⟨P, by rw [← hP]; simp only [waveOp, effective_epsilonPrime], hq⟩
    refine ⟨E, h1, ?_⟩
    rw [e]
    exact h2.withMagnetic rfl a b c

end Scalar

end Verif.Solver
