import Verif.Lemmas.SolverConverge
import Verif.Lemmas.Bias
import Verif.Spec.Rate

/-!
# The rate of convergence from the absorption
-/

namespace Verif.Solver

open Verif Verif.Fourier Verif.Backend Complex Matrix
open Verif.Spec.Solver (NoGain Within gainOf rateOf)

variable {d n : ℕ} {N : Fin d → ℕ}

theorem gainOf_pos {A σ δ : ℝ} (h0 : 0 < A) (hσ : σ < A) (hδ : 0 < δ) : 0 < gainOf A σ δ := by
  have : 0 < A - σ := sub_pos.2 hσ
  unfold gainOf
  positivity

theorem rateOf_nonneg (A σ δ : ℝ) : 0 ≤ rateOf A σ δ := Real.sqrt_nonneg _

theorem rateOf_lt_one {A σ δ : ℝ} (h0 : 0 < A) (hσ : σ < A) (hδ : 0 < δ) : rateOf A σ δ < 1 := by
  unfold rateOf
  rw [Real.sqrt_lt' one_pos]
  linarith [gainOf_pos h0 hσ hδ]

theorem gainOf_eq {A : ℝ} (h0 : 0 < A) (σ δ : ℝ) : 2 * (δ / A) * (1 - σ / A) ^ 3 / (1 - σ / A + 4 * (δ / A)) = gainOf A σ δ := by
  have e : 1 - σ / A + 4 * (δ / A) = (A - σ + 4 * δ) / A := by field_simp
  have e2 : 1 - σ / A = (A - σ) / A := by field_simp
  unfold gainOf
  rw [e, e2]
  by_cases h : A - σ + 4 * δ = 0
  · rw [h]; simp
  · field_simp

/-- With the same increase of the bias, a larger contrast means a slower convergence. -/
theorem gainOf_mono {b s s' δ : ℝ} (hb : 0 < b) (h0 : 0 ≤ s) (hs : s ≤ s') (hδ : 0 < δ) : gainOf (s' + b) s' δ ≤ gainOf (s + b) s δ := by
  unfold gainOf
  rw [add_sub_cancel_left, add_sub_cancel_left]
  refine div_le_div_of_nonneg_left (by positivity) (by positivity) ?_
  refine mul_le_mul_of_nonneg_right ?_ (by positivity)
  exact pow_le_pow_left₀ (by positivity) (by linarith) 3

theorem rateOf_mono {b s s' δ : ℝ} (hb : 0 < b) (h0 : 0 ≤ s) (hs : s ≤ s') (hδ : 0 < δ) : rateOf (s + b) s δ ≤ rateOf (s' + b) s' δ :=
  Real.sqrt_le_sqrt (by linarith [gainOf_mono hb h0 hs hδ])

theorem le_sqrt_mul {a b r : ℝ} (ha : 0 ≤ a) (hb : 0 ≤ b) (h : a ^ 2 ≤ r * b ^ 2) : a ≤ Real.sqrt r * b := by
  rw [← Real.sqrt_sq ha, ← Real.sqrt_sq hb, ← Real.sqrt_mul' r (sq_nonneg _)]
  exact Real.sqrt_le_sqrt h

/-- Enough iterations, for a given reduction of the error. -/
theorem rateOf_pow {A σ δ r : ℝ} (h0 : 0 < A) (hσ : σ < A) (hδ : 0 < δ) (hr : 0 < r) {l : ℕ} (hl : 2 / gainOf A σ δ * Real.log r ≤ l) : r * rateOf A σ δ ^ l ≤ 1 := by
  have hc := gainOf_pos h0 hσ hδ
  set c := gainOf A σ δ with hc'
  have h1 : rateOf A σ δ ≤ Real.exp (- c / 2) := by
    unfold rateOf
    rw [← hc', Real.sqrt_le_left (Real.exp_pos _).le, ← Real.exp_nat_mul]
    have := Real.add_one_le_exp (-c)
    push_cast
    rw [show (2 : ℝ) * (-c / 2) = -c by ring]
    linarith
  have h2 : rateOf A σ δ ^ l ≤ Real.exp (- Real.log r) := by
    refine (pow_le_pow_left₀ (rateOf_nonneg _ _ _) h1 l).trans ?_
    rw [← Real.exp_nat_mul, Real.exp_le_exp]
    rw [div_mul_eq_mul_div, div_le_iff₀ hc] at hl
    linarith
  rw [Real.exp_neg, Real.exp_log hr] at h2
  calc r * rateOf A σ δ ^ l ≤ r * r⁻¹ := mul_le_mul_of_nonneg_left h2 hr.le
    _ = 1 := mul_inv_cancel₀ hr.ne'

theorem absorptive_of_deviation {k : Fin d → Idx N → ℝ} (kind : Kind d n) (m : Medium n N) (mag : Bool) {alpha : ℂ} (hα : 0 < alpha.im) {beta : ℝ}
    (hβ : 0 < beta) (S F0 : Field n N) (hc : Consistent m mag beta) {δ : ℝ} (h : ∀ F, δ * Backend.norm F ^ 2 ≤ (dot F (deviation k alpha.re beta kind m F)).im) :
    Absorptive k (prepared m mag alpha beta S F0) (δ / (alpha.im * beta)) := by
  intro F
  have e : (∑ c, ∑ x, (starRingEnd ℂ) (F c x) * (chiOp k (prepared m mag alpha beta S F0) F c x - F c x)) =
      dot F (chiOp k (prepared m mag alpha beta S F0) F - F) := rfl
  rw [e, chiOp_sub k kind m mag hα.ne' hβ.ne' S F0 F hc, dot_smul]
  have hf : factor alpha beta = ((1 / (alpha.im * beta) : ℝ) : ℂ) * I := by
    unfold factor; push_cast; field_simp
  rw [hf, mul_assoc, re_ofReal_mul, I_mul_re]
  have hp : 0 < alpha.im * beta := mul_pos hα hβ
  have := mul_le_mul_of_nonneg_left (h F) (one_div_nonneg.2 hp.le)
  have e2 : δ / (alpha.im * beta) * Backend.norm F ^ 2 = 1 / (alpha.im * beta) * (δ * Backend.norm F ^ 2) := by ring
  rw [e2]
  linarith

section
variable {k : Fin d → Idx N → ℝ} (hk : ∀ x, origin x ↔ ∀ a, k a x = 0) (kind : Kind d n) {m : Medium n N} {mag : Bool} {alpha : ℂ} (hα : 0 < alpha.im) {beta : ℝ} (hβ : 0 < beta)
  (hc : Consistent m mag beta) {σ : ℝ} (hdev : ∀ F, Backend.norm (deviation k alpha.re beta kind m F) ≤ σ * Backend.norm F) (hσ : σ < alpha.im * beta)
  {δ : ℝ} (hδ : 0 < δ) (habs : ∀ F, δ * Backend.norm F ^ 2 ≤ (dot F (deviation k alpha.re beta kind m F)).im)
include hk hα hβ hc hdev hσ hδ habs

theorem homogeneous_rate (S F e : Field n N) :
    Backend.norm (homogeneous kind k (prepare m mag alpha beta S F) e) ≤ rateOf (alpha.im * beta) σ δ * Backend.norm e := by
  have hA : 0 < alpha.im * beta := mul_pos hα hβ
  have hP : Absorptive k (prepare m mag alpha beta S F) (δ / (alpha.im * beta)) := by
    rw [prepare_eq m mag hα.ne']
    exact absorptive_of_deviation kind m mag hα hβ S F hc habs
  have h := homogeneous_absorptive hk kind (s := prepare m mag alpha beta S F) hα.ne' (by rwa [div_lt_one hA]) (div_pos hδ hA)
    (bounded_prepare kind hα hβ hc hdev S F) hP e
  rw [gainOf_eq hA] at h
  exact le_sqrt_mul (norm_nonneg' _) (norm_nonneg' _) h

/-- Geometric convergence with an explicit rate. -/
theorem converges_absorbing (S F : Field n N) :
    ∃ P, waveOp k beta kind m P = S ∧ ContractsAtRate kind k (prepare m mag alpha beta S F) P (rateOf (alpha.im * beta) σ δ) := by
  have hA : 0 < alpha.im * beta := mul_pos hα hβ
  refine converges_rate hk kind hα hβ hc hdev (fun F => ?_) hσ (rateOf_nonneg _ _ _) (rateOf_lt_one hA hσ hδ)
    (homogeneous_rate hk kind hα hβ hc hdev hσ hδ habs 0 0) S F
  exact (by positivity : (0 : ℝ) ≤ δ * Backend.norm F ^ 2).trans (habs F)

end

/-! ### The largest singular value is the smallest bound -/

theorem largestEigenvalue_le {A B : Tensor n N} (h : ∀ x, B x = (A x)ᴴ * A x) {s : ℝ} (hs : Within A s) : largestEigenvalue B ≤ s ^ 2 := by
  refine Real.sSup_le ?_ (sq_nonneg s)
  rintro r ⟨x, z, hz, rfl⟩
  obtain ⟨v, hv, hBv⟩ := (mem_roots_iff _ _).1 hz
  have h1 := normSq_mulVec (A x) v
  rw [← h, hBv, dotProduct_smul, star_dot_self, smul_eq_mul] at h1
  have h2 := sum_pos_of_ne hv
  have h3 := congrArg (fun w : ℂ => ‖w‖) h1
  simp only [norm_mul, norm_real, Real.norm_eq_abs] at h3
  rw [abs_of_pos h2, abs_of_nonneg (Finset.sum_nonneg fun i _ => sq_nonneg _)] at h3
  have h4 := hs x v
  rw [h3] at h4
  exact le_of_mul_le_mul_right h4 h2

theorem Medium.sigmaEE_le (m : Medium n N) (alphaR : ℝ) {beta : ℝ} (hβ : beta ≠ 0) {s : ℝ} (h0 : 0 ≤ s)
    (hs : Within (fun x => m.epsilonPrime x - ((alphaR * beta : ℝ) : ℂ) • 1) s) : m.sigmaEE alphaR beta * |beta| ≤ s := by
  unfold Medium.sigmaEE
  rw [div_mul_cancel₀ _ (abs_ne_zero.2 hβ), Real.sqrt_le_left h0]
  refine largestEigenvalue_le (fun x => ?_) hs
  rw [gram_sub, Medium.deltaEEBeta2, add_comm]

end Verif.Solver
