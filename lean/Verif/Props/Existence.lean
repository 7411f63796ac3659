import Verif.Lemmas.ExistenceSeries
import Verif.Props.RefinementFlux

/-!
# C130: there is exactly one exact solution, and the solver converges to it

C128 compares the solver with a solution in space that is taken for granted.  Here its existence is shown, for all materials that absorb and all sources, that vary smoothly.
-/

namespace Verif.Existence

open Verif Verif.Fourier Verif.Backend Verif.Solver Verif.Continuous Verif.Refinement Verif.Spec.Continuous Verif.Spec.Refinement Verif.Spec.Existence Complex Matrix Filter Topology
open Verif.Spec.Solver (Coupled WaveEquation ScalarWaveEquation)

variable {d : ℕ}

theorem smooth_extruded {n : ℕ} {period : Fin d → ℝ} {f : Point → ℂ} (h : SmoothTo n period f) : Extruded d f := by
  obtain ⟨a, ha⟩ := h
  rw [show f = sum (harmonic period) a from funext ha.value]
  exact sum_extruded _ _

theorem smooth_matrix_extruded {n : ℕ} {period : Fin d → ℝ} {A : Point → Matrix (Fin 3) (Fin 3) ℂ} (h : ∀ c c', SmoothTo n period fun r => A r c c') : Extruded d A := fun r r' hr => by
  ext c c'
  exact smooth_extruded (h c c') r r' hr

theorem order_mul {n : ℕ} {period : Fin d → ℝ} {f : Point → ℂ} {a : (Fin d → ℤ) → ℂ} (h : HasOrderSeries n period f a) (z : ℂ) : HasOrderSeries n period (fun r => z * f r) fun j => z * a j where
  value r := by
    rw [h.value, ← tsum_mul_left]
    exact tsum_congr fun j => (mul_assoc _ _ _).symm
  summable := by simpa only [norm_mul] using h.summable.mul_left ‖z‖
  highest c := by simpa only [norm_mul, mul_left_comm] using (h.highest c).mul_left ‖z‖

theorem order_zero (n : ℕ) (period : Fin d → ℝ) : HasOrderSeries n period (fun _ => 0) fun _ => 0 where
  value r := by simp
  summable := by simpa using summable_zero
  highest c := by simpa using summable_zero

theorem second_summable {period : Fin d → ℝ} {f : Point → ℂ} {a : (Fin d → ℤ) → ℂ} (h : HasSeries period f a) (c c' : Fin 3) (r : Point) :
    Summable fun j => -((harmonic period j c * harmonic period j c' : ℝ) : ℂ) * a j * wave (harmonic period j) r := by
  refine Summable.of_norm ((summable_second h c c').congr fun j => ?_)
  rw [norm_mul, norm_mul, norm_neg, norm_real, norm_wave, mul_one, Real.norm_eq_abs, abs_mul]

/-- `∇ × ∇ ×` for a wave. -/
noncomputable def curlCurl (kappa : Point) : Matrix (Fin 3) (Fin 3) ℂ := Matrix.of fun c b => (((if c = b then squared kappa else 0) - kappa c * kappa b : ℝ) : ℂ)

theorem curlCurl_series {period : Fin d → ℝ} {E : Fin 3 → Point → ℂ} {x : (Fin d → ℤ) → Fin 3 → ℂ} (h : ∀ c, HasSeries period (E c) fun j => x j c) (c : Fin 3) (r : Point) :
    Spec.Continuous.curl (Spec.Continuous.curl E) c r = ∑' j, (curlCurl (harmonic period j)).mulVec (x j) c * wave (harmonic period j) r := by
  rw [curl_curl (fun c => hasSeries_twice (h c))]
  simp only [hasSeries_second (h _)]
  unfold Refinement.sum
  have h1 : ∀ b, (∑' j, -((harmonic period j c * harmonic period j b : ℝ) : ℂ) * x j b * wave (harmonic period j) r) - (∑' j, -((harmonic period j b * harmonic period j b : ℝ) : ℂ) * x j c * wave (harmonic period j) r) =
      ∑' j, ((harmonic period j b * harmonic period j b : ℝ) * x j c - (harmonic period j c * harmonic period j b : ℝ) * x j b) * wave (harmonic period j) r := by
    intro b
    rw [← (second_summable (h b) c b r).tsum_sub (second_summable (h c) b b r)]
    refine tsum_congr fun j => ?_
    ring
  simp only [h1]
  rw [← Summable.tsum_finsetSum fun b _ => by
    refine ((second_summable (h b) c b r).sub (second_summable (h c) b b r)).congr fun j => ?_
    ring]
  refine tsum_congr fun j => ?_
  rw [← Finset.sum_mul]
  congr 1
  unfold curlCurl Matrix.mulVec dotProduct squared
  simp only [Matrix.of_apply, Fin.sum_univ_three]
  push_cast
  fin_cases c <;> simp <;> ring

theorem curlCurl_hermitian (kappa : Point) (z : ℝ) : ((z : ℂ) • curlCurl kappa).IsHermitian := by
  ext c b
  rw [Matrix.conjTranspose_apply]
  unfold curlCurl
  simp only [Matrix.smul_apply, Matrix.of_apply, smul_eq_mul, star_def, map_mul, conj_ofReal]
  rw [mul_comm (kappa b)]
  by_cases hcb : c = b
  · subst hcb
    rfl
  · rw [if_neg hcb, if_neg (Ne.symm hcb)]

/-- The series of a field that satisfies the wave equation. -/
theorem exists_electric {n : ℕ} (hd : d ≤ 3) {period : Fin d → ℝ} (hper : ∀ b, period b ≠ 0) {k0 : ℝ} (hk0 : 0 < k0) {epsilon : Point → Matrix (Fin 3) (Fin 3) ℂ} (hsm : ∀ c c', SmoothTo (n + 5) period fun r => epsilon r c c')
    {δ : ℝ} (hδ : 0 < δ) (habs : AbsorbsInSpace epsilon δ) {r : ℝ} {S : Fin 3 → Point → ℂ} (hS : ∀ c, SmoothTo (n + 5) period (S c)) :
    ∃ x : (Fin d → ℤ) → Fin 3 → ℂ, (∀ c, HasSeries period (fun ρ => ∑' j, x j c * wave (harmonic period j) ρ) fun j => x j c) ∧
      (∀ c b, Summable fun j => |harmonic period j b| ^ n * ((1 + squared (harmonic period j)) * ‖x j c‖)) ∧ WaveEquationInSpace k0 epsilon r S fun c ρ => ∑' j, x j c * wave (harmonic period j) ρ := by
  choose e he using hsm
  choose s hs using hS
  obtain ⟨x, h1, hw, h2⟩ := exists_fields hd hper (D := fun j => ((r⁻¹ : ℝ) : ℂ) • curlCurl (harmonic period j)) (fun j => curlCurl_hermitian _ _) (A := fun ρ => ((k0 ^ 2 : ℝ) : ℂ) • epsilon ρ)
    (m := fun j => Matrix.of fun c c' => ((k0 ^ 2 : ℝ) : ℂ) * e c c' j) (fun c c' => order_mul (he c c') _) (δ := k0 ^ 2 * δ) (by positivity) (fun ρ v => by
      rw [Matrix.smul_mulVec, dotProduct_smul, smul_eq_mul, im_ofReal_mul, mul_assoc]
      exact mul_le_mul_of_nonneg_left (habs ρ v) (sq_nonneg _)) (s := fun j c => s c j) hs
  refine ⟨x, h1, hw, fun c ρ => ?_⟩
  · rw [curlCurl_series h1, ← (h2 c ρ).2, ← tsum_mul_left, Matrix.smul_mulVec, Pi.smul_apply, smul_eq_mul, ofReal_pow]
    congr 1
    refine tsum_congr fun j => ?_
    rw [Matrix.smul_mulVec, Pi.smul_apply, smul_eq_mul, ofReal_inv, mul_assoc]

/-- **C130.** In every material that absorbs, and for every source, both smooth, there is exactly one field that satisfies the wave equation in space. -/
theorem C130_exists (hd : d ≤ 3) {period : Fin d → ℝ} (hper : ∀ b, period b ≠ 0) {k0 : ℝ} (hk0 : 0 < k0) {epsilon : Point → Matrix (Fin 3) (Fin 3) ℂ} (hsm : ∀ c c', Smooth period fun r => epsilon r c c')
    {δ : ℝ} (hδ : 0 < δ) (habs : AbsorbsInSpace epsilon δ) {r : ℝ} (hr : 0 < r) {S : Fin 3 → Point → ℂ} (hS : ∀ c, Smooth period (S c)) :
    ∃! E : Fin 3 → Point → ℂ, (∀ c, ∃ a, HasSeries period (E c) a) ∧ WaveEquationInSpace k0 epsilon r S E := by
  obtain ⟨x, h1, _, hE⟩ := exists_electric (n := 0) hd hper hk0 hsm hδ habs (r := r) hS
  refine ⟨_, ⟨fun c => ⟨_, h1 c⟩, hE⟩, fun E' hE' => ?_⟩
  choose a' ha' using hE'.1
  exact (C128_unique hd hper hk0 (smooth_matrix_extruded hsm) hδ habs hr hE hE'.2 h1 ha').symm

/-- The series of a scalar field that satisfies the wave equation. -/
theorem exists_scalar {n : ℕ} (hd : d ≤ 3) {period : Fin d → ℝ} (hper : ∀ b, period b ≠ 0) {k0 : ℝ} (hk0 : 0 < k0) {epsilon : Point → ℂ} (hsm : SmoothTo (n + 5) period epsilon) {δ : ℝ} (hδ : 0 < δ)
    (habs : ∀ r, δ ≤ (epsilon r).im) {r : ℝ} {S : Point → ℂ} (hS : SmoothTo (n + 5) period S) :
    ∃ x : (Fin d → ℤ) → ℂ, HasSeries period (fun ρ => ∑' j, x j * wave (harmonic period j) ρ) x ∧ (∀ b, Summable fun j => |harmonic period j b| ^ n * ((1 + squared (harmonic period j)) * ‖x j‖)) ∧
      ScalarWaveEquationInSpace k0 epsilon r S fun ρ => ∑' j, x j * wave (harmonic period j) ρ := by
  obtain ⟨e, he⟩ := hsm
  obtain ⟨s, hs⟩ := hS
  obtain ⟨x, h1, hw, h2⟩ := exists_fields (ι := Fin 1) hd hper (D := fun j => Matrix.of fun _ _ => ((r⁻¹ * squared (harmonic period j) : ℝ) : ℂ)) (fun j => by
      ext c b
      rw [Matrix.conjTranspose_apply, Matrix.of_apply, star_def, conj_ofReal, Matrix.of_apply]) (A := fun ρ => Matrix.of fun _ _ => ((k0 ^ 2 : ℝ) : ℂ) * epsilon ρ)
    (m := fun j => Matrix.of fun _ _ => ((k0 ^ 2 : ℝ) : ℂ) * e j) (fun c c' => order_mul he _) (δ := k0 ^ 2 * δ) (by positivity) (fun ρ v => by
      unfold dotProduct Matrix.mulVec dotProduct
      rw [Fin.sum_univ_one, Fin.sum_univ_one, Fin.sum_univ_one]
      dsimp only [Matrix.of_apply]
      rw [Pi.star_apply, star_def,
        show (starRingEnd ℂ) (v 0) * (((k0 ^ 2 : ℝ) : ℂ) * epsilon ρ * v 0) = ((k0 ^ 2 * ‖v 0‖ ^ 2 : ℝ) : ℂ) * epsilon ρ by
          push_cast
          rw [← conj_mul']
          ring, im_ofReal_mul]
      nlinarith [habs ρ, mul_nonneg (sq_nonneg k0) (sq_nonneg ‖v 0‖)]) (s := fun j _ => s j) (S := fun _ => S) fun _ => hs
  refine ⟨fun j => x j 0, h1 0, hw 0, fun ρ => ?_⟩
  · rw [← (h2 0 ρ).2]
    unfold laplacian
    simp only [hasSeries_second (h1 0)]
    unfold Refinement.sum
    rw [← Summable.tsum_finsetSum fun a _ => second_summable (h1 0) a a ρ, ← tsum_mul_left]
    congr 1
    · refine tsum_congr fun j => ?_
      unfold Matrix.mulVec dotProduct squared
      rw [Fin.sum_univ_one, Fin.sum_univ_three]
      dsimp only [Matrix.of_apply]
      rw [Fin.sum_univ_three]
      push_cast
      ring
    · unfold Matrix.mulVec dotProduct
      rw [Fin.sum_univ_one]
      dsimp only [Matrix.of_apply]
      push_cast
      ring

/-- **C130 (scalar).** -/
theorem C130_scalar_exists (hd : d ≤ 3) {period : Fin d → ℝ} (hper : ∀ b, period b ≠ 0) {k0 : ℝ} (hk0 : 0 < k0) {epsilon : Point → ℂ} (hsm : Smooth period epsilon) {δ : ℝ} (hδ : 0 < δ)
    (habs : ∀ r, δ ≤ (epsilon r).im) {r : ℝ} (hr : 0 < r) {S : Point → ℂ} (hS : Smooth period S) : ∃! E : Point → ℂ, (∃ a, HasSeries period E a) ∧ ScalarWaveEquationInSpace k0 epsilon r S E := by
  obtain ⟨x, h1, _, hE⟩ := exists_scalar (n := 0) hd hper hk0 hsm hδ habs (r := r) hS
  refine ⟨_, ⟨⟨_, h1⟩, hE⟩, fun E' hE' => ?_⟩
  obtain ⟨a', ha'⟩ := hE'.1
  exact (C128_scalar_unique hd hper hk0 (smooth_extruded hsm) hδ habs hr hE hE'.2 h1 ha').symm

/-! ### Materials with coupling -/

/-- `κ ×` as a matrix. -/
noncomputable def crossMatrix (kappa : Point) : Matrix (Fin 3) (Fin 3) ℂ := !![0, -(kappa 2 : ℂ), kappa 1; (kappa 2 : ℂ), 0, -(kappa 0 : ℂ); -(kappa 1 : ℂ), kappa 0, 0]

theorem curl_series {period : Fin d → ℝ} {E : Fin 3 → Point → ℂ} {x : (Fin d → ℤ) → Fin 3 → ℂ} (h : ∀ c, HasSeries period (E c) fun j => x j c) (c : Fin 3) (r : Point) :
    Spec.Continuous.curl E c r = ∑' j, I * (crossMatrix (harmonic period j)).mulVec (x j) c * wave (harmonic period j) r := by
  have h1 : ∀ b c, Summable fun j => I * (harmonic period j b : ℂ) * x j c * wave (harmonic period j) r := fun b c => by
    refine Summable.of_norm ((summable_first (h c) b).congr fun j => ?_)
    rw [norm_mul, norm_mul, norm_mul, norm_I, one_mul, norm_real, norm_wave, mul_one, Real.norm_eq_abs]
  have h2 : ∀ b c b' c', partialDeriv b (E c) r - partialDeriv b' (E c') r = ∑' j, I * ((harmonic period j b : ℂ) * x j c - harmonic period j b' * x j c') * wave (harmonic period j) r := by
    intro b c b' c'
    rw [hasSeries_partialDeriv (h c), hasSeries_partialDeriv (h c')]
    unfold Refinement.sum
    rw [← (h1 b c).tsum_sub (h1 b' c')]
    refine tsum_congr fun j => ?_
    ring
  unfold crossMatrix Matrix.mulVec dotProduct
  fin_cases c
  · change partialDeriv 1 (E 2) r - partialDeriv 2 (E 1) r = _
    rw [h2]
    refine tsum_congr fun j => ?_
    congr 2
    simp [Fin.sum_univ_three]
    try ring
  · change partialDeriv 2 (E 0) r - partialDeriv 0 (E 2) r = _
    rw [h2]
    refine tsum_congr fun j => ?_
    congr 2
    simp [Fin.sum_univ_three]
    try ring
  · change partialDeriv 0 (E 1) r - partialDeriv 1 (E 0) r = _
    rw [h2]
    refine tsum_congr fun j => ?_
    congr 2
    simp [Fin.sum_univ_three]
    try ring

theorem crossMatrix_conjTranspose (kappa : Point) : (crossMatrix kappa)ᴴ = -crossMatrix kappa := by
  ext c b
  rw [Matrix.conjTranspose_apply, Matrix.neg_apply]
  unfold crossMatrix
  fin_cases c <;> fin_cases b <;> simp

theorem maxwell_hermitian (kappa : Point) (k0 : ℝ) : (Matrix.fromBlocks 0 (-((k0⁻¹ : ℝ) : ℂ) • crossMatrix kappa) (((k0⁻¹ : ℝ) : ℂ) • crossMatrix kappa) 0).IsHermitian := by
  unfold Matrix.IsHermitian
  rw [Matrix.fromBlocks_conjTranspose, Matrix.conjTranspose_zero, Matrix.conjTranspose_smul, Matrix.conjTranspose_smul, crossMatrix_conjTranspose, star_neg, star_def, conj_ofReal, smul_neg,
    smul_neg, neg_smul, neg_neg]

/-- The series of the fields that satisfy Maxwell's equations. -/
theorem exists_coupled {n : ℕ} (hd : d ≤ 3) {period : Fin d → ℝ} (hper : ∀ b, period b ≠ 0) {k0 : ℝ} (hk0 : 0 < k0) {epsilon xi zeta mu : Point → Matrix (Fin 3) (Fin 3) ℂ}
    (hse : ∀ c c', SmoothTo (n + 5) period fun r => epsilon r c c') (hsx : ∀ c c', SmoothTo (n + 5) period fun r => xi r c c') (hsz : ∀ c c', SmoothTo (n + 5) period fun r => zeta r c c')
    (hsm : ∀ c c', SmoothTo (n + 5) period fun r => mu r c c') {δ : ℝ} (hδ : 0 < δ) (habs : AbsorbsBothInSpace epsilon xi zeta mu δ) {S : Fin 3 → Point → ℂ} (hS : ∀ c, SmoothTo (n + 5) period (S c)) :
    ∃ x : (Fin d → ℤ) → Fin 3 ⊕ Fin 3 → ℂ, (∀ c, HasSeries period (fun ρ => ∑' j, x j c * wave (harmonic period j) ρ) fun j => x j c) ∧
      (∀ c b, Summable fun j => |harmonic period j b| ^ n * ((1 + squared (harmonic period j)) * ‖x j c‖)) ∧
      CoupledInSpace k0 epsilon xi zeta mu S (fun c ρ => ∑' j, x j (.inl c) * wave (harmonic period j) ρ) fun c ρ => ∑' j, x j (.inr c) * wave (harmonic period j) ρ := by
  have hk : (k0 : ℂ) ≠ 0 := ofReal_ne hk0.ne'
  choose e he using hse
  choose ex hex using hsx
  choose ez hez using hsz
  choose em hem using hsm
  choose s hs using hS
  obtain ⟨x, h1, hw, h2⟩ := exists_fields (ι := Fin 3 ⊕ Fin 3) hd hper (D := fun j => Matrix.fromBlocks 0 (-((k0⁻¹ : ℝ) : ℂ) • crossMatrix (harmonic period j)) (((k0⁻¹ : ℝ) : ℂ) • crossMatrix (harmonic period j)) 0)
    (fun j => maxwell_hermitian _ _) (A := fun ρ => Matrix.fromBlocks (epsilon ρ) (xi ρ) (zeta ρ) (mu ρ))
    (m := fun j => Matrix.fromBlocks (Matrix.of fun c c' => e c c' j) (Matrix.of fun c c' => ex c c' j) (Matrix.of fun c c' => ez c c' j) (Matrix.of fun c c' => em c c' j)) (fun c c' => by
      rcases c with c | c <;> rcases c' with c' | c'
      · exact he c c'
      · exact hex c c'
      · exact hez c c'
      · exact hem c c') hδ (fun ρ v => by
      have := habs ρ (fun c => v (.inl c)) fun c => v (.inr c)
      rw [Fintype.sum_sum_type]
      refine this.trans (le_of_eq ?_)
      rw [Matrix.fromBlocks_mulVec]
      unfold dotProduct
      rw [Fintype.sum_sum_type]
      rfl) (S := Sum.elim (fun c ρ => ((k0 : ℂ) ^ 2)⁻¹ * S c ρ) fun _ _ => 0) (s := fun j => Sum.elim (fun c => ((k0 : ℂ) ^ 2)⁻¹ * s c j) fun _ => 0) (fun c => by
      rcases c with c | c
      · exact order_mul (hs c) _
      · exact order_zero _ period)
  set E : Fin 3 → Point → ℂ := fun c ρ => ∑' j, x j (.inl c) * wave (harmonic period j) ρ with hE
  set H : Fin 3 → Point → ℂ := fun c ρ => ∑' j, x j (.inr c) * wave (harmonic period j) ρ with hH
  have hEs : ∀ c, HasSeries period (E c) fun j => x j (.inl c) := fun c => h1 (.inl c)
  have hHs : ∀ c, HasSeries period (H c) fun j => x j (.inr c) := fun c => h1 (.inr c)
  refine ⟨x, h1, hw, ?_⟩
  · change CoupledInSpace k0 epsilon xi zeta mu S E H
    constructor
    · intro c ρ
      have h3 := (h2 (.inr c) ρ).2
      have h4 : ∑' j, (Matrix.fromBlocks 0 (-((k0⁻¹ : ℝ) : ℂ) • crossMatrix (harmonic period j)) (((k0⁻¹ : ℝ) : ℂ) • crossMatrix (harmonic period j)) 0).mulVec (x j) (.inr c) * wave (harmonic period j) ρ =
          (I * k0)⁻¹ * Spec.Continuous.curl E c ρ := by
        rw [curl_series hEs, ← tsum_mul_left]
        refine tsum_congr fun j => ?_
        rw [Matrix.fromBlocks_mulVec, Sum.elim_inr, Matrix.zero_mulVec, add_zero, Matrix.smul_mulVec, Pi.smul_apply, smul_eq_mul, ofReal_inv]
        rw [← mul_assoc ((I * (k0 : ℂ))⁻¹), ← mul_assoc ((I * (k0 : ℂ))⁻¹), mul_inv, show I⁻¹ * (k0 : ℂ)⁻¹ * I = (k0 : ℂ)⁻¹ by rw [mul_right_comm, inv_mul_cancel₀ I_ne_zero, one_mul]]
        rfl
      rw [h4, Sum.elim_inr, Matrix.fromBlocks_mulVec, Sum.elim_inr, Pi.add_apply, sub_eq_zero, inv_mul_eq_iff_eq_mul₀ (mul_ne_zero I_ne_zero hk)] at h3
      exact h3
    · intro c ρ
      have h3 := (h2 (.inl c) ρ).2
      have h4 : ∑' j, (Matrix.fromBlocks 0 (-((k0⁻¹ : ℝ) : ℂ) • crossMatrix (harmonic period j)) (((k0⁻¹ : ℝ) : ℂ) • crossMatrix (harmonic period j)) 0).mulVec (x j) (.inl c) * wave (harmonic period j) ρ =
          -(I * k0)⁻¹ * Spec.Continuous.curl H c ρ := by
        rw [curl_series hHs, ← tsum_mul_left]
        refine tsum_congr fun j => ?_
        rw [Matrix.fromBlocks_mulVec, Sum.elim_inl, Matrix.zero_mulVec, zero_add, Matrix.smul_mulVec, Pi.smul_apply, smul_eq_mul, ofReal_inv]
        rw [← mul_assoc (-(I * (k0 : ℂ))⁻¹), ← mul_assoc (-(I * (k0 : ℂ))⁻¹), mul_inv, show -(I⁻¹ * (k0 : ℂ)⁻¹) * I = -(k0 : ℂ)⁻¹ by
          rw [neg_mul, mul_right_comm, inv_mul_cancel₀ I_ne_zero, one_mul]]
        rfl
      rw [h4, Sum.elim_inl, Matrix.fromBlocks_mulVec, Sum.elim_inl, Pi.add_apply] at h3
      change -(I * (k0 : ℂ))⁻¹ * Spec.Continuous.curl H c ρ - ((epsilon ρ).mulVec (fun j => E j ρ) c + (xi ρ).mulVec (fun j => H j ρ) c) = ((k0 : ℂ) ^ 2)⁻¹ * S c ρ at h3
      have h5 : Spec.Continuous.curl H c ρ = -(I * k0) * (-(I * (k0 : ℂ))⁻¹ * Spec.Continuous.curl H c ρ) := by
        rw [← mul_assoc, neg_mul_neg, mul_inv_cancel₀ (mul_ne_zero I_ne_zero hk), one_mul]
      rw [h5, sub_eq_iff_eq_add.1 h3]
      field_simp
      ring

/-- **C130 (coupled).** In every linear material that absorbs there is exactly one pair of electric and magnetic fields that satisfies Maxwell's equations. -/
theorem C130_coupled_exists (hd : d ≤ 3) {period : Fin d → ℝ} (hper : ∀ b, period b ≠ 0) {k0 : ℝ} (hk0 : 0 < k0) {epsilon xi zeta mu : Point → Matrix (Fin 3) (Fin 3) ℂ}
    (hse : ∀ c c', Smooth period fun r => epsilon r c c') (hsx : ∀ c c', Smooth period fun r => xi r c c') (hsz : ∀ c c', Smooth period fun r => zeta r c c') (hsm : ∀ c c', Smooth period fun r => mu r c c') {δ : ℝ}
    (hδ : 0 < δ) (habs : AbsorbsBothInSpace epsilon xi zeta mu δ) {S : Fin 3 → Point → ℂ} (hS : ∀ c, Smooth period (S c)) :
    ∃! F : (Fin 3 → Point → ℂ) × (Fin 3 → Point → ℂ), (∀ c, ∃ a, HasFirstSeries period (F.1 c) a) ∧ (∀ c, ∃ b, HasFirstSeries period (F.2 c) b) ∧ CoupledInSpace k0 epsilon xi zeta mu S F.1 F.2 := by
  obtain ⟨x, h1, _, hsol⟩ := exists_coupled (n := 0) hd hper hk0 hse hsx hsz hsm hδ habs hS
  refine ⟨(_, _), ⟨fun c => ⟨_, hasSeries_first (h1 (.inl c))⟩, fun c => ⟨_, hasSeries_first (h1 (.inr c))⟩, hsol⟩, fun F hF => ?_⟩
  obtain ⟨hF1, hF2, hF3⟩ := hF
  choose a' ha' using hF1
  choose b' hb' using hF2
  obtain ⟨h3, h4⟩ := C128_coupled_unique hd hper hk0 (smooth_matrix_extruded hse) (smooth_matrix_extruded hsx) (smooth_matrix_extruded hsz) (smooth_matrix_extruded hsm) hδ habs hsol hF3
    (fun c => hasSeries_first (h1 (.inl c))) ha' (fun c => hasSeries_first (h1 (.inr c))) hb'
  exact Prod.ext h3.symm h4.symm

/-! ### What absorption is for -/

theorem coefficients_zero (hd : d ≤ 3) {period : Fin d → ℝ} (hper : ∀ b, period b ≠ 0) {m : (Fin d → ℤ) → ℂ} (hm : Summable fun j => ‖m j‖) (h : ∀ r, ∑' j, m j * wave (harmonic period j) r = 0) : m = 0 := by
  funext j
  have h1 := tendsto_mean hd hper hm (-j)
  have h2 : ∀ r, ∑' i, m i * wave (harmonic period (i + -j)) r = 0 := fun r => by
    rw [← zero_mul (wave (harmonic period (-j)) r), ← h r, ← tsum_mul_right]
    refine tsum_congr fun i => ?_
    rw [harmonic_add, wave_add, mul_assoc]
  have h3 : ∀ N, mean period N (fun _ => 0) = 0 := fun N => by
    unfold mean
    rw [Finset.sum_const_zero, zero_div]
  simp only [h2, h3, neg_neg] at h1
  exact (tendsto_nhds_unique h1 tendsto_const_nhds)

/-- The series of a function with an absolutely convergent series is unique. -/
theorem coefficients_unique (hd : d ≤ 3) {period : Fin d → ℝ} (hper : ∀ b, period b ≠ 0) {f : Point → ℂ} {a b : (Fin d → ℤ) → ℂ} (ha : HasSeries period f a) (hb : HasSeries period f b) : a = b := by
  refine sub_eq_zero.1 (coefficients_zero hd hper (m := a - b) (Summable.of_nonneg_of_le (fun _ => norm_nonneg _) (fun j => norm_sub_le _ _) (ha.summable.add hb.summable)) fun r => ?_)
  simp only [Pi.sub_apply, sub_mul]
  rw [(summable_wave ha.summable r).tsum_sub (summable_wave hb.summable r), ← ha.value, ← hb.value, sub_self]

theorem unit_harmonic (j : Fin 1 → ℤ) : harmonic (1 : Fin 1 → ℝ) j 1 = 0 ∧ harmonic (1 : Fin 1 → ℝ) j 2 = 0 ∧ harmonic (1 : Fin 1 → ℝ) j 0 = 2 * Real.pi * j 0 := by
  unfold harmonic
  refine ⟨dif_neg (by decide), dif_neg (by decide), ?_⟩
  rw [dif_pos (by decide)]
  simp

theorem unit_curlCurl (j : Fin 1 → ℤ) (v : Fin 3 → ℂ) : (curlCurl (harmonic 1 j)).mulVec v 1 = (squared (harmonic (1 : Fin 1 → ℝ) j) : ℂ) * v 1 := by
  unfold curlCurl Matrix.mulVec dotProduct
  rw [Fin.sum_univ_three]
  simp [(unit_harmonic j).1]

theorem unit_squared (j : Fin 1 → ℤ) : squared (harmonic (1 : Fin 1 → ℝ) j) = (2 * Real.pi * j 0) ^ 2 := by
  unfold squared
  rw [Fin.sum_univ_three, (unit_harmonic j).1, (unit_harmonic j).2.1, (unit_harmonic j).2.2]
  ring

theorem coefficients_sub (hd : d ≤ 3) {period : Fin d → ℝ} (hper : ∀ b, period b ≠ 0) {z : ℂ} {a b s : (Fin d → ℤ) → ℂ} (ha : Summable fun j => ‖a j‖) (hb : Summable fun j => ‖b j‖) (hs : Summable fun j => ‖s j‖)
    (h : ∀ r, ∑' j, a j * wave (harmonic period j) r - z * ∑' j, b j * wave (harmonic period j) r = ∑' j, s j * wave (harmonic period j) r) (j : Fin d → ℤ) : a j - z * b j = s j := by
  have hm : Summable fun j => ‖a j - z * b j - s j‖ := Summable.of_nonneg_of_le (fun _ => norm_nonneg _) (fun j => (norm_sub_le _ _).trans (add_le_add (norm_sub_le _ _) le_rfl))
    ((ha.add (by simpa only [norm_mul] using hb.mul_left ‖z‖)).add hs)
  refine sub_eq_zero.1 (congrFun (coefficients_zero hd hper hm fun r => ?_) j)
  have h1 := h r
  rw [← tsum_mul_left, ← (summable_wave ha r).tsum_sub ((summable_wave hb r).mul_left z), ← sub_eq_zero, ← ((summable_wave ha r).sub ((summable_wave hb r).mul_left z)).tsum_sub (summable_wave hs r)] at h1
  rw [← h1]
  exact tsum_congr fun j => by ring

/-- **C130 (fails without absorption).** In vacuum, a source that is a wave of the wavelength of the light, in a period of that wavelength, has no field: the field would have to grow without bound. -/
theorem C130_lossless_violates : ¬∃ E : Fin 3 → Point → ℂ, (∀ c, ∃ a, HasSeries (1 : Fin 1 → ℝ) (E c) a) ∧
    WaveEquationInSpace (2 * Real.pi) (fun _ => 1) 1 (fun c r => if c = 1 then wave (harmonic (1 : Fin 1 → ℝ) 1) r else 0) E := by
  rintro ⟨E, h1, h2⟩
  choose a ha using h1
  have hsum : Summable fun j => ‖(squared (harmonic (1 : Fin 1 → ℝ) j) : ℂ) * a 1 j‖ := (ha 1).second.congr fun j => by
    rw [norm_mul, norm_real, Real.norm_of_nonneg (squared_nonneg _)]
  have h3 := coefficients_sub (d := 1) (by decide) (period := 1) (fun _ => one_ne_zero) (z := ((2 * Real.pi : ℝ) : ℂ) ^ 2) hsum (ha 1).summable (hasSeries_single (1 : Fin 1 → ℝ) 1 1).summable fun r => by
    have h4 := h2 1 r
    dsimp only at h4
    rw [curlCurl_series (x := fun j c => a c j) ha, Matrix.one_mulVec, if_pos rfl, (ha 1).value, inv_one, one_mul] at h4
    simp only [unit_curlCurl] at h4
    rw [h4, ← (hasSeries_single (1 : Fin 1 → ℝ) 1 1).value, one_mul]
  have h4 := h3 1
  rw [unit_squared, Pi.single_eq_same] at h4
  simp at h4

/-! ### The solver converges to it -/

/-- **C130 (limit).** For all smooth absorbing materials and sources, the fields on finer and finer grids tend to one field: that which satisfies the wave equation in space. -/
theorem C130_limit (hd : d ≤ 3) {period : Fin d → ℝ} (hper : ∀ b, period b ≠ 0) {k0 : ℝ} (hk0 : 0 < k0) {epsilon : Point → Matrix (Fin 3) (Fin 3) ℂ} (hsm : ∀ c c', Smooth period fun r => epsilon r c c')
    {δ : ℝ} (hδ : 0 < δ) (habs : AbsorbsInSpace epsilon δ) {r : ℝ} (hr : 0 < r) {S : Fin 3 → Point → ℂ} (hS : ∀ c, Smooth period (S c)) :
    ∃ E : Fin 3 → Point → ℂ, WaveEquationInSpace k0 epsilon r S E ∧ ∀ η > 0, ∃ M : ℕ, ∀ g : Grid.Obj d ℝ, (∀ b, g.step b ≠ 0) → (∀ b, 0 < g.shape b) → (∀ b, M ≤ g.shape b) →
      (∀ b, g.shape b * g.step b = period b) → ∀ (e : Tensor 3 g.shape) (s E' F : Solver.Field 3 g.shape), SampledFrom g epsilon e → (∀ c, SampledFrom g (S c) (s c)) →
        WaveEquation (kOf g) k0 e (fun _ => (r : ℂ) • 1) s E' → (∀ c, SampledFrom g (E c) (F c)) → rms (E' - F) < η := by
  obtain ⟨E, ⟨h1, h2⟩, _⟩ := C130_exists hd hper hk0 hsm hδ habs hr hS
  choose a ha using h1
  exact ⟨E, h2, fun η hη => C128_limit hd hk0 hδ habs hr h2 ha hη⟩

/-- **C130 (limit, coupled).** -/
theorem C130_coupled_limit (hd : d ≤ 3) {period : Fin d → ℝ} (hper : ∀ b, period b ≠ 0) {k0 : ℝ} (hk0 : 0 < k0) {epsilon xi zeta mu : Point → Matrix (Fin 3) (Fin 3) ℂ}
    (hse : ∀ c c', Smooth period fun r => epsilon r c c') (hsx : ∀ c c', Smooth period fun r => xi r c c') (hsz : ∀ c c', Smooth period fun r => zeta r c c') (hsm : ∀ c c', Smooth period fun r => mu r c c') {δ : ℝ}
    (hδ : 0 < δ) (habs : AbsorbsBothInSpace epsilon xi zeta mu δ) {S : Fin 3 → Point → ℂ} (hS : ∀ c, Smooth period (S c)) :
    ∃ E H : Fin 3 → Point → ℂ, CoupledInSpace k0 epsilon xi zeta mu S E H ∧ ∀ η > 0, ∃ M : ℕ, ∀ g : Grid.Obj d ℝ, (∀ b, g.step b ≠ 0) → (∀ b, 0 < g.shape b) → (∀ b, M ≤ g.shape b) →
      (∀ b, g.shape b * g.step b = period b) → ∀ (e x z m : Tensor 3 g.shape) (s E' H' F G : Solver.Field 3 g.shape), SampledFrom g epsilon e → SampledFrom g xi x → SampledFrom g zeta z → SampledFrom g mu m →
        (∀ c, SampledFrom g (S c) (s c)) → Coupled (kOf g) k0 e x z m s E' H' → (∀ c, SampledFrom g (E c) (F c)) → (∀ c, SampledFrom g (H c) (G c)) → rms (E' - F) < η ∧ rms (H' - G) < η := by
  obtain ⟨⟨E, H⟩, ⟨h1, h2, h3⟩, _⟩ := C130_coupled_exists hd hper hk0 hse hsx hsz hsm hδ habs hS
  choose a ha using h1
  choose b hb using h2
  exact ⟨E, H, h3, fun η hη => C128_coupled_limit hd hk0 hδ habs h3 ha hb hη⟩

/-! ### Examples -/

theorem smooth_single {n : ℕ} (period : Fin d → ℝ) (j : Fin d → ℤ) (z : ℂ) : SmoothTo n period fun r => z * wave (harmonic period j) r := ⟨Pi.single j z, {
  value := (hasSeries_single period j z).value
  summable := (hasSeries_single period j z).summable
  highest := fun _ => summable_of_ne_finset_zero (s := {j}) fun i hi => by rw [Pi.single_eq_of_ne (by simpa using hi), norm_zero, mul_zero] }⟩

theorem smooth_add {n : ℕ} {period : Fin d → ℝ} {f f' : Point → ℂ} (h : SmoothTo n period f) (h' : SmoothTo n period f') : SmoothTo n period fun r => f r + f' r := by
  obtain ⟨a, ha⟩ := h
  obtain ⟨b, hb⟩ := h'
  refine ⟨fun j => a j + b j, fun r => ?_, Summable.of_nonneg_of_le (fun _ => norm_nonneg _) (fun j => norm_add_le _ _) (ha.summable.add hb.summable),
    fun c => Summable.of_nonneg_of_le (fun _ => by positivity) (fun j => ?_) ((ha.highest c).add (hb.highest c))⟩
  · rw [ha.value, hb.value, ← (summable_wave ha.summable r).tsum_add (summable_wave hb.summable r)]
    exact tsum_congr fun j => (add_mul _ _ _).symm
  · rw [← mul_add]
    exact mul_le_mul_of_nonneg_left (norm_add_le _ _) (by positivity)

theorem smooth_const {n : ℕ} (period : Fin d → ℝ) (z : ℂ) : SmoothTo n period fun _ => z := by
  have h : harmonic period 0 = 0 := by
    funext c
    unfold harmonic
    simp
  have h1 := smooth_single (n := n) period 0 z
  rw [h] at h1
  simpa [Spec.Continuous.wave] using h1

theorem sin_waves (r : Point) : ((2 + Real.sin (2 * Real.pi * r 0) : ℝ) : ℂ) = 2 + (-I / 2 * wave (harmonic (1 : Fin 1 → ℝ) 1) r + I / 2 * wave (harmonic (1 : Fin 1 → ℝ) (-1)) r) := by
  have h0 : ∑ c, harmonic (1 : Fin 1 → ℝ) 1 c * r c = 2 * Real.pi * r 0 := by
    rw [Fin.sum_univ_three, (unit_harmonic 1).1, (unit_harmonic 1).2.1, (unit_harmonic 1).2.2]
    simp
  rw [harmonic_neg, wave_neg]
  unfold Spec.Continuous.wave
  rw [h0, star_def, ← exp_conj, map_mul, conj_I, conj_ofReal, ofReal_add, ofReal_sin, Complex.sin]
  generalize ((2 * Real.pi * r 0 : ℝ) : ℂ) = z
  rw [neg_mul I z, mul_comm I z, ← neg_mul z I]
  push_cast
  ring

/-- A material that varies as a wave. -/
theorem demoEpsilon_smooth {n : ℕ} (c c' : Fin 3) : SmoothTo n (1 : Fin 1 → ℝ) fun r => demoEpsilon r c c' := by
  unfold demoEpsilon
  simp only [sin_waves, Matrix.smul_apply, Matrix.one_apply, smul_eq_mul]
  by_cases hc : c = c'
  · simp only [if_pos hc, mul_one]
    exact smooth_add (smooth_add (smooth_const _ _) (smooth_add (smooth_single _ _ _) (smooth_single _ _ _))) (smooth_const _ _)
  · simp only [if_neg hc, mul_zero]
    exact smooth_const _ _

/-- A source with more than one wave. -/
noncomputable def demoDrive (c : Fin 3) (r : Point) : ℂ := (if c = 1 then 1 else 0) * wave (harmonic (1 : Fin 1 → ℝ) 2) r + (if c = 2 then I else 1) * wave (harmonic (1 : Fin 1 → ℝ) (-1)) r

theorem demoDrive_smooth {n : ℕ} (c : Fin 3) : SmoothTo n (1 : Fin 1 → ℝ) (demoDrive c) := smooth_add (smooth_single _ _ _) (smooth_single _ _ _)

/-- The hypotheses of `C130_exists` and `C130_limit` are met. -/
example := C130_exists (d := 1) (by decide) (fun _ => one_ne_zero) one_pos demoEpsilon_smooth one_pos demoEpsilon_absorbs two_pos demoDrive_smooth

example := C130_limit (d := 1) (by decide) (fun _ => one_ne_zero) one_pos demoEpsilon_smooth one_pos demoEpsilon_absorbs two_pos demoDrive_smooth

/-- The hypotheses of `C130_scalar_exists` are met. -/
example := C130_scalar_exists (d := 1) (by decide) (period := 1) (fun _ => one_ne_zero) one_pos (epsilon := fun r => demoEpsilon r 0 0) (demoEpsilon_smooth 0 0) one_pos
  (fun r => by
    unfold demoEpsilon
    rw [Matrix.smul_apply, Matrix.one_apply_eq, smul_eq_mul, mul_one, add_im, ofReal_im, I_im, zero_add]) two_pos (demoDrive_smooth 1)

theorem demoCoupled_smooth {n : ℕ} : (∀ c c', SmoothTo n (1 : Fin 1 → ℝ) fun r => demoLossy r c c') ∧ (∀ c c', SmoothTo n (1 : Fin 1 → ℝ) fun r => (demoChirality r • (1 : Matrix (Fin 3) (Fin 3) ℂ)) c c') ∧
    (∀ c c', SmoothTo n (1 : Fin 1 → ℝ) fun r => (-demoChirality r • (1 : Matrix (Fin 3) (Fin 3) ℂ)) c c') ∧ ∀ c c', SmoothTo n (1 : Fin 1 → ℝ) fun _ => ((1 + 2 * I : ℂ) • (1 : Matrix (Fin 3) (Fin 3) ℂ)) c c' := by
  have hs : ∀ {f : Point → ℂ}, SmoothTo n (1 : Fin 1 → ℝ) f → ∀ c c', SmoothTo n (1 : Fin 1 → ℝ) fun r => (f r • (1 : Matrix (Fin 3) (Fin 3) ℂ)) c c' := fun {f} hf c c' => by
    simp only [Matrix.smul_apply, Matrix.one_apply, smul_eq_mul]
    by_cases hc : c = c'
    · simpa only [if_pos hc, mul_one] using hf
    · simp only [if_neg hc, mul_zero]
      exact smooth_const _ _
  refine ⟨hs ?_, hs ?_, hs ?_, hs (smooth_const _ _)⟩
  · simp only [sin_waves]
    exact smooth_add (smooth_add (smooth_const _ _) (smooth_add (smooth_single _ _ _) (smooth_single _ _ _))) (smooth_const _ _)
  · have := smooth_single (n := n) (1 : Fin 1 → ℝ) (fun _ => 1) 1
    simp only [one_mul] at this
    exact this
  · have := smooth_single (n := n) (1 : Fin 1 → ℝ) (fun _ => 1) (-1)
    simp only [neg_one_mul] at this
    exact this

/-- The hypotheses of `C130_coupled_exists` and `C130_coupled_limit` are met by a chiral material. -/
example := C130_coupled_exists (d := 1) (by decide) (fun _ => one_ne_zero) one_pos demoCoupled_smooth.1 demoCoupled_smooth.2.1 demoCoupled_smooth.2.2.1 demoCoupled_smooth.2.2.2 one_pos demoCoupled_absorbs demoDrive_smooth

example := C130_coupled_limit (d := 1) (by decide) (fun _ => one_ne_zero) one_pos demoCoupled_smooth.1 demoCoupled_smooth.2.1 demoCoupled_smooth.2.2.1 demoCoupled_smooth.2.2.2 one_pos demoCoupled_absorbs demoDrive_smooth

end Verif.Existence

namespace Verif.Problem

open Verif Verif.Fourier Verif.Backend Verif.Solver Verif.Construct Verif.Refinement Verif.Existence Verif.Spec.Existence Complex Matrix
open Verif.Spec.Continuous (Point)
open Verif.Spec.Refinement

variable {d : ℕ}

/-- **C130 (as called).** Every smooth absorbing material with every smooth source has exactly one exact field, and the solver returns it to within any accuracy, once the grid is fine enough and the iterations are enough. -/
theorem C130_called_limit (hd : d ≤ 3) {period : Fin d → ℝ} (hper : ∀ b, period b ≠ 0) {k0 : ℝ} (hk0 : 0 < k0) {epsilon : Point → Matrix (Fin 3) (Fin 3) ℂ} (hsm : ∀ c c', Smooth period fun r => epsilon r c c')
    {δ : ℝ} (hδ : 0 < δ) (habs : AbsorbsInSpace epsilon δ) {r : ℝ} (hr : 0 < r) {S : Fin 3 → Point → ℂ} (hS : ∀ c, Smooth period (S c)) :
    ∃ E : Fin 3 → Point → ℂ, WaveEquationInSpace k0 epsilon r S E ∧ ∀ η > 0, ∃ M : ℕ, ∀ (co : Const) (p : Args d) (m : Medium 3 p.grid.shape) (s E0 : Solver.Field 3 p.grid.shape),
      Samples co p m s E0 period k0 epsilon r S → (∀ b, M ≤ p.grid.shape b) → ∀ (o : Optimum) (tol : ℝ), 0 ≤ tol → ∀ F : Solver.Field 3 p.grid.shape, (∀ c, SampledFrom p.grid (E c) (F c)) →
        ∃ t, p.start co tol o = .ok ⟨3, t⟩ ∧ ∃ j0, ∀ i ≥ j0, (∃ u, run (.vectorial hd) (backendK p.grid k0) t i = .ok u ∧ rms (getE k0 u - F) < η) ∨
          (run (.vectorial hd) (backendK p.grid k0) t i = .error .zeroDivision ∧ ∃ j < i, ∃ u, run (.vectorial hd) (backendK p.grid k0) t j = .ok u ∧ rms (getE k0 u - F) < η) := by
  obtain ⟨E, ⟨h1, h2⟩, _⟩ := C130_exists hd hper hk0 hsm hδ habs hr hS
  choose a ha using h1
  exact ⟨E, h2, fun η hη => C128_called_limit hd hper hk0 hδ habs hr h2 ha hη⟩

/-- **C130 (as called, coupled).** -/
theorem C130_called_coupled_limit (hd : d ≤ 3) {period : Fin d → ℝ} (hper : ∀ b, period b ≠ 0) {k0 : ℝ} (hk0 : 0 < k0) {epsilon xi zeta mu : Point → Matrix (Fin 3) (Fin 3) ℂ}
    (hse : ∀ c c', Smooth period fun r => epsilon r c c') (hsx : ∀ c c', Smooth period fun r => xi r c c') (hsz : ∀ c c', Smooth period fun r => zeta r c c') (hsm : ∀ c c', Smooth period fun r => mu r c c') {δ : ℝ}
    (hδ : 0 < δ) (habs : AbsorbsBothInSpace epsilon xi zeta mu δ) {S : Fin 3 → Point → ℂ} (hS : ∀ c, Smooth period (S c)) :
    ∃ E H : Fin 3 → Point → ℂ, CoupledInSpace k0 epsilon xi zeta mu S E H ∧ ∀ η > 0, ∃ M : ℕ, ∀ (co : Const) (p : Args d) (m : Medium 3 p.grid.shape) (s E0 : Solver.Field 3 p.grid.shape) (o : Optimum),
      CalledMagnetic co p m s E0 o → SamplesMedium p.grid m.exchanged epsilon xi zeta mu → p.frequency.k0 co.c = k0 → (∀ b, p.grid.shape b * p.grid.step b = period b) → (∀ c, SampledFrom p.grid (S c) (s c)) →
      (∀ b, M ≤ p.grid.shape b) → ∀ (tol : ℝ) (F : Solver.Field 3 p.grid.shape), (∀ c, SampledFrom p.grid (E c) (F c)) →
        ∃ t, p.start co tol o = .ok ⟨3, t⟩ ∧ ∃ j0, ∀ i ≥ j0, (∃ u, run (.vectorial hd) (backendK p.grid k0) t i = .ok u ∧ rms (getE k0 u - F) < η) ∨
          (run (.vectorial hd) (backendK p.grid k0) t i = .error .zeroDivision ∧ ∃ j < i, ∃ u, run (.vectorial hd) (backendK p.grid k0) t j = .ok u ∧ rms (getE k0 u - F) < η) := by
  obtain ⟨⟨E, H⟩, ⟨h1, h2, h3⟩, _⟩ := C130_coupled_exists hd hper hk0 hse hsx hsz hsm hδ habs hS
  choose a ha using h1
  choose b hb using h2
  exact ⟨E, H, h3, fun η hη => C128_called_coupled_limit hd hper hk0 hδ habs h3 ha hb hη⟩

/-- The hypotheses of `C130_called_limit` and `C130_called_coupled_limit` are met. -/
example := C130_called_limit (d := 1) (by decide) (fun _ => one_ne_zero) one_pos demoEpsilon_smooth one_pos demoEpsilon_absorbs two_pos demoDrive_smooth

example := C130_called_coupled_limit (d := 1) (by decide) (fun _ => one_ne_zero) one_pos demoCoupled_smooth.1 demoCoupled_smooth.2.1 demoCoupled_smooth.2.2.1 demoCoupled_smooth.2.2.2 one_pos demoCoupled_absorbs
  demoDrive_smooth

end Verif.Problem
