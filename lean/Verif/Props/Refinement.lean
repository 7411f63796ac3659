import Verif.Lemmas.Refinement
import Verif.Props.SolverStability

/-!
# C128: the field converges to the exact solution when the samples get closer

The solver calculates with samples; the wave equation is about functions of the position.  Here the exact solution, the material and the source are arbitrary functions, that the grid samples.
The only assumptions are that the exact solution has the periods of the grid, and that the Fourier series of its second derivatives converge absolutely.
-/

namespace Verif.Refinement

open Verif Verif.Fourier Verif.Backend Verif.Solver Verif.Continuous Verif.Spec.Continuous Verif.Spec.Refinement Complex Matrix
open Verif.Spec.Solver (NoGain WaveEquation ScalarWaveEquation)

variable {d n : ℕ}

section
variable {g : Grid.Obj d ℝ} (hd : d ≤ 3) (hs : ∀ a, g.step a ≠ 0) (hN : ∀ a, 0 < g.shape a) {period : Fin d → ℝ} (hL : ∀ a, g.shape a * g.step a = period a)
include hd hs hN hL

/-- **C128 (operator).** The solver's `∇ × ∇ ×` of samples of any field differs from the exact one by at most twice the terms that the grid cannot resolve. -/
theorem C128_curl {E : Fin 3 → Point → ℂ} {a : Fin 3 → (Fin d → ℤ) → ℂ} (h : ∀ c, HasSeries period (E c) (a c)) {s : Fin 3 → Idx g.shape → ℂ} (hsf : ∀ c, SampledFrom g (E c) (s c))
    (c : Fin 3) {x : Idx g.shape} {r : Point} (hr : AtSample g x r) :
    ‖Spec.Solver.curl (kOf g) (Spec.Solver.curl (kOf g) s) c x - Spec.Continuous.curl (Spec.Continuous.curl E) c r‖ ≤ 2 * ∑ c, remainder g.shape period (a c) := by
  choose F hF _ using fun c => C123_interpolation hd hs (s c)
  rw [← (C123_curl hd hs (C123_curl hd hs hF) c).2 x r hr, curl_curl (fun c => interpolates_twice hd hs (hF c)), curl_curl fun c => hasSeries_twice (h c), ← Finset.sum_sub_distrib]
  have key : ∀ b, ‖partialDeriv b (partialDeriv c (F b)) r - partialDeriv b (partialDeriv b (F c)) r - (partialDeriv b (partialDeriv c (E b)) r - partialDeriv b (partialDeriv b (E c)) r)‖ ≤
      (if b = c then 0 else remainder g.shape period (a b)) + tail g.shape fun j => 2 * (harmonic period j b ^ 2 * ‖a c j‖) := by
    intro b
    have h2 := second_difference hd hs hN hL (h c) (hsf c) (hF c) b b hr
    rw [show (fun j => 2 * (|harmonic period j b| * |harmonic period j b|) * ‖a c j‖) = fun j => 2 * (harmonic period j b ^ 2 * ‖a c j‖) from funext fun j => by
      rw [abs_mul_abs_self]
      ring] at h2
    split_ifs with hbc
    · subst hbc
      rw [sub_self, sub_self, sub_self, norm_zero, zero_add]
      exact tail_nonneg (fun j => by positivity) _
    · have h1 := second_difference hd hs hN hL (h b) (hsf b) (hF b) c b hr
      have h3 : (tail g.shape fun j => 2 * (|harmonic period j c| * |harmonic period j b|) * ‖a b j‖) ≤ remainder g.shape period (a b) :=
        tail_mono (by simpa only [mul_assoc] using (summable_second (h b) c b).mul_left 2) (h b).second
          (fun j => mul_le_mul_of_nonneg_right (two_mul_le _ (Ne.symm hbc)) (norm_nonneg _)) _
      rw [sub_sub_sub_comm]
      exact (norm_sub_le _ _).trans (add_le_add (h1.trans h3) h2)
  refine (norm_sum_le _ _).trans ((Finset.sum_le_sum fun b _ => key b).trans ?_)
  have hs2 : ∀ b, Summable fun j => 2 * (harmonic period j b ^ 2 * ‖a c j‖) := fun b =>
    Summable.mul_left 2 (by simpa only [abs_mul_abs_self, pow_two] using summable_second (h c) b b)
  have e : ∑ b, (tail g.shape fun j => 2 * (harmonic period j b ^ 2 * ‖a c j‖)) = 2 * remainder g.shape period (a c) := by
    rw [← tail_sum Finset.univ hs2, remainder_eq, ← tail_mul]
    congr 1
    funext j
    unfold squared
    rw [Finset.sum_mul, Finset.mul_sum]
  rw [Finset.sum_add_distrib, e, Finset.sum_ite, Finset.sum_const_zero, zero_add]
  have h4 : ∑ b, remainder g.shape period (a b) = remainder g.shape period (a c) + ∑ b with ¬b = c, remainder g.shape period (a b) := by
    rw [← Finset.sum_filter_add_sum_filter_not Finset.univ (fun b => b = c), Finset.sum_filter, Finset.sum_ite_eq' Finset.univ c, if_pos (Finset.mem_univ c)]
  have h5 : 0 ≤ ∑ b with ¬b = c, remainder g.shape period (a b) := Finset.sum_nonneg fun b _ => remainder_nonneg _ _ _
  rw [h4]
  linarith

/-- **C128 (Laplacian).** The same for scalar fields. -/
theorem C128_laplacian {E : Point → ℂ} {a : (Fin d → ℤ) → ℂ} (h : HasSeries period E a) {s : Idx g.shape → ℂ} (hsf : SampledFrom g E s) {x : Idx g.shape} {r : Point} (hr : AtSample g x r) :
    ‖-Spec.Solver.negLaplacian (kOf g) s x - laplacian E r‖ ≤ 2 * remainder g.shape period a := by
  obtain ⟨F, hF, -⟩ := C123_interpolation hd hs s
  have h0 := (C123_laplacian hd hs hF).2 x r hr
  dsimp only at h0
  rw [← h0]
  unfold laplacian
  rw [← Finset.sum_sub_distrib]
  refine (norm_sum_le _ _).trans ((Finset.sum_le_sum fun b _ => second_difference hd hs hN hL h hsf hF b b hr).trans ?_)
  rw [← tail_sum Finset.univ (w := fun b j => 2 * (|harmonic period j b| * |harmonic period j b|) * ‖a j‖) fun b => by simpa only [mul_assoc] using (summable_second h b b).mul_left 2, remainder_eq, ← tail_mul]
  refine le_of_eq ?_
  congr 1
  funext j
  unfold squared
  rw [Finset.sum_mul, Finset.mul_sum]
  refine Finset.sum_congr rfl fun b _ => ?_
  rw [abs_mul_abs_self]
  ring

end

theorem rms_norm {N : Fin d → ℕ} (F : Fin n → Idx N → ℂ) : rms F = Backend.norm F / Real.sqrt (∏ b, (N b : ℝ)) := by
  unfold rms Backend.norm
  rw [Real.sqrt_div (Finset.sum_nonneg fun c _ => Finset.sum_nonneg fun x _ => sq_nonneg _)]

theorem norm_le_of_bounded {N : Fin d → ℕ} (F : Fin n → Idx N → ℂ) {M : ℝ} (hM : 0 ≤ M) (h : ∀ c x, ‖F c x‖ ≤ M) : Backend.norm F ≤ Real.sqrt n * M * Real.sqrt (∏ b, (N b : ℝ)) := by
  refine Real.sqrt_le_iff.2 ⟨by positivity, ?_⟩
  rw [mul_pow, mul_pow, Real.sq_sqrt (Nat.cast_nonneg _), Real.sq_sqrt (Finset.prod_nonneg fun b _ => Nat.cast_nonneg _)]
  refine (Finset.sum_le_sum fun c _ => Finset.sum_le_sum fun x _ => pow_le_pow_left₀ (norm_nonneg _) (h c x) 2).trans (le_of_eq ?_)
  rw [Finset.sum_const, Finset.sum_const, Finset.card_univ, Finset.card_univ, Fintype.card_fin, Fintype.card_pi]
  simp only [Fintype.card_fin, nsmul_eq_mul]
  push_cast
  ring

theorem norm_rev {N : Fin d → ℕ} (F G : Fin n → Idx N → ℂ) : Backend.norm (F - G) = Backend.norm (G - F) := by
  unfold Backend.norm
  simp only [Pi.sub_apply, norm_sub_rev]

/-- The permittivity absorbs at least `δ` at all points of space. -/
def AbsorbsInSpace (epsilon : Point → Matrix (Fin 3) (Fin 3) ℂ) (δ : ℝ) : Prop := ∀ r (v : Fin 3 → ℂ), δ * ∑ i, ‖v i‖ ^ 2 ≤ (star v ⬝ᵥ (epsilon r).mulVec v).im

section
variable {g : Grid.Obj d ℝ} (hd : d ≤ 3) (hs : ∀ a, g.step a ≠ 0) (hN : ∀ a, 0 < g.shape a) {period : Fin d → ℝ} (hL : ∀ a, g.shape a * g.step a = period a)
include hd hs hN hL

/-- What is missing from the solver's wave equation when the exact field is sampled. -/
theorem defect_bounded {k0 : ℝ} {epsilon : Point → Matrix (Fin 3) (Fin 3) ℂ} {r : ℝ} (hr : 0 < r) {S E : Fin 3 → Point → ℂ}
    (hE : WaveEquationInSpace k0 epsilon r S E) {a : Fin 3 → (Fin d → ℤ) → ℂ} (ha : ∀ c, HasSeries period (E c) (a c)) {e : Tensor 3 g.shape} {s : Solver.Field 3 g.shape}
    (he : SampledFrom g epsilon e) (hsf : ∀ c, SampledFrom g (S c) (s c)) {F : Solver.Field 3 g.shape} (hF : ∀ c, SampledFrom g (E c) (F c)) :
    ∀ c x, ‖defect (kOf g) k0 e (fun _ => (r : ℂ) • 1) s F c x‖ ≤ r⁻¹ * (2 * ∑ c, remainder g.shape period (a c)) := by
  have hrc : (r : ℂ) ≠ 0 := ofReal_ne hr.ne'
  intro c x
  obtain ⟨ρ, hρ⟩ := exists_atSample hd g x
  have h1 := C128_curl hd hs hN hL ha hF c hρ
  have h2 := hE c ρ
  have h3 : defect (kOf g) k0 e (fun _ => (r : ℂ) • 1) s F c x =
      (r : ℂ)⁻¹ * (Spec.Solver.curl (kOf g) (Spec.Solver.curl (kOf g) F) c x - Spec.Continuous.curl (Spec.Continuous.curl E) c ρ) := by
    unfold defect
    have e1 : Spec.Solver.act (fun _ => ((r : ℂ) • (1 : Matrix (Fin 3) (Fin 3) ℂ))⁻¹) (Spec.Solver.curl (kOf g) F) = (r : ℂ)⁻¹ • Spec.Solver.curl (kOf g) F := by
      funext c x
      unfold Spec.Solver.act
      rw [smul_one_inv hrc, Matrix.smul_mulVec, Matrix.one_mulVec]
      rfl
    have e2 : Spec.Solver.act e F c x = (epsilon ρ).mulVec (fun j => E j ρ) c := by
      unfold Spec.Solver.act
      rw [he x ρ hρ, show (fun j => F j x) = fun j => E j ρ from funext fun j => hF j x ρ hρ]
    rw [e1, e2, hsf c x ρ hρ, ← h2, spec_curl, spec_curl, spec_curl, (curl_isLinear _).map_smul]
    simp only [Pi.smul_apply, smul_eq_mul]
    ring
  rw [h3, norm_mul, norm_inv, norm_real, Real.norm_of_nonneg hr.le]
  exact mul_le_mul_of_nonneg_left h1 (inv_nonneg.2 hr.le)

/-- **C128 (error).** Let any material, source and field in space satisfy the wave equation, and let the solver's samples of the field satisfy it for the samples of that material and source.
Then the difference with the exact field is, in root mean square, at most in proportion to the terms that the grid cannot resolve. -/
theorem C128_error {k0 : ℝ} (hk0 : 0 < k0) {epsilon : Point → Matrix (Fin 3) (Fin 3) ℂ} {δ : ℝ} (hδ : 0 < δ) (habs : AbsorbsInSpace epsilon δ) {r : ℝ} (hr : 0 < r) {S E : Fin 3 → Point → ℂ}
    (hE : WaveEquationInSpace k0 epsilon r S E) {a : Fin 3 → (Fin d → ℤ) → ℂ} (ha : ∀ c, HasSeries period (E c) (a c)) {e : Tensor 3 g.shape} {s E' : Solver.Field 3 g.shape}
    (he : SampledFrom g epsilon e) (hsf : ∀ c, SampledFrom g (S c) (s c)) (hE' : WaveEquation (kOf g) k0 e (fun _ => (r : ℂ) • 1) s E') {F : Solver.Field 3 g.shape}
    (hF : ∀ c, SampledFrom g (E c) (F c)) : rms (E' - F) ≤ 2 * Real.sqrt 3 / (r * k0 ^ 2 * δ) * ∑ c, remainder g.shape period (a c) := by
  have hrc : (r : ℂ) ≠ 0 := ofReal_ne hr.ne'
  have hrem : 0 ≤ ∑ c, remainder g.shape period (a c) := Finset.sum_nonneg fun c _ => remainder_nonneg _ _ _
  have hdef := defect_bounded hd hs hN hL hr hE ha he hsf hF
  have h4 := norm_le_of_bounded _ (mul_nonneg (inv_nonneg.2 hr.le) (mul_nonneg zero_le_two hrem)) hdef
  have h5 := C121_defect hk0 (δ := δ) (fun x v => by
    obtain ⟨ρ, hρ⟩ := exists_atSample hd g x
    rw [he x ρ hρ]
    exact habs ρ v) (fun x v => by
    rw [Matrix.smul_mulVec, Matrix.one_mulVec, dotProduct_smul, star_dot_self, smul_eq_mul, im_mul_ofReal, ofReal_im, zero_mul]) (fun x => by
    rw [Matrix.det_smul, Matrix.det_one, mul_one]
    exact (pow_ne_zero _ hrc).isUnit) hE' F
  rw [norm_rev] at h5
  have hP : 0 < Real.sqrt (∏ b, (g.shape b : ℝ)) := Real.sqrt_pos.2 (Finset.prod_pos fun b _ => by exact_mod_cast hN b)
  rw [rms_norm, div_le_iff₀ hP]
  have hk : 0 < k0 ^ 2 * δ := by positivity
  refine le_of_mul_le_mul_left (h5.trans (h4.trans (le_of_eq ?_))) hk
  push_cast
  field_simp

/-- **C128 (no error).** If the grid resolves all terms of the exact field, then the solver's field is exact at all samples, however quickly the material and the source vary. -/
theorem C128_exact {k0 : ℝ} (hk0 : 0 < k0) {epsilon : Point → Matrix (Fin 3) (Fin 3) ℂ} {δ : ℝ} (hδ : 0 < δ) (habs : AbsorbsInSpace epsilon δ) {r : ℝ} (hr : 0 < r) {S E : Fin 3 → Point → ℂ}
    (hE : WaveEquationInSpace k0 epsilon r S E) {a : Fin 3 → (Fin d → ℤ) → ℂ} (ha : ∀ c, HasSeries period (E c) (a c)) (hband : ∀ c j, ¬Sampled g.shape j → a c j = 0) {e : Tensor 3 g.shape}
    {s E' : Solver.Field 3 g.shape} (he : SampledFrom g epsilon e) (hsf : ∀ c, SampledFrom g (S c) (s c)) (hE' : WaveEquation (kOf g) k0 e (fun _ => (r : ℂ) • 1) s E') :
    ∀ c, SampledFrom g (E c) (E' c) := by
  intro c x ρ hρ
  choose ρ' hρ' using exists_atSample hd g
  have hval : ∀ c x r r', AtSample g x r → AtSample g x r' → E c r = E c r' := by
    intro c x r r' h h'
    rw [(ha c).value, (ha c).value]
    refine tsum_congr fun j => ?_
    congr 1
    unfold wave
    congr 3
    refine Finset.sum_congr rfl fun b _ => ?_
    unfold harmonic
    split_ifs with hb
    · rw [Option.some.inj ((h b hb).symm.trans (h' b hb))]
    · rw [zero_mul, zero_mul]
  have h0 := C128_error hd hs hN hL hk0 hδ habs hr hE ha he hsf hE' (F := fun c x => E c (ρ' x)) fun c x r h => hval c x _ _ (hρ' x) h
  have hz : ∀ c, remainder g.shape period (a c) = 0 := fun c => by
    unfold remainder
    refine (tsum_congr fun j => ?_).trans tsum_zero
    split_ifs with hj
    · rfl
    · rw [hband c j hj, norm_zero, mul_zero]
  simp only [hz, Finset.sum_const_zero, mul_zero] at h0
  have hP : 0 < Real.sqrt (∏ b, (g.shape b : ℝ)) := Real.sqrt_pos.2 (Finset.prod_pos fun b _ => by exact_mod_cast hN b)
  rw [rms_norm, div_le_iff₀ hP, zero_mul] at h0
  have h1 := (norm_eq_zero_iff _).1 (le_antisymm h0 (norm_nonneg' _))
  have h2 := congrFun (congrFun h1 c) x
  simp only [Pi.sub_apply, Pi.zero_apply, sub_eq_zero] at h2
  rw [h2]
  exact hval c x _ _ (hρ' x) hρ

/-- **C128 (error, scalar).** -/
theorem C128_scalar_error {k0 : ℝ} (hk0 : 0 < k0) {epsilon : Point → ℂ} {δ : ℝ} (hδ : 0 < δ) (habs : ∀ r, δ ≤ (epsilon r).im) {r : ℝ} (hr : 0 < r) {S E : Point → ℂ}
    (hE : ScalarWaveEquationInSpace k0 epsilon r S E) {a : (Fin d → ℤ) → ℂ} (ha : HasSeries period E a) {e s E' : Idx g.shape → ℂ} (he : SampledFrom g epsilon e) (hsf : SampledFrom g S s)
    (hE' : ScalarWaveEquation (kOf g) k0 e r s E') {F : Idx g.shape → ℂ} (hF : SampledFrom g E F) :
    rms (fun _ : Fin 1 => E' - F) ≤ 2 / (r * k0 ^ 2 * δ) * remainder g.shape period a := by
  have hrc : (r : ℂ) ≠ 0 := ofReal_ne hr.ne'
  set s' : Idx g.shape → ℂ := fun x => (r : ℂ)⁻¹ * Spec.Solver.negLaplacian (kOf g) F x - (k0 : ℂ) ^ 2 * (e x * F x) with hs'
  have h1 := C121_scalar hk0 (fun x => by
    obtain ⟨ρ, hρ⟩ := exists_atSample hd g x
    rw [he x ρ hρ]
    exact habs ρ) le_rfl (fun x => by rw [sub_self, norm_zero]) hE' (show ScalarWaveEquation (kOf g) k0 e r s' F from fun x => rfl)
  rw [mul_zero, zero_mul, add_zero] at h1
  have h2 : ∀ (c : Fin 1) x, ‖(fun _ : Fin 1 => s' - s) c x‖ ≤ r⁻¹ * (2 * remainder g.shape period a) := by
    intro _ x
    obtain ⟨ρ, hρ⟩ := exists_atSample hd g x
    have h3 := C128_laplacian hd hs hN hL ha hF hρ
    have h4 := hE ρ
    have e1 : (s' - s) x = -(r : ℂ)⁻¹ * (-Spec.Solver.negLaplacian (kOf g) F x - laplacian E ρ) := by
      simp only [Pi.sub_apply, hs']
      rw [hsf x ρ hρ, ← h4, he x ρ hρ, hF x ρ hρ]
      ring
    change ‖(s' - s) x‖ ≤ _
    rw [e1, norm_mul, norm_neg, norm_inv, norm_real, Real.norm_of_nonneg hr.le]
    exact mul_le_mul_of_nonneg_left h3 (inv_nonneg.2 hr.le)
  have h5 := norm_le_of_bounded _ (mul_nonneg (inv_nonneg.2 hr.le) (mul_nonneg zero_le_two (remainder_nonneg _ _ _))) h2
  have hP : 0 < Real.sqrt (∏ b, (g.shape b : ℝ)) := Real.sqrt_pos.2 (Finset.prod_pos fun b _ => by exact_mod_cast hN b)
  rw [show (fun _ : Fin 1 => F - E') = (fun _ : Fin 1 => F) - fun _ => E' from rfl, norm_rev] at h1
  rw [show (fun _ : Fin 1 => E' - F) = (fun _ : Fin 1 => E') - fun _ => F from rfl, rms_norm, div_le_iff₀ hP]
  have hk : 0 < k0 ^ 2 * δ := by positivity
  refine le_of_mul_le_mul_left (h1.trans (h5.trans (le_of_eq ?_))) hk
  push_cast
  rw [Real.sqrt_one]
  field_simp

/-- The Fourier coefficients of a function, from its samples. -/
theorem coefficient_le {f : Point → ℂ} {a : (Fin d → ℤ) → ℂ} (h : HasFirstSeries period f a) {s : Idx g.shape → ℂ} (hsf : SampledFrom g f s) {j : Fin d → ℤ} (hj : Sampled g.shape j) :
    ‖a j‖ ≤ rms (fun _ : Fin 1 => s) + tail g.shape fun j => ‖a j‖ := by
  classical
  obtain ⟨θ, h1, -, h3⟩ := exists_folded hd hs hN hL h
  have h4 := (series_interpolates hd hs _ s).1 (h3 s hsf).2 (folded hN j)
  set b : ℂ := ∑' i, if folded hN i = folded hN j then θ i * a i else 0 with hb
  have hM : 0 < ∏ b, (g.shape b : ℝ) := Finset.prod_pos fun b _ => by exact_mod_cast hN b
  have h5 : ‖b‖ ≤ rms fun _ : Fin 1 => s := by
    refine Real.le_sqrt_of_sq_le ?_
    have e1 := C23_energy s
    have e2 : ‖ft s (folded hN j)‖ ^ 2 ≤ ∑ k, ‖ft s k‖ ^ 2 := Finset.single_le_sum (f := fun k => ‖ft s k‖ ^ 2) (fun _ _ => sq_nonneg _) (Finset.mem_univ _)
    have e3 : ‖phase g (folded hN j)‖ = 1 := by
      unfold Continuous.phase
      rw [mul_comm, norm_exp_ofReal_mul_I]
    have e4 : ‖∏ b, (g.shape b : ℂ)‖ = ∏ b, (g.shape b : ℝ) := by
      rw [norm_prod]
      exact Finset.prod_congr rfl fun b _ => by simp
    rw [h4, norm_mul, norm_mul, e3, e4, mul_one, e1, mul_pow] at e2
    rw [Fin.sum_univ_one, le_div_iff₀ hM]
    refine le_of_mul_le_mul_left (le_trans (le_of_eq ?_) e2) hM
    ring
  have hsum : Summable fun i => if folded hN i = folded hN j then θ i * a i else 0 := Summable.of_norm_bounded h.summable fun i => by
    split_ifs
    · rw [norm_mul, h1, one_mul]
    · rw [norm_zero]
      exact norm_nonneg _
  have hper : ∀ b, period b ≠ 0 := fun b => by
    rw [← hL b]
    exact mul_ne_zero (by exact_mod_cast (hN b).ne') (hs b)
  have hinj : ∀ i, Sampled g.shape i → folded hN i = folded hN j → i = j := by
    intro i hi e1
    have e2 := (folded_sampled hs hN hL hi).symm.trans ((congrArg _ e1).trans (folded_sampled hs hN hL hj))
    funext b
    have e3 := congrFun e2 (Fin.castLE hd b)
    unfold harmonic at e3
    rw [dif_pos (show ((Fin.castLE hd b : Fin 3) : ℕ) < d from b.isLt), dif_pos (show ((Fin.castLE hd b : Fin 3) : ℕ) < d from b.isLt)] at e3
    change 2 * Real.pi * (i b : ℝ) / period b = 2 * Real.pi * (j b : ℝ) / period b at e3
    rw [div_left_inj' (hper b)] at e3
    exact_mod_cast mul_left_cancel₀ (mul_ne_zero two_ne_zero Real.pi_ne_zero) e3
  have h6 : ‖b - θ j * a j‖ ≤ tail g.shape fun j => ‖a j‖ := by
    have e1 : b - θ j * a j = ∑' i, if i = j then 0 else if folded hN i = folded hN j then θ i * a i else 0 := by
      rw [hb, hsum.tsum_eq_add_tsum_ite j, if_pos rfl, add_sub_cancel_left]
    rw [e1]
    refine tsum_of_norm_bounded (tail_summable h.summable g.shape).hasSum fun i => ?_
    split_ifs with e2 e3 e4 e5 e5
    · exact (norm_zero).le
    · rw [norm_zero]
      exact norm_nonneg _
    · exact absurd (hinj i e5 e4) e2
    · rw [norm_mul, h1, one_mul]
    · exact (norm_zero).le
    · rw [norm_zero]
      exact norm_nonneg _
  have h7 : ‖a j‖ = ‖θ j * a j‖ := by rw [norm_mul, h1, one_mul]
  have h8 := norm_sub_le b (b - θ j * a j)
  rw [sub_sub_cancel, ← h7] at h8
  linarith

end

/-- **C128 (limit).** For every error there is a number of samples, such that all grids with at least that many samples and with the same periods give a field that differs less from the exact one; whatever the
number of samples along each axis, the centre, and the order of the samples are. -/
theorem C128_limit (hd : d ≤ 3) {period : Fin d → ℝ} {k0 : ℝ} (hk0 : 0 < k0) {epsilon : Point → Matrix (Fin 3) (Fin 3) ℂ} {δ : ℝ} (hδ : 0 < δ)
    (habs : AbsorbsInSpace epsilon δ) {r : ℝ} (hr : 0 < r) {S E : Fin 3 → Point → ℂ} (hE : WaveEquationInSpace k0 epsilon r S E) {a : Fin 3 → (Fin d → ℤ) → ℂ}
    (ha : ∀ c, HasSeries period (E c) (a c)) {η : ℝ} (hη : 0 < η) :
    ∃ M : ℕ, ∀ g : Grid.Obj d ℝ, (∀ b, g.step b ≠ 0) → (∀ b, 0 < g.shape b) → (∀ b, M ≤ g.shape b) → (∀ b, g.shape b * g.step b = period b) →
      ∀ (e : Tensor 3 g.shape) (s E' F : Solver.Field 3 g.shape), SampledFrom g epsilon e → (∀ c, SampledFrom g (S c) (s c)) → WaveEquation (kOf g) k0 e (fun _ => (r : ℂ) • 1) s E' →
        (∀ c, SampledFrom g (E c) (F c)) → rms (E' - F) < η := by
  have hC : 0 < 2 * Real.sqrt 3 / (r * k0 ^ 2 * δ) := by positivity
  choose M hM using fun c => tail_small (ha c).second (fun j => mul_nonneg (squared_nonneg _) (norm_nonneg _)) (show 0 < η / (2 * Real.sqrt 3 / (r * k0 ^ 2 * δ)) / 3 by positivity)
  refine ⟨∑ c, M c, fun g hs hN hMg hL e s E' F he hsf hE' hF => (C128_error hd hs hN hL hk0 hδ habs hr hE ha he hsf hE' hF).trans_lt ?_⟩
  have h1 : ∀ c, remainder g.shape period (a c) < η / (2 * Real.sqrt 3 / (r * k0 ^ 2 * δ)) / 3 := fun c => hM c g.shape fun b =>
    (Finset.single_le_sum (f := M) (fun _ _ => Nat.zero_le _) (Finset.mem_univ c)).trans (hMg b)
  have h2 : ∑ c, remainder g.shape period (a c) < η / (2 * Real.sqrt 3 / (r * k0 ^ 2 * δ)) := by
    rw [Fin.sum_univ_three]
    linarith [h1 0, h1 1, h1 2]
  rwa [lt_div_iff₀ hC, mul_comm] at h2

/-- **C128 (limit, scalar).** -/
theorem C128_scalar_limit (hd : d ≤ 3) {period : Fin d → ℝ} {k0 : ℝ} (hk0 : 0 < k0) {epsilon : Point → ℂ} {δ : ℝ} (hδ : 0 < δ) (habs : ∀ r, δ ≤ (epsilon r).im) {r : ℝ} (hr : 0 < r)
    {S E : Point → ℂ} (hE : ScalarWaveEquationInSpace k0 epsilon r S E) {a : (Fin d → ℤ) → ℂ} (ha : HasSeries period E a) {η : ℝ} (hη : 0 < η) :
    ∃ M : ℕ, ∀ g : Grid.Obj d ℝ, (∀ b, g.step b ≠ 0) → (∀ b, 0 < g.shape b) → (∀ b, M ≤ g.shape b) → (∀ b, g.shape b * g.step b = period b) →
      ∀ e s E' F : Idx g.shape → ℂ, SampledFrom g epsilon e → SampledFrom g S s → ScalarWaveEquation (kOf g) k0 e r s E' → SampledFrom g E F → rms (fun _ : Fin 1 => E' - F) < η := by
  have hC : 0 < 2 / (r * k0 ^ 2 * δ) := by positivity
  obtain ⟨M, hM⟩ := tail_small ha.second (fun j => mul_nonneg (squared_nonneg _) (norm_nonneg _)) (show 0 < η / (2 / (r * k0 ^ 2 * δ)) by positivity)
  refine ⟨M, fun g hs hN hMg hL e s E' F he hsf hE' hF => (C128_scalar_error hd hs hN hL hk0 hδ habs hr hE ha he hsf hE' hF).trans_lt ?_⟩
  have h1 := hM g.shape hMg
  rwa [lt_div_iff₀ hC, mul_comm] at h1

/-- The function does not vary along the axes that the grid does not have. -/
def Extruded {T : Type} (d : ℕ) (f : Point → T) : Prop := ∀ r r' : Point, (∀ c : Fin 3, (c : ℕ) < d → r c = r' c) → f r = f r'

theorem sampled_of_extruded {T : Type} (hd : d ≤ 3) (g : Grid.Obj d ℝ) {f : Point → T} (h : Extruded d f) : ∃ s, SampledFrom g f s := by
  choose ρ hρ using exists_atSample hd g
  exact ⟨fun x => f (ρ x), fun x r hr => h _ _ fun c hc => Option.some.inj ((hρ x c hc).symm.trans (hr c hc))⟩

theorem sum_extruded (period : Fin d → ℝ) (a : (Fin d → ℤ) → ℂ) : Extruded d (sum (harmonic period) a) := by
  intro r r' hr
  unfold sum
  refine tsum_congr fun j => ?_
  congr 1
  unfold wave
  congr 3
  refine Finset.sum_congr rfl fun b _ => ?_
  unfold harmonic
  split_ifs with hb
  · rw [hr b hb]
  · rw [zero_mul, zero_mul]

theorem hasSeries_extruded {period : Fin d → ℝ} {f : Point → ℂ} {a : (Fin d → ℤ) → ℂ} (h : HasSeries period f a) : Extruded d f := by
  rw [hasSeries_eq h]
  exact sum_extruded _ _

/-- The source does not vary along these axes either. -/
theorem source_extruded {period : Fin d → ℝ} {k0 : ℝ} {epsilon : Point → Matrix (Fin 3) (Fin 3) ℂ} (hex : Extruded d epsilon) {mu : ℂ} {S E : Fin 3 → Point → ℂ} (hE : WaveEquationInSpace k0 epsilon mu S E)
    {a : Fin 3 → (Fin d → ℤ) → ℂ} (ha : ∀ c, HasSeries period (E c) (a c)) (c : Fin 3) : Extruded d (S c) := by
  intro r r' hr
  rw [← hE c r, ← hE c r', curl_curl (fun c => hasSeries_twice (ha c)), curl_curl (fun c => hasSeries_twice (ha c)), hex r r' hr,
    show (fun j => E j r) = fun j => E j r' from funext fun j => hasSeries_extruded (ha j) r r' hr]
  congr 2
  refine Finset.sum_congr rfl fun b _ => ?_
  rw [hasSeries_second (ha b), hasSeries_second (ha c), sum_extruded period _ r r' hr, sum_extruded period _ r r' hr]

theorem hasSeries_sub {period : Fin d → ℝ} {f f' : Point → ℂ} {a a' : (Fin d → ℤ) → ℂ} (h : HasSeries period f a) (h' : HasSeries period f' a') :
    HasSeries period (fun r => f r - f' r) fun j => a j - a' j where
  value r := by
    rw [h.value, h'.value, ← (summable_wave h.summable r).tsum_sub (summable_wave h'.summable r)]
    exact tsum_congr fun j => by rw [sub_mul]
  summable := Summable.of_nonneg_of_le (fun _ => norm_nonneg _) (fun j => norm_sub_le _ _) (h.summable.add h'.summable)
  second := Summable.of_nonneg_of_le (fun _ => mul_nonneg (squared_nonneg _) (norm_nonneg _)) (fun j => by
    rw [← mul_add]
    exact mul_le_mul_of_nonneg_left (norm_sub_le _ _) (squared_nonneg _)) (h.second.add h'.second)

/-- A grid with `n` samples along each axis. -/
noncomputable def gridOf (period : Fin d → ℝ) (n : ℕ) : Grid.Obj d ℝ where
  shape := fun _ => n
  step := fun b => period b / n
  center := fun _ => 0
  dt := .float
  flat := fun _ => false
  originAtCenter := fun _ => true
  centerAtIndex := fun _ => true
  multidimensional := true
  stepShort := false

theorem rms_single_le {N : Fin d → ℕ} (F : Fin n → Idx N → ℂ) (c : Fin n) : rms (fun _ : Fin 1 => F c) ≤ rms F := by
  unfold rms
  refine Real.sqrt_le_sqrt (div_le_div_of_nonneg_right ?_ (Finset.prod_nonneg fun b _ => Nat.cast_nonneg _))
  rw [Fin.sum_univ_one]
  exact Finset.single_le_sum (f := fun c => ∑ x, ‖F c x‖ ^ 2) (fun c _ => Finset.sum_nonneg fun x _ => sq_nonneg _) (Finset.mem_univ c)

theorem rms_triangle {N : Fin d → ℕ} (F G H : Fin n → Idx N → ℂ) : rms (F - H) ≤ rms (G - F) + rms (G - H) := by
  rw [rms_norm, rms_norm, rms_norm, ← add_div]
  refine div_le_div_of_nonneg_right ?_ (Real.sqrt_nonneg _)
  have h := norm_sub_le' (F - G) (H - G)
  rw [sub_sub_sub_cancel_right] at h
  rwa [norm_rev F G, norm_rev H G] at h

/-- **C128 (unique).** There is at most one such exact solution: what the solver converges to is determined by the material and the source. -/
theorem C128_unique (hd : d ≤ 3) {period : Fin d → ℝ} (hper : ∀ b, period b ≠ 0) {k0 : ℝ} (hk0 : 0 < k0) {epsilon : Point → Matrix (Fin 3) (Fin 3) ℂ} (hex : Extruded d epsilon) {δ : ℝ} (hδ : 0 < δ)
    (habs : AbsorbsInSpace epsilon δ) {r : ℝ} (hr : 0 < r) {S E E' : Fin 3 → Point → ℂ} (hE : WaveEquationInSpace k0 epsilon r S E)
    (hE' : WaveEquationInSpace k0 epsilon r S E') {a a' : Fin 3 → (Fin d → ℤ) → ℂ} (ha : ∀ c, HasSeries period (E c) (a c)) (ha' : ∀ c, HasSeries period (E' c) (a' c)) : E = E' := by
  have hrc : (r : ℂ) ≠ 0 := ofReal_ne hr.ne'
  have hexS := source_extruded hex hE ha
  have key : ∀ c j, a c j = a' c j := by
    intro c j
    refine sub_eq_zero.1 (norm_le_zero_iff.1 (le_of_forall_pos_lt_add fun η hη => ?_))
    rw [zero_add]
    have hη3 : 0 < η / 3 := by linarith
    obtain ⟨M, hM⟩ := C128_limit hd hk0 hδ habs hr hE ha hη3
    obtain ⟨M', hM'⟩ := C128_limit hd hk0 hδ habs hr hE' ha' hη3
    have hsub := hasSeries_sub (ha c) (ha' c)
    obtain ⟨K, hK⟩ := tail_small hsub.summable (fun j => norm_nonneg _) hη3
    set m := M + M' + K + ∑ b, (2 * (j b).natAbs + 1) + 1 with hm
    have hN : ∀ b, 0 < (gridOf period m).shape b := fun b => by
      change 0 < m
      omega
    have hmr : (m : ℝ) ≠ 0 := by
      rw [hm]
      positivity
    have hs : ∀ b, (gridOf period m).step b ≠ 0 := fun b => div_ne_zero (hper b) hmr
    have hL : ∀ b, (gridOf period m).shape b * (gridOf period m).step b = period b := fun b => mul_div_cancel₀ _ hmr
    obtain ⟨e, he⟩ := sampled_of_extruded hd (gridOf period m) hex
    choose s hsf using fun c => sampled_of_extruded hd (gridOf period m) (hexS c)
    choose F hF using fun c => sampled_of_extruded hd (gridOf period m) (hasSeries_extruded (ha c))
    choose F' hF' using fun c => sampled_of_extruded hd (gridOf period m) (hasSeries_extruded (ha' c))
    have habs' : ∀ x (v : Fin 3 → ℂ), δ * ∑ i, ‖v i‖ ^ 2 ≤ (star v ⬝ᵥ (e x).mulVec v).im := fun x v => by
      obtain ⟨ρ, hρ⟩ := exists_atSample hd (gridOf period m) x
      rw [he x ρ hρ]
      exact habs ρ v
    have hgain : NoGain (fun _ : Idx (gridOf period m).shape => (r : ℂ) • (1 : Matrix (Fin 3) (Fin 3) ℂ)) := fun x v => by
      rw [Matrix.smul_mulVec, Matrix.one_mulVec, dotProduct_smul, star_dot_self, smul_eq_mul, im_mul_ofReal, ofReal_im, zero_mul]
    have hinv : ∀ x : Idx (gridOf period m).shape, IsUnit ((fun _ => (r : ℂ) • (1 : Matrix (Fin 3) (Fin 3) ℂ)) x).det := fun x => by
      rw [Matrix.det_smul, Matrix.det_one, mul_one]
      exact (pow_ne_zero _ hrc).isUnit
    obtain ⟨C, hC, hw⟩ := C121_well_posed (g := gridOf period m) hs hk0 hd (epsilon := e) (mu := fun _ => (r : ℂ) • 1) fun E hE =>
      absorbing_unique (m := ⟨e, fun _ => 0, fun _ => 0, fun _ => (r : ℂ) • 1⟩) hinv hgain hk0.ne' hδ habs' E hE
    obtain ⟨E1, hE1, -⟩ := (hw e (fun _ => (r : ℂ) • 1) 0 0 le_rfl le_rfl (fun x v => by simp) (fun x v => by simp) (by simp) s).1
    have b1 := hM (gridOf period m) hs hN (fun b => by change M ≤ m; omega) hL e s E1 F he hsf hE1 hF
    have b2 := hM' (gridOf period m) hs hN (fun b => by change M' ≤ m; omega) hL e s E1 F' he hsf hE1 hF'
    have b3 := hK (gridOf period m).shape fun b => by change K ≤ m; omega
    have b4 := coefficient_le hd hs hN hL (hasSeries_first hsub) (s := fun x => F c x - F' c x) (fun x ρ hρ => by
      dsimp only
      rw [hF c x ρ hρ, hF' c x ρ hρ]) (j := j) fun b => by
      have : 2 * (j b).natAbs + 1 ≤ ∑ b, (2 * (j b).natAbs + 1) := Finset.single_le_sum (f := fun b => 2 * (j b).natAbs + 1) (fun _ _ => Nat.zero_le _) (Finset.mem_univ b)
      change -((m : ℕ) : ℤ) ≤ 2 * j b ∧ 2 * j b < ((m : ℕ) : ℤ)
      omega
    have b5 := rms_single_le (F - F') c
    have b6 := rms_triangle F E1 F'
    have b7 : rms (fun _ : Fin 1 => fun x => F c x - F' c x) = rms (fun _ : Fin 1 => (F - F') c) := rfl
    linarith
  funext c ρ
  rw [(ha c).value, (ha' c).value]
  exact tsum_congr fun j => by rw [key c j]

/-! ### Cases -/

theorem hasSeries_single (period : Fin d → ℝ) (j : Fin d → ℤ) (z : ℂ) : HasSeries period (fun r => z * wave (harmonic period j) r) (Pi.single j z) where
  value r := by rw [tsum_eq_single j fun i hi => by rw [Pi.single_eq_of_ne hi, zero_mul], Pi.single_eq_same]
  summable := summable_of_ne_finset_zero (s := {j}) fun i hi => by rw [Pi.single_eq_of_ne (by simpa using hi), norm_zero]
  second := summable_of_ne_finset_zero (s := {j}) fun i hi => by rw [Pi.single_eq_of_ne (by simpa using hi), norm_zero, mul_zero]

theorem hasSeries_add {period : Fin d → ℝ} {f f' : Point → ℂ} {a a' : (Fin d → ℤ) → ℂ} (h : HasSeries period f a) (h' : HasSeries period f' a') :
    HasSeries period (fun r => f r + f' r) fun j => a j + a' j where
  value r := by
    rw [h.value, h'.value, ← (summable_wave h.summable r).tsum_add (summable_wave h'.summable r)]
    exact tsum_congr fun j => by rw [add_mul]
  summable := Summable.of_nonneg_of_le (fun _ => norm_nonneg _) (fun j => norm_add_le _ _) (h.summable.add h'.summable)
  second := Summable.of_nonneg_of_le (fun _ => mul_nonneg (squared_nonneg _) (norm_nonneg _)) (fun j => by
    rw [← mul_add]
    exact mul_le_mul_of_nonneg_left (norm_add_le _ _) (squared_nonneg _)) (h.second.add h'.second)

/-- A material that varies everywhere along the first axis. -/
noncomputable def demoEpsilon (r : Point) : Matrix (Fin 3) (Fin 3) ℂ := ((2 + Real.sin (2 * Real.pi * r 0) : ℝ) + I : ℂ) • 1

theorem demoEpsilon_absorbs : AbsorbsInSpace demoEpsilon 1 := fun r v => by
  unfold demoEpsilon
  rw [Matrix.smul_mulVec, Matrix.one_mulVec, dotProduct_smul, star_dot_self, smul_eq_mul, im_mul_ofReal, add_im, ofReal_im, I_im, zero_add]

/-- A field that is the sum of two waves, of which a grid with few samples cannot resolve the second. -/
noncomputable def demoField (c : Fin 3) (r : Point) : ℂ :=
  (if c = 1 then 1 else 0) * wave (harmonic (d := 1) 1 fun _ => 1) r + (if c = 1 then 0.1 else 0) * wave (harmonic (d := 1) 1 fun _ => 7) r

/-- The source that makes it. -/
noncomputable def demoSource (c : Fin 3) (r : Point) : ℂ := ((2 : ℝ) : ℂ)⁻¹ * Spec.Continuous.curl (Spec.Continuous.curl demoField) c r - ((1 : ℝ) : ℂ) ^ 2 * (demoEpsilon r).mulVec (fun j => demoField j r) c

/-- The hypotheses of `C128_limit` are met, and with them those of `C128_error`: a material that is not uniform, and a field that no grid with less than 15 samples resolves. -/
example {η : ℝ} (hη : 0 < η) := C128_limit (d := 1) (by decide) one_pos one_pos demoEpsilon_absorbs two_pos (S := demoSource) (E := demoField) (fun _ _ => rfl)
  (fun _ => hasSeries_add (hasSeries_single 1 _ _) (hasSeries_single 1 _ _)) hη

/-- The terms that a grid with 8 samples does not resolve: the second wave is taken for one with the wavenumber `-1`. -/
example : ¬Sampled (d := 1) (fun _ => 8) fun _ => 7 := fun h => absurd (h 0).2 (by norm_num)

theorem second_single (period : Fin d → ℝ) (j : Fin d → ℤ) (z : ℂ) (c c' : Fin 3) (r : Point) :
    partialDeriv c' (partialDeriv c fun r => z * wave (harmonic period j) r) r = -((harmonic period j c * harmonic period j c' : ℝ) : ℂ) * z * wave (harmonic period j) r := by
  rw [hasSeries_second (hasSeries_single period j z)]
  unfold sum
  rw [tsum_eq_single j fun i hi => by
    dsimp only
    rw [Pi.single_eq_of_ne hi, mul_zero, zero_mul]]
  dsimp only
  rw [Pi.single_eq_same]

/-- **C128 (the absorption is needed).** Without absorption the exact solution need not be unique: in vacuum there are fields without source, if a wavelength fits in the period. -/
theorem C128_resonance_violates : ∃ (E : Fin 3 → Point → ℂ) (a : Fin 3 → (Fin 1 → ℤ) → ℂ), (∀ c, HasSeries 1 (E c) (a c)) ∧ E ≠ 0 ∧
    WaveEquationInSpace (2 * Real.pi) (fun _ => 1) (1 : ℝ) 0 E ∧ WaveEquationInSpace (2 * Real.pi) (fun _ => 1) (1 : ℝ) 0 0 := by
  have hh : harmonic (d := 1) 1 (fun _ => 1) = ![2 * Real.pi, 0, 0] := by
    funext c
    unfold harmonic
    fin_cases c <;> simp
  have hser : ∀ c : Fin 3, HasSeries (d := 1) 1 (fun r => (if c = 1 then 1 else 0 : ℂ) * wave (harmonic (d := 1) 1 fun _ => 1) r) (Pi.single (fun _ => 1) (if c = 1 then 1 else 0)) :=
    fun c => hasSeries_single 1 _ _
  refine ⟨fun c r => (if c = 1 then 1 else 0) * wave (harmonic (d := 1) 1 fun _ => 1) r, _, hser, fun h0 => ?_, fun c r => ?_, fun c r => ?_⟩
  · have h1 := congrFun (congrFun h0 1) 0
    rw [if_pos rfl, one_mul] at h1
    have h2 := norm_wave (harmonic (d := 1) 1 fun _ => 1) 0
    rw [h1] at h2
    simp at h2
  · rw [curl_curl (fun c => hasSeries_twice (hser c)), Matrix.one_mulVec]
    have h1 : ∀ b c1 c2 : Fin 3, partialDeriv c1 (partialDeriv c2 fun r => (if b = 1 then 1 else 0 : ℂ) * wave (harmonic (d := 1) 1 fun _ => 1) r) r = _ := fun b c1 c2 => second_single (d := 1) 1 (fun _ => 1) _ c2 c1 r
    simp only [h1, Fin.sum_univ_three]
    simp only [hh]
    fin_cases c <;> simp
    ring
  · have h0 : ∀ c r, partialDeriv c (0 : Point → ℂ) r = 0 := fun c r => deriv_const _ _
    have h1 : Spec.Continuous.curl (0 : Fin 3 → Point → ℂ) = 0 := by
      funext c r
      unfold Spec.Continuous.curl
      fin_cases c <;> simp [h0]
    rw [h1, h1]
    simp

theorem second_sub {period : Fin d → ℝ} {f f' : Point → ℂ} {a a' : (Fin d → ℤ) → ℂ} (h : HasSeries period f a) (h' : HasSeries period f' a') (c c' : Fin 3) (r : Point) :
    partialDeriv c' (partialDeriv c fun r => f r - f' r) r = partialDeriv c' (partialDeriv c f) r - partialDeriv c' (partialDeriv c f') r := by
  have hsum : ∀ {f : Point → ℂ} {a : (Fin d → ℤ) → ℂ}, HasSeries period f a → Summable fun j => -((harmonic period j c * harmonic period j c' : ℝ) : ℂ) * a j * wave (harmonic period j) r := fun {f a} h =>
    Summable.of_norm_bounded (summable_second h c c') fun j => by
      rw [norm_mul, norm_mul, norm_neg, norm_real, Real.norm_eq_abs, norm_wave, mul_one, abs_mul]
  rw [hasSeries_second (hasSeries_sub h h'), hasSeries_second h, hasSeries_second h']
  unfold sum
  rw [← (hsum h).tsum_sub (hsum h')]
  exact tsum_congr fun j => by ring

/-- **C128 (unique, scalar).** -/
theorem C128_scalar_unique (hd : d ≤ 3) {period : Fin d → ℝ} (hper : ∀ b, period b ≠ 0) {k0 : ℝ} (hk0 : 0 < k0) {epsilon : Point → ℂ} (hex : Extruded d epsilon) {δ : ℝ} (hδ : 0 < δ)
    (habs : ∀ r, δ ≤ (epsilon r).im) {r : ℝ} (hr : 0 < r) {S E E' : Point → ℂ} (hE : ScalarWaveEquationInSpace k0 epsilon r S E) (hE' : ScalarWaveEquationInSpace k0 epsilon r S E')
    {a a' : (Fin d → ℤ) → ℂ} (ha : HasSeries period E a) (ha' : HasSeries period E' a') : E = E' := by
  have hsub := hasSeries_sub ha ha'
  have h0 : ScalarWaveEquationInSpace k0 epsilon r 0 fun r => E r - E' r := fun ρ => by
    have h1 := hE ρ
    have h2 := hE' ρ
    have h3 : laplacian (fun r => E r - E' r) ρ = laplacian E ρ - laplacian E' ρ := by
      unfold laplacian
      rw [← Finset.sum_sub_distrib]
      exact Finset.sum_congr rfl fun c _ => second_sub ha ha' c c ρ
    rw [h3, Pi.zero_apply]
    linear_combination h1 - h2
  have key : ∀ j, a j = a' j := by
    intro j
    refine sub_eq_zero.1 (norm_le_zero_iff.1 (le_of_forall_pos_lt_add fun η hη => ?_))
    rw [zero_add]
    have hη2 : 0 < η / 2 := by linarith
    obtain ⟨M, hM⟩ := C128_scalar_limit hd hk0 hδ habs hr h0 hsub hη2
    obtain ⟨K, hK⟩ := tail_small hsub.summable (fun j => norm_nonneg _) hη2
    set m := M + K + ∑ b, (2 * (j b).natAbs + 1) + 1 with hm
    have hN : ∀ b, 0 < (gridOf period m).shape b := fun b => by
      change 0 < m
      omega
    have hmr : (m : ℝ) ≠ 0 := by
      rw [hm]
      positivity
    have hs : ∀ b, (gridOf period m).step b ≠ 0 := fun b => div_ne_zero (hper b) hmr
    have hL : ∀ b, (gridOf period m).shape b * (gridOf period m).step b = period b := fun b => mul_div_cancel₀ _ hmr
    obtain ⟨e, he⟩ := sampled_of_extruded hd (gridOf period m) hex
    obtain ⟨F, hF⟩ := sampled_of_extruded hd (gridOf period m) (hasSeries_extruded hsub)
    have b1 := hM (gridOf period m) hs hN (fun b => by change M ≤ m; omega) hL e 0 0 F he (fun _ _ _ => rfl) (fun x => by
      have : Spec.Solver.negLaplacian (kOf (gridOf period m)) 0 x = 0 := by
        unfold Spec.Solver.negLaplacian
        rw [ft_isLinear.map_zero]
        simp only [Pi.zero_apply, mul_zero]
        exact congrFun ift_isLinear.map_zero x
      rw [this]
      simp) hF
    have b3 := hK (gridOf period m).shape fun b => by change K ≤ m; omega
    have b4 := coefficient_le hd hs hN hL (hasSeries_first hsub) hF (j := j) fun b => by
      have : 2 * (j b).natAbs + 1 ≤ ∑ b, (2 * (j b).natAbs + 1) := Finset.single_le_sum (f := fun b => 2 * (j b).natAbs + 1) (fun _ _ => Nat.zero_le _) (Finset.mem_univ b)
      change -((m : ℕ) : ℤ) ≤ 2 * j b ∧ 2 * j b < ((m : ℕ) : ℤ)
      omega
    have b5 : rms (fun _ : Fin 1 => (0 : Idx (gridOf period m).shape → ℂ) - F) = rms (fun _ : Fin 1 => F) := by
      unfold rms
      simp only [Pi.sub_apply, Pi.zero_apply, zero_sub, norm_neg]
    linarith
  funext ρ
  rw [ha.value, ha'.value]
  exact tsum_congr fun j => by rw [key j]

/-- The hypotheses of `C128_unique` are met. -/
example {E' : Fin 3 → Point → ℂ} {a' : Fin 3 → (Fin 1 → ℤ) → ℂ} (hE' : WaveEquationInSpace 1 demoEpsilon (2 : ℝ) demoSource E') (ha' : ∀ c, HasSeries 1 (E' c) (a' c)) :
    demoField = E' :=
  C128_unique (by decide) (fun _ => one_ne_zero) one_pos (fun r r' h => by unfold demoEpsilon; rw [h 0 (by decide)]) one_pos demoEpsilon_absorbs two_pos (fun _ _ => rfl) hE'
    (fun _ => hasSeries_add (hasSeries_single 1 _ _) (hasSeries_single 1 _ _)) ha'

end Verif.Refinement
