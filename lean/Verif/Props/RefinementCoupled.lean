import Verif.Props.Refinement
import Verif.Props.SolverCoupledRate

/-!
# C128: convergence to the exact solution for magnetic materials and magneto-electric coupling

All four tensors are arbitrary functions of the position.  Of the fields only the first derivatives are used, so that it is sufficient that their Fourier series converge absolutely.
-/

namespace Verif.Refinement

open Verif Verif.Fourier Verif.Backend Verif.Solver Verif.Continuous Verif.Spec.Continuous Verif.Spec.Refinement Complex Matrix
open Verif.Spec.Solver (Coupled absorbed)

variable {d : ℕ}

theorem firstRemainder_eq (N : Fin d → ℕ) (period : Fin d → ℝ) (a : (Fin d → ℤ) → ℂ) : firstRemainder N period a = tail N fun j => (∑ c, |harmonic period j c|) * ‖a j‖ := rfl

theorem firstRemainder_nonneg (N : Fin d → ℕ) (period : Fin d → ℝ) (a : (Fin d → ℤ) → ℂ) : 0 ≤ firstRemainder N period a :=
  tail_nonneg (fun _ => mul_nonneg (Finset.sum_nonneg fun _ _ => abs_nonneg _) (norm_nonneg _)) N

theorem summable_weights {period : Fin d → ℝ} {f : Point → ℂ} {a : (Fin d → ℤ) → ℂ} (h : HasFirstSeries period f a) : Summable fun j => (∑ c, |harmonic period j c|) * ‖a j‖ := by
  simp only [Finset.sum_mul]
  exact summable_sum fun c _ => h.first c

section
variable {g : Grid.Obj d ℝ} (hd : d ≤ 3) (hs : ∀ a, g.step a ≠ 0) (hN : ∀ a, 0 < g.shape a) {period : Fin d → ℝ} (hL : ∀ a, g.shape a * g.step a = period a)
include hd hs hN hL

theorem first_le {f : Point → ℂ} {a : (Fin d → ℤ) → ℂ} (h : HasFirstSeries period f a) {s : Idx g.shape → ℂ} (hsf : SampledFrom g f s) {F : Point → ℂ} (hF : Interpolates g F s) (c : Fin 3) {x : Idx g.shape}
    {r : Point} (hr : AtSample g x r) : ‖partialDeriv c F r - partialDeriv c f r‖ ≤ 2 * firstRemainder g.shape period a := by
  refine (first_difference hd hs hN hL h hsf hF c hr).trans ?_
  rw [firstRemainder_eq, ← tail_mul]
  refine tail_mono ((h.first c).mul_left 2) ((summable_weights h).mul_left 2) (fun j => ?_) _
  refine mul_le_mul_of_nonneg_left (mul_le_mul_of_nonneg_right ?_ (norm_nonneg _)) zero_le_two
  exact Finset.single_le_sum (f := fun c => |harmonic period j c|) (fun _ _ => abs_nonneg _) (Finset.mem_univ c)

/-- **C128 (curl).** The solver's curl of samples of any field differs from the exact one by at most twice the terms that the grid cannot resolve. -/
theorem C128_first_curl {E : Fin 3 → Point → ℂ} {a : Fin 3 → (Fin d → ℤ) → ℂ} (h : ∀ c, HasFirstSeries period (E c) (a c)) {s : Fin 3 → Idx g.shape → ℂ} (hsf : ∀ c, SampledFrom g (E c) (s c))
    (c : Fin 3) {x : Idx g.shape} {r : Point} (hr : AtSample g x r) :
    ‖Spec.Solver.curl (kOf g) s c x - Spec.Continuous.curl E c r‖ ≤ 2 * ∑ c, firstRemainder g.shape period (a c) := by
  choose F hF _ using fun c => C123_interpolation hd hs (s c)
  rw [← (C123_curl hd hs hF c).2 x r hr, Fin.sum_univ_three]
  have b := fun c c' => first_le hd hs hN hL (h c) (hsf c) (hF c) c' hr
  have h0 := fun c => firstRemainder_nonneg g.shape period (a c)
  fin_cases c
  · change ‖partialDeriv 1 (F 2) r - partialDeriv 2 (F 1) r - (partialDeriv 1 (E 2) r - partialDeriv 2 (E 1) r)‖ ≤ _
    rw [sub_sub_sub_comm]
    exact (norm_sub_le _ _).trans (by linarith [b 2 1, b 1 2, h0 0])
  · change ‖partialDeriv 2 (F 0) r - partialDeriv 0 (F 2) r - (partialDeriv 2 (E 0) r - partialDeriv 0 (E 2) r)‖ ≤ _
    rw [sub_sub_sub_comm]
    exact (norm_sub_le _ _).trans (by linarith [b 0 2, b 2 0, h0 1])
  · change ‖partialDeriv 0 (F 1) r - partialDeriv 1 (F 0) r - (partialDeriv 0 (E 1) r - partialDeriv 1 (E 0) r)‖ ≤ _
    rw [sub_sub_sub_comm]
    exact (norm_sub_le _ _).trans (by linarith [b 1 0, b 0 1, h0 2])

end

/-! ### Stability with electric and magnetic residuals -/

section Stability
variable {N : Fin d → ℕ} {k : Fin d → Idx N → ℝ} {k0 : ℝ}

private theorem cancel_sq {δ X Y : ℝ} (hX : 0 ≤ X) (hY : 0 ≤ Y) (h : δ * X ^ 2 ≤ X * Y) : δ * X ≤ Y := by
  rcases hX.eq_or_lt with h0 | h0
  · rw [← h0, mul_zero]
    exact hY
  · refine le_of_mul_le_mul_left ?_ h0
    linarith

private theorem cauchy_two {a b c d : ℝ} : a * c + b * d ≤ Real.sqrt (a ^ 2 + b ^ 2) * Real.sqrt (c ^ 2 + d ^ 2) := by
  rw [← Real.sqrt_mul (by positivity)]
  refine Real.le_sqrt_of_sq_le ?_
  nlinarith [sq_nonneg (a * d - b * c)]

/-- The fields that electric and magnetic currents produce in a material that absorbs. -/
theorem residual_le (hk0 : k0 ≠ 0) {epsilon xi zeta mu : Tensor 3 N} {δ : ℝ} (habs : ∀ x e h, δ * (∑ i, ‖e i‖ ^ 2 + ∑ i, ‖h i‖ ^ 2) ≤ absorbed (epsilon x) (xi x) (zeta x) (mu x) e h)
    {e f J M : Solver.Field 3 N} (h1 : Backend.curl 3 k e = (I * k0) • (mulField zeta e + mulField mu f + M)) (h2 : Backend.curl 3 k f = (-I * k0) • (mulField epsilon e + mulField xi f + J)) :
    δ * Real.sqrt (Backend.norm e ^ 2 + Backend.norm f ^ 2) ≤ Real.sqrt (Backend.norm J ^ 2 + Backend.norm M ^ 2) := by
  have hk := ofReal_ne hk0
  have h3 := curl_adjoint k f e
  rw [← dot_conj e, h1, h2, dot_smul, dot_smul, map_mul, map_mul, map_neg, conj_I, conj_ofReal, neg_neg] at h3
  have h4 := mul_left_cancel₀ (mul_ne_zero I_ne_zero hk) h3
  have h5 := congrArg Complex.im h4
  rw [conj_im, dot_add, dot_add, dot_add, dot_add] at h5
  have h6 : ∑ x, absorbed (epsilon x) (xi x) (zeta x) (mu x) (fun c => e c x) (fun c => f c x) = (dot e (mulField epsilon e) + dot e (mulField xi f) + (dot f (mulField zeta e) + dot f (mulField mu f))).im := by
    simp only [dot_mulField, absorbed, dotProduct_add, ← Finset.sum_add_distrib, im_sum]
  have b1 := abs_dot_le e J
  have b2 := abs_dot_le f M
  have h7 : δ * (Backend.norm e ^ 2 + Backend.norm f ^ 2) ≤ ∑ x, absorbed (epsilon x) (xi x) (zeta x) (mu x) (fun c => e c x) (fun c => f c x) := by
    rw [Solver.norm_sq, Solver.norm_sq, Finset.sum_comm, Finset.sum_comm (f := fun c x => ‖f c x‖ ^ 2), ← Finset.sum_add_distrib, Finset.mul_sum]
    exact Finset.sum_le_sum fun x _ => habs x _ _
  refine cancel_sq (Real.sqrt_nonneg _) (Real.sqrt_nonneg _) ?_
  rw [Real.sq_sqrt (by positivity)]
  refine le_trans ?_ cauchy_two
  rw [h6] at h7
  simp only [add_im] at h5 h7
  linarith [(abs_le.1 b1).1, (abs_le.1 b2).1]

end Stability

section
variable {g : Grid.Obj d ℝ} (hd : d ≤ 3) (hs : ∀ a, g.step a ≠ 0) (hN : ∀ a, 0 < g.shape a) {period : Fin d → ℝ} (hL : ∀ a, g.shape a * g.step a = period a)
include hd hs hN hL

/-- **C128 (coupled, error).** Let the fields satisfy Maxwell's equations in space for any permittivity, permeability, coupling and source, and let the solver's fields satisfy them for samples of these.
Then the differences with the exact electric and magnetic field are, in root mean square, at most in proportion to the terms of both fields that the grid cannot resolve. -/
theorem C128_coupled_error {k0 : ℝ} (hk0 : 0 < k0) {epsilon xi zeta mu : Point → Matrix (Fin 3) (Fin 3) ℂ} {δ : ℝ} (hδ : 0 < δ) (habs : AbsorbsBothInSpace epsilon xi zeta mu δ) {S E H : Fin 3 → Point → ℂ}
    (hE : CoupledInSpace k0 epsilon xi zeta mu S E H) {a b : Fin 3 → (Fin d → ℤ) → ℂ} (ha : ∀ c, HasFirstSeries period (E c) (a c)) (hb : ∀ c, HasFirstSeries period (H c) (b c))
    {e x z m : Tensor 3 g.shape} {s E' H' F G : Solver.Field 3 g.shape} (he : SampledFrom g epsilon e) (hx : SampledFrom g xi x) (hz : SampledFrom g zeta z) (hm : SampledFrom g mu m)
    (hsf : ∀ c, SampledFrom g (S c) (s c)) (hE' : Coupled (kOf g) k0 e x z m s E' H') (hF : ∀ c, SampledFrom g (E c) (F c)) (hG : ∀ c, SampledFrom g (H c) (G c)) :
    Real.sqrt (rms (E' - F) ^ 2 + rms (H' - G) ^ 2) ≤
      2 * Real.sqrt 3 / (k0 * δ) * Real.sqrt ((∑ c, firstRemainder g.shape period (a c)) ^ 2 + (∑ c, firstRemainder g.shape period (b c)) ^ 2) := by
  have hkc : (k0 : ℂ) ≠ 0 := ofReal_ne hk0.ne'
  have hIk : I * (k0 : ℂ) ≠ 0 := mul_ne_zero I_ne_zero hkc
  set RE := ∑ c, firstRemainder g.shape period (a c) with hRE
  set RH := ∑ c, firstRemainder g.shape period (b c) with hRH
  have hRE0 : 0 ≤ RE := Finset.sum_nonneg fun c _ => firstRemainder_nonneg _ _ _
  have hRH0 : 0 ≤ RH := Finset.sum_nonneg fun c _ => firstRemainder_nonneg _ _ _
  have hL := curl_isLinear (n := 3) (m := 3) (kOf g)
  have hz0 : ∀ z w : ℂ, z ≠ 0 → z * (z⁻¹ * w) = w := fun z w h => by rw [← mul_assoc, mul_inv_cancel₀ h, one_mul]
  set M : Solver.Field 3 g.shape := fun c q => (I * (k0 : ℂ))⁻¹ * Backend.curl 3 (kOf g) F c q - (mulField z F c q + mulField m G c q) with hM
  set J : Solver.Field 3 g.shape := fun c q => (-I * (k0 : ℂ))⁻¹ * (Backend.curl 3 (kOf g) G c q + I / k0 * s c q) - (mulField e F c q + mulField x G c q) with hJ
  have hIk' : -I * (k0 : ℂ) ≠ 0 := mul_ne_zero (neg_ne_zero.2 I_ne_zero) hkc
  have h1 : Backend.curl 3 (kOf g) (F - E') = (I * k0) • (mulField z (F - E') + mulField m (G - H') + M) := by
    rw [hL.map_sub, (mulField_isLinear z).map_sub, (mulField_isLinear m).map_sub]
    funext c q
    have e' := hE'.1 c q
    rw [spec_curl, spec_act, spec_act] at e'
    simp only [Pi.sub_apply, Pi.add_apply, Pi.smul_apply, smul_eq_mul, hM]
    rw [e']
    linear_combination -hz0 _ (Backend.curl 3 (kOf g) F c q) hIk
  have h2 : Backend.curl 3 (kOf g) (G - H') = (-I * k0) • (mulField e (F - E') + mulField x (G - H') + J) := by
    rw [hL.map_sub, (mulField_isLinear e).map_sub, (mulField_isLinear x).map_sub]
    funext c q
    have e' := hE'.2 c q
    rw [spec_curl, spec_act, spec_act] at e'
    simp only [Pi.sub_apply, Pi.add_apply, Pi.smul_apply, smul_eq_mul, hJ]
    rw [e']
    linear_combination -hz0 _ (Backend.curl 3 (kOf g) G c q + I / k0 * s c q) hIk'
  have hval : ∀ {A : Point → Matrix (Fin 3) (Fin 3) ℂ} {t : Tensor 3 g.shape} {V : Fin 3 → Point → ℂ} {W : Solver.Field 3 g.shape}, SampledFrom g A t → (∀ c, SampledFrom g (V c) (W c)) →
      ∀ c q ρ, AtSample g q ρ → mulField t W c q = (A ρ).mulVec (fun j => V j ρ) c := by
    intro A t V W hA hV c q ρ hρ
    rw [← spec_act]
    unfold Spec.Solver.act
    rw [hA q ρ hρ, show (fun j => W j q) = fun j => V j ρ from funext fun j => hV j q ρ hρ]
  have b1 : ∀ c q, ‖M c q‖ ≤ k0⁻¹ * (2 * RE) := by
    intro c q
    obtain ⟨ρ, hρ⟩ := exists_atSample hd g q
    have h3 := C128_first_curl hd hs hN ‹_› ha hF c hρ
    have e1 : M c q = (I * (k0 : ℂ))⁻¹ * (Spec.Solver.curl (kOf g) F c q - Spec.Continuous.curl E c ρ) := by
      rw [hE.1 c ρ, hM, spec_curl, mul_sub, ← hval hz hF c q ρ hρ, ← hval hm hG c q ρ hρ, ← mul_assoc, inv_mul_cancel₀ hIk, one_mul]
    rw [e1, norm_mul, norm_inv, norm_mul, norm_I, one_mul, norm_real, Real.norm_of_nonneg hk0.le]
    exact mul_le_mul_of_nonneg_left h3 (inv_nonneg.2 hk0.le)
  have b2 : ∀ c q, ‖J c q‖ ≤ k0⁻¹ * (2 * RH) := by
    intro c q
    obtain ⟨ρ, hρ⟩ := exists_atSample hd g q
    have h3 := C128_first_curl hd hs hN ‹_› hb hG c hρ
    have e1 : J c q = (-I * (k0 : ℂ))⁻¹ * (Spec.Solver.curl (kOf g) G c q - Spec.Continuous.curl H c ρ) := by
      rw [hE.2 c ρ, hJ]
      dsimp only
      rw [spec_curl, hsf c q ρ hρ, ← hval he hF c q ρ hρ, ← hval hx hG c q ρ hρ]
      have := hz0 _ (mulField e F c q + mulField x G c q) (inv_ne_zero hIk')
      rw [inv_inv] at this
      linear_combination this
    rw [e1, norm_mul, norm_inv, norm_mul, norm_neg, norm_I, one_mul, norm_real, Real.norm_of_nonneg hk0.le]
    exact mul_le_mul_of_nonneg_left h3 (inv_nonneg.2 hk0.le)
  have n1 := norm_le_of_bounded M (by positivity) b1
  have n2 := norm_le_of_bounded J (by positivity) b2
  have h3 := residual_le hk0.ne' (δ := δ) (fun q v w => by
    obtain ⟨ρ, hρ⟩ := exists_atSample hd g q
    rw [he q ρ hρ, hx q ρ hρ, hz q ρ hρ, hm q ρ hρ]
    exact habs ρ v w) h1 h2
  have hP : 0 < Real.sqrt (∏ b, (g.shape b : ℝ)) := Real.sqrt_pos.2 (Finset.prod_pos fun b _ => by exact_mod_cast hN b)
  set P := Real.sqrt (∏ b, (g.shape b : ℝ)) with hPdef
  have h4 : Real.sqrt (Backend.norm J ^ 2 + Backend.norm M ^ 2) ≤ Real.sqrt 3 * k0⁻¹ * 2 * P * Real.sqrt (RE ^ 2 + RH ^ 2) := by
    have hc : 0 ≤ Real.sqrt 3 * k0⁻¹ * 2 * P := by positivity
    rw [Real.sqrt_le_left (by positivity), mul_pow, Real.sq_sqrt (by positivity)]
    have m1 := pow_le_pow_left₀ (Solver.norm_nonneg' _) n1 2
    have m2 := pow_le_pow_left₀ (Solver.norm_nonneg' _) n2 2
    push_cast at m1 m2
    refine (add_le_add m2 m1).trans (le_of_eq ?_)
    ring
  rw [rms_norm, rms_norm, norm_rev E', norm_rev H', ← hPdef, div_pow, div_pow, ← add_div, Real.sqrt_div (by positivity), Real.sqrt_sq hP.le, div_le_iff₀ hP]
  refine le_of_mul_le_mul_left (h3.trans (h4.trans (le_of_eq ?_))) hδ
  field_simp

end

/-- **C128 (coupled, limit).** For every error there is a number of samples, such that all grids with at least that many samples and with the same periods give electric and magnetic fields that differ less from the
exact ones. -/
theorem C128_coupled_limit (hd : d ≤ 3) {period : Fin d → ℝ} {k0 : ℝ} (hk0 : 0 < k0) {epsilon xi zeta mu : Point → Matrix (Fin 3) (Fin 3) ℂ} {δ : ℝ} (hδ : 0 < δ)
    (habs : AbsorbsBothInSpace epsilon xi zeta mu δ) {S E H : Fin 3 → Point → ℂ} (hE : CoupledInSpace k0 epsilon xi zeta mu S E H) {a b : Fin 3 → (Fin d → ℤ) → ℂ}
    (ha : ∀ c, HasFirstSeries period (E c) (a c)) (hb : ∀ c, HasFirstSeries period (H c) (b c)) {η : ℝ} (hη : 0 < η) :
    ∃ M : ℕ, ∀ g : Grid.Obj d ℝ, (∀ b, g.step b ≠ 0) → (∀ b, 0 < g.shape b) → (∀ b, M ≤ g.shape b) → (∀ b, g.shape b * g.step b = period b) →
      ∀ (e x z m : Tensor 3 g.shape) (s E' H' F G : Solver.Field 3 g.shape), SampledFrom g epsilon e → SampledFrom g xi x → SampledFrom g zeta z → SampledFrom g mu m →
        (∀ c, SampledFrom g (S c) (s c)) → Coupled (kOf g) k0 e x z m s E' H' → (∀ c, SampledFrom g (E c) (F c)) → (∀ c, SampledFrom g (H c) (G c)) → rms (E' - F) < η ∧ rms (H' - G) < η := by
  have hC : 0 < 2 * Real.sqrt 3 / (k0 * δ) := by positivity
  set κ := η / (2 * Real.sqrt 3 / (k0 * δ)) with hκ
  have hκ0 : 0 < κ := div_pos hη hC
  have hnn : ∀ (u : (Fin d → ℤ) → ℂ) j, 0 ≤ (∑ c, |harmonic period j c|) * ‖u j‖ := fun u j => mul_nonneg (Finset.sum_nonneg fun _ _ => abs_nonneg _) (norm_nonneg _)
  choose M hM using fun c => tail_small (summable_weights (ha c)) (hnn (a c)) (show 0 < κ / 6 by positivity)
  choose M' hM' using fun c => tail_small (summable_weights (hb c)) (hnn (b c)) (show 0 < κ / 6 by positivity)
  refine ⟨∑ c, M c + ∑ c, M' c, fun g hs hN hMg hL e x z m s E' H' F G he hx hz hm hsf hE' hF hG => ?_⟩
  have h0 := C128_coupled_error hd hs hN hL hk0 hδ habs hE ha hb he hx hz hm hsf hE' hF hG
  have h1 : ∀ c, firstRemainder g.shape period (a c) < κ / 6 := fun c => hM c g.shape fun b =>
    ((Finset.single_le_sum (f := M) (fun _ _ => Nat.zero_le _) (Finset.mem_univ c)).trans (Nat.le_add_right _ _)).trans (hMg b)
  have h2 : ∀ c, firstRemainder g.shape period (b c) < κ / 6 := fun c => hM' c g.shape fun b =>
    ((Finset.single_le_sum (f := M') (fun _ _ => Nat.zero_le _) (Finset.mem_univ c)).trans (Nat.le_add_left _ _)).trans (hMg b)
  have n1 : 0 ≤ ∑ c, firstRemainder g.shape period (a c) := Finset.sum_nonneg fun c _ => firstRemainder_nonneg _ _ _
  have n2 : 0 ≤ ∑ c, firstRemainder g.shape period (b c) := Finset.sum_nonneg fun c _ => firstRemainder_nonneg _ _ _
  have h3 : ∑ c, firstRemainder g.shape period (a c) < κ / 2 := by
    rw [Fin.sum_univ_three]
    linarith [h1 0, h1 1, h1 2]
  have h4 : ∑ c, firstRemainder g.shape period (b c) < κ / 2 := by
    rw [Fin.sum_univ_three]
    linarith [h2 0, h2 1, h2 2]
  have h5 : Real.sqrt ((∑ c, firstRemainder g.shape period (a c)) ^ 2 + (∑ c, firstRemainder g.shape period (b c)) ^ 2) < κ := by
    rw [Real.sqrt_lt' hκ0]
    nlinarith
  have h6 : Real.sqrt (rms (E' - F) ^ 2 + rms (H' - G) ^ 2) < η := by
    refine h0.trans_lt ?_
    rwa [hκ, lt_div_iff₀ hC, mul_comm] at h5
  have r1 : rms (E' - F) ≤ Real.sqrt (rms (E' - F) ^ 2 + rms (H' - G) ^ 2) := Real.le_sqrt_of_sq_le (le_add_of_nonneg_right (sq_nonneg _))
  have r2 : rms (H' - G) ≤ Real.sqrt (rms (E' - F) ^ 2 + rms (H' - G) ^ 2) := Real.le_sqrt_of_sq_le (le_add_of_nonneg_left (sq_nonneg _))
  exact ⟨r1.trans_lt h6, r2.trans_lt h6⟩

theorem hasFirst_extruded {period : Fin d → ℝ} {f : Point → ℂ} {a : (Fin d → ℤ) → ℂ} (h : HasFirstSeries period f a) : Extruded d f := by
  rw [show f = sum (harmonic period) a from funext h.value]
  exact sum_extruded _ _

theorem hasFirst_sub {period : Fin d → ℝ} {f f' : Point → ℂ} {a a' : (Fin d → ℤ) → ℂ} (h : HasFirstSeries period f a) (h' : HasFirstSeries period f' a') :
    HasFirstSeries period (fun r => f r - f' r) fun j => a j - a' j where
  value r := by
    rw [h.value, h'.value, ← (summable_wave h.summable r).tsum_sub (summable_wave h'.summable r)]
    exact tsum_congr fun j => by rw [sub_mul]
  summable := Summable.of_nonneg_of_le (fun _ => norm_nonneg _) (fun j => norm_sub_le _ _) (h.summable.add h'.summable)
  first c := Summable.of_nonneg_of_le (fun _ => mul_nonneg (abs_nonneg _) (norm_nonneg _)) (fun j => by
    rw [← mul_add]
    exact mul_le_mul_of_nonneg_left (norm_sub_le _ _) (abs_nonneg _)) ((h.first c).add (h'.first c))

theorem hasFirst_differentiable {period : Fin d → ℝ} {f : Point → ℂ} {a : (Fin d → ℤ) → ℂ} (h : HasFirstSeries period f a) (c : Fin 3) (r : Point) (t : ℝ) :
    DifferentiableAt ℝ (fun t => f (Function.update r c t)) t := by
  rw [show f = sum (harmonic period) a from funext h.value]
  exact differentiable_sum c h.summable (h.first c) r t

theorem curl_sub {period : Fin d → ℝ} {E E' : Fin 3 → Point → ℂ} {a a' : Fin 3 → (Fin d → ℤ) → ℂ} (h : ∀ c, HasFirstSeries period (E c) (a c)) (h' : ∀ c, HasFirstSeries period (E' c) (a' c)) (c : Fin 3)
    (r : Point) : Spec.Continuous.curl (fun c r => E c r - E' c r) c r = Spec.Continuous.curl E c r - Spec.Continuous.curl E' c r := by
  have key : ∀ b c, partialDeriv b (fun r => E c r - E' c r) r = partialDeriv b (E c) r - partialDeriv b (E' c) r := fun b c =>
    deriv_fun_sub (hasFirst_differentiable (h c) b r (r b)) (hasFirst_differentiable (h' c) b r (r b))
  fin_cases c
  · change partialDeriv 1 (fun r => E 2 r - E' 2 r) r - partialDeriv 2 (fun r => E 1 r - E' 1 r) r = partialDeriv 1 (E 2) r - partialDeriv 2 (E 1) r - (partialDeriv 1 (E' 2) r - partialDeriv 2 (E' 1) r)
    rw [key, key]
    ring
  · change partialDeriv 2 (fun r => E 0 r - E' 0 r) r - partialDeriv 0 (fun r => E 2 r - E' 2 r) r = partialDeriv 2 (E 0) r - partialDeriv 0 (E 2) r - (partialDeriv 2 (E' 0) r - partialDeriv 0 (E' 2) r)
    rw [key, key]
    ring
  · change partialDeriv 0 (fun r => E 1 r - E' 1 r) r - partialDeriv 1 (fun r => E 0 r - E' 0 r) r = partialDeriv 0 (E 1) r - partialDeriv 1 (E 0) r - (partialDeriv 0 (E' 1) r - partialDeriv 1 (E' 0) r)
    rw [key, key]
    ring

/-- **C128 (coupled, unique).** There is at most one such exact solution: what the solver converges to is determined by the material and the source. -/
theorem C128_coupled_unique (hd : d ≤ 3) {period : Fin d → ℝ} (hper : ∀ b, period b ≠ 0) {k0 : ℝ} (hk0 : 0 < k0) {epsilon xi zeta mu : Point → Matrix (Fin 3) (Fin 3) ℂ} (hex : Extruded d epsilon)
    (hxx : Extruded d xi) (hxz : Extruded d zeta) (hxm : Extruded d mu) {δ : ℝ} (hδ : 0 < δ) (habs : AbsorbsBothInSpace epsilon xi zeta mu δ) {S E E' H H' : Fin 3 → Point → ℂ}
    (hE : CoupledInSpace k0 epsilon xi zeta mu S E H) (hE' : CoupledInSpace k0 epsilon xi zeta mu S E' H') {a a' b b' : Fin 3 → (Fin d → ℤ) → ℂ} (ha : ∀ c, HasFirstSeries period (E c) (a c))
    (ha' : ∀ c, HasFirstSeries period (E' c) (a' c)) (hb : ∀ c, HasFirstSeries period (H c) (b c)) (hb' : ∀ c, HasFirstSeries period (H' c) (b' c)) : E = E' ∧ H = H' := by
  have hdE := fun c => hasFirst_sub (ha c) (ha' c)
  have hdH := fun c => hasFirst_sub (hb c) (hb' c)
  have hmv : ∀ (A : Matrix (Fin 3) (Fin 3) ℂ) (v w : Fin 3 → ℂ) c, A.mulVec (fun j => v j - w j) c = A.mulVec v c - A.mulVec w c := fun A v w c => congrFun (Matrix.mulVec_sub A v w) c
  have hdiff : CoupledInSpace k0 epsilon xi zeta mu (fun _ _ => 0) (fun c r => E c r - E' c r) (fun c r => H c r - H' c r) := by
    constructor
    · intro c r
      rw [curl_sub ha ha', hE.1, hE'.1, hmv, hmv]
      ring
    · intro c r
      rw [curl_sub hb hb', hE.2, hE'.2, hmv, hmv]
      ring
  have key : ∀ c j, a c j - a' c j = 0 ∧ b c j - b' c j = 0 := by
    intro c j
    have hle : ∀ η : ℝ, 0 < η → ‖a c j - a' c j‖ < η ∧ ‖b c j - b' c j‖ < η := by
      intro η hη
      have hη2 : 0 < η / 2 := by linarith
      obtain ⟨M, hM⟩ := C128_coupled_limit hd hk0 hδ habs hdiff hdE hdH hη2
      obtain ⟨K, hK⟩ := tail_small (hdE c).summable (fun j => norm_nonneg _) hη2
      obtain ⟨K', hK'⟩ := tail_small (hdH c).summable (fun j => norm_nonneg _) hη2
      set m := M + K + K' + ∑ b, (2 * (j b).natAbs + 1) + 1 with hm
      have hN : ∀ b, 0 < (gridOf period m).shape b := fun b => by
        change 0 < m
        omega
      have hmr : (m : ℝ) ≠ 0 := by
        rw [hm]
        positivity
      have hs : ∀ b, (gridOf period m).step b ≠ 0 := fun b => div_ne_zero (hper b) hmr
      have hL : ∀ b, (gridOf period m).shape b * (gridOf period m).step b = period b := fun b => mul_div_cancel₀ _ hmr
      obtain ⟨e, he⟩ := sampled_of_extruded hd (gridOf period m) hex
      obtain ⟨x, hx⟩ := sampled_of_extruded hd (gridOf period m) hxx
      obtain ⟨z, hz⟩ := sampled_of_extruded hd (gridOf period m) hxz
      obtain ⟨u, hu⟩ := sampled_of_extruded hd (gridOf period m) hxm
      choose F hF using fun c => sampled_of_extruded hd (gridOf period m) (hasFirst_extruded (hdE c))
      choose G hG using fun c => sampled_of_extruded hd (gridOf period m) (hasFirst_extruded (hdH c))
      have hzero : Coupled (kOf (gridOf period m)) k0 e x z u 0 0 0 := by
        constructor <;> intro c q <;>
          simp only [spec_curl, spec_act, (curl_isLinear (n := 3) (m := 3) (kOf (gridOf period m))).map_zero, (mulField_isLinear _).map_zero, Pi.zero_apply, add_zero, mul_zero, sub_zero]
      obtain ⟨b1, b2⟩ := hM (gridOf period m) hs hN (fun b => by change M ≤ m; omega) hL e x z u 0 0 0 F G he hx hz hu (fun _ _ _ _ => rfl) hzero hF hG
      have hneg : ∀ V : Solver.Field 3 (gridOf period m).shape, rms (0 - V) = rms V := fun V => by
        unfold rms
        simp only [Pi.sub_apply, Pi.zero_apply, zero_sub, norm_neg]
      rw [hneg] at b1 b2
      have hj : Sampled (gridOf period m).shape j := fun b => by
        have : 2 * (j b).natAbs + 1 ≤ ∑ b, (2 * (j b).natAbs + 1) := Finset.single_le_sum (f := fun b => 2 * (j b).natAbs + 1) (fun _ _ => Nat.zero_le _) (Finset.mem_univ b)
        change -((m : ℕ) : ℤ) ≤ 2 * j b ∧ 2 * j b < ((m : ℕ) : ℤ)
        omega
      have c1 := coefficient_le hd hs hN hL (hdE c) (hF c) hj
      have c2 := coefficient_le hd hs hN hL (hdH c) (hG c) hj
      have t1 := hK (gridOf period m).shape fun b => by change K ≤ m; omega
      have t2 := hK' (gridOf period m).shape fun b => by change K' ≤ m; omega
      have r1 := rms_single_le F c
      have r2 := rms_single_le G c
      constructor <;> linarith
    constructor
    · exact norm_le_zero_iff.1 (le_of_forall_pos_lt_add fun η hη => by rw [zero_add]; exact (hle η hη).1)
    · exact norm_le_zero_iff.1 (le_of_forall_pos_lt_add fun η hη => by rw [zero_add]; exact (hle η hη).2)
  constructor
  · funext c ρ
    rw [(ha c).value, (ha' c).value]
    exact tsum_congr fun j => by rw [sub_eq_zero.1 (key c j).1]
  · funext c ρ
    rw [(hb c).value, (hb' c).value]
    exact tsum_congr fun j => by rw [sub_eq_zero.1 (key c j).2]

/-! ### Cases -/

/-- A chirality that varies everywhere along the first axis. -/
noncomputable def demoChirality (r : Point) : ℂ := wave (harmonic (d := 1) 1 fun _ => 1) r

noncomputable def demoLossy (r : Point) : Matrix (Fin 3) (Fin 3) ℂ := ((2 + Real.sin (2 * Real.pi * r 0) : ℝ) + 2 * I : ℂ) • 1

theorem demoCoupled_absorbs : AbsorbsBothInSpace demoLossy (fun r => demoChirality r • 1) (fun r => -demoChirality r • 1) (fun _ => (1 + 2 * I : ℂ) • 1) 1 := fun r e h => by
  have h1 : star h ⬝ᵥ e = star (star e ⬝ᵥ h) := Matrix.star_dotProduct _ _
  unfold demoLossy
  simp only [Matrix.smul_mulVec, Matrix.one_mulVec, dotProduct_add, dotProduct_smul, smul_eq_mul, h1, star_dot_self]
  have h2 : |(star e ⬝ᵥ h).im| ≤ (∑ i, ‖e i‖ ^ 2 + ∑ i, ‖h i‖ ^ 2) / 2 := by
    refine (abs_im_le_norm _).trans ((norm_sum_le _ _).trans ?_)
    rw [← Finset.sum_add_distrib, Finset.sum_div]
    refine Finset.sum_le_sum fun i _ => ?_
    rw [norm_mul, Pi.star_apply, norm_star]
    nlinarith [sq_nonneg (‖e i‖ - ‖h i‖)]
  have h3 : |(demoChirality r).re| ≤ 1 := (abs_re_le_norm _).trans (norm_wave _ _).le
  have h4 : |(demoChirality r).re * (star e ⬝ᵥ h).im| ≤ (∑ i, ‖e i‖ ^ 2 + ∑ i, ‖h i‖ ^ 2) / 2 := by
    rw [abs_mul]
    exact (mul_le_of_le_one_left (abs_nonneg _) h3).trans h2
  simp only [add_im, mul_im, add_re, mul_re, one_re, I_re, one_im, I_im, ofReal_re, ofReal_im, RCLike.star_def, conj_im, conj_re, neg_im, neg_re, re_ofNat, im_ofNat]
  have := (abs_le.1 h4).1
  nlinarith

theorem demoCoupled_series : (∀ c : Fin 3, HasFirstSeries (d := 1) 1 (fun _ => if c = 1 then 1 else 0) (Pi.single 0 (if c = 1 then 1 else 0))) ∧
    ∀ c : Fin 3, HasFirstSeries (d := 1) 1 (fun r => (if c = 1 then (1 + 2 * I)⁻¹ else 0) * demoChirality r) (Pi.single (fun _ => 1) (if c = 1 then (1 + 2 * I)⁻¹ else 0)) := by
  refine ⟨fun c => ?_, fun c => hasSeries_first (hasSeries_single 1 _ _)⟩
  have h := hasSeries_first (hasSeries_single (d := 1) 1 0 (if c = 1 then 1 else 0))
  have h2 : ∀ r, wave (harmonic (d := 1) 1 0) r = 1 := fun r => by
    have : harmonic (d := 1) 1 0 = 0 := by
      funext c
      unfold harmonic
      split_ifs <;> simp
    rw [this]
    simp [wave]
  simpa only [h2, mul_one] using h

/-- The source for which the electric field is uniform and the magnetic field is not. -/
noncomputable def demoCurrent (c : Fin 3) (r : Point) : ℂ :=
  I * (Spec.Continuous.curl (fun c r => (if c = 1 then (1 + 2 * I)⁻¹ else 0) * demoChirality r) c r) -
    ((demoLossy r).mulVec (fun c : Fin 3 => if c = 1 then 1 else 0) c + (demoChirality r • (1 : Matrix (Fin 3) (Fin 3) ℂ)).mulVec (fun c : Fin 3 => (if c = 1 then (1 + 2 * I)⁻¹ else 0) * demoChirality r) c)

theorem demoCoupled : CoupledInSpace 1 demoLossy (fun r => demoChirality r • 1) (fun r => -demoChirality r • 1) (fun _ => (1 + 2 * I : ℂ) • 1) demoCurrent (fun c _ => if c = 1 then 1 else 0)
    fun c r => (if c = 1 then (1 + 2 * I)⁻¹ else 0) * demoChirality r := by
  have hz : (1 + 2 * I : ℂ) ≠ 0 := fun h => by simpa using congrArg Complex.re h
  constructor
  · intro c r
    have h0 : ∀ c r (z : ℂ), partialDeriv c (fun _ => z) r = 0 := fun c r z => deriv_const _ _
    have h1 : Spec.Continuous.curl (fun (c : Fin 3) (_ : Point) => (if c = 1 then 1 else 0 : ℂ)) c r = 0 := by
      unfold Spec.Continuous.curl
      fin_cases c <;> simp only [h0] <;> simp
    rw [h1]
    simp only [Matrix.smul_mulVec, Matrix.one_mulVec, Pi.smul_apply, smul_eq_mul]
    split_ifs
    · rw [← mul_assoc (1 + 2 * I), mul_inv_cancel₀ hz]
      ring
    · ring
  · intro c r
    unfold demoCurrent
    push_cast
    linear_combination (Spec.Continuous.curl (fun c r => (if c = 1 then (1 + 2 * I)⁻¹ else 0) * demoChirality r) c r) * I_mul_I

/-- The hypotheses of `C128_coupled_limit`, `C128_coupled_error` and `C128_first_curl` are met: in a material whose permittivity and chirality vary everywhere, the fields converge to the exact ones. -/
example {η : ℝ} (hη : 0 < η) : ∃ M : ℕ, ∀ g : Grid.Obj 1 ℝ, (∀ b, g.step b ≠ 0) → (∀ b, 0 < g.shape b) → (∀ b, M ≤ g.shape b) → (∀ b, g.shape b * g.step b = 1) →
    ∀ (e x z m : Tensor 3 g.shape) (s E' H' F G : Solver.Field 3 g.shape), SampledFrom g demoLossy e → SampledFrom g (fun r => demoChirality r • 1) x → SampledFrom g (fun r => -demoChirality r • 1) z →
      SampledFrom g (fun _ => (1 + 2 * I : ℂ) • 1) m → (∀ c, SampledFrom g (demoCurrent c) (s c)) → Coupled (kOf g) (1 : ℝ) e x z m s E' H' → (∀ c, SampledFrom g (fun _ => if c = 1 then 1 else 0) (F c)) →
        (∀ c, SampledFrom g (fun r => (if c = 1 then (1 + 2 * I)⁻¹ else 0) * demoChirality r) (G c)) → rms (E' - F) < η ∧ rms (H' - G) < η :=
  C128_coupled_limit (period := 1) (by decide) one_pos one_pos demoCoupled_absorbs demoCoupled demoCoupled_series.1 demoCoupled_series.2 hη

/-- The hypotheses of `C128_coupled_unique` are met. -/
example {E' H' : Fin 3 → Point → ℂ} (h : CoupledInSpace 1 demoLossy (fun r => demoChirality r • 1) (fun r => -demoChirality r • 1) (fun _ => (1 + 2 * I : ℂ) • 1) demoCurrent E' H')
    {a b : Fin 3 → (Fin 1 → ℤ) → ℂ} (ha : ∀ c, HasFirstSeries 1 (E' c) (a c)) (hb : ∀ c, HasFirstSeries 1 (H' c) (b c)) :
    E' = (fun c _ => if c = 1 then 1 else 0) ∧ H' = fun c r => (if c = 1 then (1 + 2 * I)⁻¹ else 0) * demoChirality r := by
  have hx : Extruded 1 demoChirality := by
    have := hasFirst_extruded (hasSeries_first (hasSeries_single (d := 1) 1 (fun _ => 1) 1))
    simp only [one_mul] at this
    exact this
  refine C128_coupled_unique (period := 1) (by decide) (fun _ => one_ne_zero) one_pos (fun r r' hr => ?_) (fun r r' hr => ?_) (fun r r' hr => ?_) (fun _ _ _ => rfl) one_pos demoCoupled_absorbs h demoCoupled ha
    demoCoupled_series.1 hb demoCoupled_series.2
  · unfold demoLossy
    rw [hr 0 (by decide)]
  · rw [hx r r' hr]
  · rw [hx r r' hr]

end Verif.Refinement
