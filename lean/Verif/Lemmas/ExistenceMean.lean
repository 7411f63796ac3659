import Verif.Lemmas.Refinement
import Mathlib.Analysis.Normed.Group.Tannery

/-!
# The mean of a function with a Fourier series, and what follows for its sign (for property C130)

The mean of a function at ever more points tends to the constant term of its series.  So the form that belongs to a material has the sign that the material has at every point.
-/

namespace Verif.Existence

open Verif Verif.Refinement Verif.Spec.Continuous Verif.Spec.Refinement Complex Filter Topology Matrix

variable {d : ℕ} {ι : Type} [Fintype ι]

theorem harmonic_add (period : Fin d → ℝ) (i j : Fin d → ℤ) : harmonic period (i + j) = harmonic period i + harmonic period j := by
  funext c
  unfold harmonic
  simp only [Pi.add_apply]
  split_ifs
  · push_cast
    ring
  · rw [add_zero]

theorem harmonic_neg (period : Fin d → ℝ) (j : Fin d → ℤ) : harmonic period (-j) = -harmonic period j := by
  funext c
  unfold harmonic
  simp only [Pi.neg_apply]
  split_ifs
  · push_cast
    ring
  · rw [neg_zero]

theorem wave_add (kappa kappa' r : Point) : wave (kappa + kappa') r = wave kappa r * wave kappa' r := by
  unfold wave
  rw [← exp_add, ← mul_add, ← ofReal_add, ← Finset.sum_add_distrib]
  simp only [Pi.add_apply, add_mul]

theorem wave_neg (kappa r : Point) : wave (-kappa) r = star (wave kappa r) := by
  unfold wave
  rw [star_def, ← exp_conj, map_mul, conj_I, conj_ofReal]
  simp only [Pi.neg_apply, neg_mul, Finset.sum_neg_distrib, ofReal_neg, mul_neg]

/-- Points at equal distances in a period. -/
noncomputable def lattice (period : Fin d → ℝ) (N : ℕ) (p : Fin d → Fin N) : Point := fun c => if h : (c : ℕ) < d then period ⟨c, h⟩ * ((p ⟨c, h⟩ : ℕ) / N) else 0

/-- The mean of a function. -/
noncomputable def mean (period : Fin d → ℝ) (N : ℕ) (f : Point → ℂ) : ℂ := (∑ p : Fin d → Fin N, f (lattice period N p)) / (N : ℂ) ^ d

section
variable (hd : d ≤ 3) {period : Fin d → ℝ} (hper : ∀ b, period b ≠ 0)
include hd hper

theorem wave_lattice {N : ℕ} (j : Fin d → ℤ) (p : Fin d → Fin N) : wave (harmonic period j) (lattice period N p) = ∏ a, exp (2 * Real.pi * I * (j a / N)) ^ (p a : ℕ) := by
  have hsum : ∑ c, harmonic period j c * lattice period N p c = ∑ a : Fin d, 2 * Real.pi * j a * ((p a : ℕ) / N) := by
    refine (Fintype.sum_of_injective (Fin.castLE hd) (Fin.castLE_injective hd) _ _ (fun c hc => ?_) fun a => ?_).symm
    · unfold harmonic
      rw [dif_neg, zero_mul]
      exact fun h => hc ⟨⟨c, h⟩, rfl⟩
    · unfold harmonic lattice
      rw [dif_pos (show ((Fin.castLE hd a : Fin 3) : ℕ) < d from a.isLt), dif_pos (show ((Fin.castLE hd a : Fin 3) : ℕ) < d from a.isLt)]
      have := hper a
      change _ = 2 * Real.pi * (j a) / period a * (period a * ((p a : ℕ) / N))
      field_simp
  unfold wave
  rw [hsum]
  simp only [← exp_nat_mul]
  rw [← exp_sum]
  push_cast
  rw [Finset.mul_sum]
  congr 1
  refine Finset.sum_congr rfl fun a _ => ?_
  ring

theorem mean_wave {N : ℕ} (j : Fin d → ℤ) : mean period N (wave (harmonic period j)) = ∏ a, (∑ p : Fin N, exp (2 * Real.pi * I * (j a / N)) ^ (p : ℕ)) / N := by
  unfold mean
  simp only [wave_lattice hd hper]
  rw [Finset.prod_div_distrib, Finset.prod_const, Finset.card_univ, Fintype.card_fin, Finset.prod_univ_sum, Fintype.piFinset_univ]

theorem mean_wave_zero {N : ℕ} (hN : 0 < N) : mean period N (wave (harmonic period 0)) = 1 := by
  have : (N : ℂ) ≠ 0 := by exact_mod_cast hN.ne'
  rw [mean_wave hd hper]
  simp [this]

theorem mean_wave_ne {N : ℕ} {j : Fin d → ℤ} {a : Fin d} (h0 : j a ≠ 0) (hN : (j a).natAbs < N) : mean period N (wave (harmonic period j)) = 0 := by
  rw [mean_wave hd hper]
  refine Finset.prod_eq_zero (Finset.mem_univ a) ?_
  have hN0 : (N : ℂ) ≠ 0 := by
    have : N ≠ 0 := by omega
    exact_mod_cast this
  rw [Fin.sum_univ_eq_sum_range (fun i => exp (2 * Real.pi * I * (j a / N)) ^ i), geom_sum_eq, ← exp_nat_mul,
    show (N : ℂ) * (2 * Real.pi * I * (j a / N)) = (j a : ℂ) * (2 * Real.pi * I) by field_simp, exp_int_mul_two_pi_mul_I, sub_self, zero_div, zero_div]
  intro h
  rw [exp_eq_one_iff] at h
  obtain ⟨i, hi⟩ := h
  have h1 : (j a : ℂ) / N = i := by
    have h2 : (2 * Real.pi * I : ℂ) ≠ 0 := two_pi_I_ne_zero
    refine mul_left_cancel₀ h2 (hi.trans (mul_comm _ _))
  rw [div_eq_iff hN0] at h1
  have h2 : j a = i * N := by exact_mod_cast h1
  have h3 : (j a).natAbs = i.natAbs * N := by rw [h2, Int.natAbs_mul, Int.natAbs_natCast]
  rcases Nat.eq_zero_or_pos i.natAbs with h4 | h4
  · rw [h4, zero_mul] at h3
    exact h0 (Int.natAbs_eq_zero.1 h3)
  · nlinarith

omit hd hper in
theorem norm_mean_wave {N : ℕ} (j : Fin d → ℤ) : ‖mean period N (wave (harmonic period j))‖ ≤ 1 := by
  unfold mean
  rw [norm_div, norm_pow, norm_natCast]
  refine div_le_one_of_le₀ ((norm_sum_le _ _).trans ?_) (by positivity)
  simp only [norm_wave]
  simp

/-- The mean of a series tends to its constant term. -/
theorem tendsto_mean {m : (Fin d → ℤ) → ℂ} (hm : Summable fun j => ‖m j‖) (t : Fin d → ℤ) :
    Tendsto (fun N => mean period N fun r => ∑' j, m j * wave (harmonic period (j + t)) r) atTop (𝓝 (m (-t))) := by
  have h1 : ∀ N, mean period N (fun r => ∑' j, m j * wave (harmonic period (j + t)) r) = ∑' j, m j * mean period N (wave (harmonic period (j + t))) := by
    intro N
    unfold mean
    rw [← Summable.tsum_finsetSum fun p _ => summable_wave hm _, ← tsum_div_const]
    refine tsum_congr fun j => ?_
    rw [← Finset.mul_sum, mul_div_assoc]
  have h2 : m (-t) = ∑' j, if j = -t then m j else 0 := by rw [tsum_ite_eq]
  simp only [h1]
  rw [h2]
  refine tendsto_tsum_of_dominated_convergence hm (fun j => ?_) (Eventually.of_forall fun N j => ?_)
  · split_ifs with hj
    · refine Tendsto.congr' ?_ tendsto_const_nhds
      filter_upwards [eventually_gt_atTop 0] with N hN
      rw [hj, neg_add_cancel, mean_wave_zero hd hper hN, mul_one]
    · obtain ⟨a, ha⟩ : ∃ a, (j + t) a ≠ 0 := by
        by_contra h
        push Not at h
        exact hj (eq_neg_of_add_eq_zero_left (funext h))
      refine Tendsto.congr' ?_ tendsto_const_nhds
      filter_upwards [eventually_gt_atTop ((j + t) a).natAbs] with N hN
      rw [mean_wave_ne hd hper ha hN, mul_zero]
  · rw [norm_mul]
    exact mul_le_of_le_one_right (norm_nonneg _) (norm_mean_wave _)

end

/-! ### The form of a material -/

/-- The form of a material, for the coefficients of a field in a finite set. -/
def form (m : (Fin d → ℤ) → Matrix (ι) (ι) ℂ) (F : Finset (Fin d → ℤ)) (x : (Fin d → ℤ) → ι → ℂ) : ℂ := ∑ j ∈ F, ∑ l ∈ F, ∑ c, ∑ c', star (x j c) * x l c' * m (j - l) c c'

/-- The values of the material at a point. -/
def IsSeries (period : Fin d → ℝ) (A : Point → Matrix (ι) (ι) ℂ) (m : (Fin d → ℤ) → Matrix (ι) (ι) ℂ) : Prop :=
  ∀ c c', (∀ r, A r c c' = ∑' j, m j c c' * wave (harmonic period j) r) ∧ Summable fun j => ‖m j c c'‖

theorem form_at {period : Fin d → ℝ} {A : Point → Matrix (ι) (ι) ℂ} {m : (Fin d → ℤ) → Matrix (ι) (ι) ℂ} (h : IsSeries period A m) (F : Finset (Fin d → ℤ))
    (x : (Fin d → ℤ) → ι → ℂ) (r : Point) :
    star (fun c => ∑ j ∈ F, x j c * wave (harmonic period j) r) ⬝ᵥ (A r).mulVec (fun c => ∑ j ∈ F, x j c * wave (harmonic period j) r) =
      ∑ j ∈ F, ∑ l ∈ F, ∑ c, ∑ c', star (x j c) * x l c' * ∑' k, m k c c' * wave (harmonic period (k + (l - j))) r := by
  have h1 : ∀ j l c c', ∑' k, m k c c' * wave (harmonic period (k + (l - j))) r = star (wave (harmonic period j) r) * wave (harmonic period l) r * A r c c' := by
    intro j l c c'
    rw [(h c c').1, ← tsum_mul_left]
    refine tsum_congr fun k => ?_
    rw [sub_eq_add_neg, harmonic_add, harmonic_add, harmonic_neg, wave_add, wave_add, wave_neg]
    ring
  simp only [h1]
  unfold dotProduct Matrix.mulVec dotProduct
  simp only [Pi.star_apply, star_sum, Finset.mul_sum, Finset.sum_mul]
  have e : ∀ j l c c', star (x j c * wave (harmonic period j) r) * (A r c c' * (x l c' * wave (harmonic period l) r)) =
      star (x j c) * x l c' * (star (wave (harmonic period j) r) * wave (harmonic period l) r * A r c c') := by
    intro j l c c'
    rw [star_mul']
    ring
  simp only [e]
  symm
  calc _ = ∑ j ∈ F, ∑ c, ∑ l ∈ F, ∑ c', star (x j c) * x l c' * (star (wave (harmonic period j) r) * wave (harmonic period l) r * A r c c') :=
        Finset.sum_congr rfl fun j _ => Finset.sum_comm
    _ = ∑ c, ∑ j ∈ F, ∑ l ∈ F, ∑ c', star (x j c) * x l c' * (star (wave (harmonic period j) r) * wave (harmonic period l) r * A r c c') := Finset.sum_comm
    _ = ∑ c, ∑ j ∈ F, ∑ c', ∑ l ∈ F, star (x j c) * x l c' * (star (wave (harmonic period j) r) * wave (harmonic period l) r * A r c c') :=
        Finset.sum_congr rfl fun c _ => Finset.sum_congr rfl fun j _ => Finset.sum_comm
    _ = ∑ c, ∑ c', ∑ j ∈ F, ∑ l ∈ F, star (x j c) * x l c' * (star (wave (harmonic period j) r) * wave (harmonic period l) r * A r c c') :=
        Finset.sum_congr rfl fun c _ => Finset.sum_comm
    _ = ∑ c, ∑ c', ∑ l ∈ F, ∑ j ∈ F, star (x j c) * x l c' * (star (wave (harmonic period j) r) * wave (harmonic period l) r * A r c c') :=
        Finset.sum_congr rfl fun c _ => Finset.sum_congr rfl fun c' _ => Finset.sum_comm

theorem form_nonneg (hd : d ≤ 3) {period : Fin d → ℝ} (hper : ∀ b, period b ≠ 0) {A : Point → Matrix (ι) (ι) ℂ} {m : (Fin d → ℤ) → Matrix (ι) (ι) ℂ} (h : IsSeries period A m)
    (h0 : ∀ r v, 0 ≤ (star v ⬝ᵥ (A r).mulVec v).im) (F : Finset (Fin d → ℤ)) (x : (Fin d → ℤ) → ι → ℂ) : 0 ≤ (form m F x).im := by
  have h1 : Tendsto (fun N => ∑ j ∈ F, ∑ l ∈ F, ∑ c, ∑ c', star (x j c) * x l c' * mean period N fun r => ∑' k, m k c c' * wave (harmonic period (k + (l - j))) r) atTop (𝓝 (form m F x)) := by
    refine tendsto_finsetSum _ fun j _ => tendsto_finsetSum _ fun l _ => tendsto_finsetSum _ fun c _ => tendsto_finsetSum _ fun c' _ => Tendsto.const_mul _ ?_
    have := tendsto_mean hd hper (h c c').2 (l - j)
    rwa [neg_sub] at this
  refine ge_of_tendsto ((continuous_im.tendsto _).comp h1) (Eventually.of_forall fun N => ?_)
  have h2 : (∑ j ∈ F, ∑ l ∈ F, ∑ c, ∑ c', star (x j c) * x l c' * mean period N fun r => ∑' k, m k c c' * wave (harmonic period (k + (l - j))) r) =
      mean period N fun r => star (fun c => ∑ j ∈ F, x j c * wave (harmonic period j) r) ⬝ᵥ (A r).mulVec (fun c => ∑ j ∈ F, x j c * wave (harmonic period j) r) := by
    simp only [form_at h]
    unfold mean
    simp only [← mul_div_assoc, Finset.mul_sum, ← Finset.sum_div]
    congr 1
    symm
    rw [Finset.sum_comm]
    refine Finset.sum_congr rfl fun j _ => ?_
    rw [Finset.sum_comm]
    refine Finset.sum_congr rfl fun l _ => ?_
    rw [Finset.sum_comm]
    refine Finset.sum_congr rfl fun c _ => ?_
    rw [Finset.sum_comm]
  rw [Function.comp_apply, h2]
  unfold mean
  rw [show ((N : ℂ) ^ d) = (((N : ℝ) ^ d : ℝ) : ℂ) by push_cast; rfl, div_ofReal_im, im_sum]
  exact div_nonneg (Finset.sum_nonneg fun p _ => h0 _ _) (by positivity)

/-- The form of a material that absorbs. -/
theorem form_absorbs (hd : d ≤ 3) {period : Fin d → ℝ} (hper : ∀ b, period b ≠ 0) {A : Point → Matrix (ι) (ι) ℂ} {m : (Fin d → ℤ) → Matrix (ι) (ι) ℂ} (h : IsSeries period A m) {δ : ℝ}
    (habs : ∀ r v, δ * ∑ c, ‖v c‖ ^ 2 ≤ (star v ⬝ᵥ (A r).mulVec v).im) (F : Finset (Fin d → ℤ)) (x : (Fin d → ℤ) → ι → ℂ) :
    δ * ∑ j ∈ F, ∑ c, ‖x j c‖ ^ 2 ≤ (form m F x).im := by
  classical
  have hone : ∀ c c' : ι, (∀ r, ((δ * I : ℂ) • (1 : Matrix (ι) (ι) ℂ)) c c' = ∑' j, (Pi.single (0 : Fin d → ℤ) (((δ * I : ℂ) • (1 : Matrix (ι) (ι) ℂ)) c c') : (Fin d → ℤ) → ℂ) j *
      wave (harmonic period j) r) ∧ Summable fun j => ‖(Pi.single (0 : Fin d → ℤ) (((δ * I : ℂ) • (1 : Matrix (ι) (ι) ℂ)) c c') : (Fin d → ℤ) → ℂ) j‖ := by
    intro c c'
    constructor
    · intro r
      rw [tsum_eq_single 0 fun j hj => by rw [Pi.single_eq_of_ne hj, zero_mul], Pi.single_eq_same]
      have : wave (harmonic period (0 : Fin d → ℤ)) r = 1 := by
        have : harmonic period (0 : Fin d → ℤ) = 0 := by
          funext c
          unfold harmonic
          split_ifs <;> simp
        rw [this]
        simp [wave]
      rw [this, mul_one]
    · exact summable_of_ne_finset_zero (s := {0}) fun i hi => by rw [Pi.single_eq_of_ne (by simpa using hi), norm_zero]
  have hser : IsSeries period (fun r => A r - (δ * I : ℂ) • (1 : Matrix (ι) (ι) ℂ))
      fun j => Matrix.of fun c c' => m j c c' - (Pi.single (0 : Fin d → ℤ) (((δ * I : ℂ) • (1 : Matrix (ι) (ι) ℂ)) c c') : (Fin d → ℤ) → ℂ) j := by
    intro c c'
    constructor
    · intro r
      simp only [Matrix.of_apply, sub_mul]
      rw [(summable_wave (h c c').2 r).tsum_sub (summable_wave (hone c c').2 r), ← (h c c').1, ← (hone c c').1, Matrix.sub_apply]
    · exact Summable.of_norm_bounded ((h c c').2.add (hone c c').2) fun j => by
        rw [norm_norm]
        exact norm_sub_le _ _
  have h1 := form_nonneg hd hper hser (fun r v => by
    rw [Matrix.sub_mulVec, dotProduct_sub, Matrix.smul_mulVec, Matrix.one_mulVec, dotProduct_smul, smul_eq_mul, sub_im]
    have e : star v ⬝ᵥ v = ((∑ c, ‖v c‖ ^ 2 : ℝ) : ℂ) := by
      unfold dotProduct
      push_cast
      refine Finset.sum_congr rfl fun c _ => ?_
      rw [Pi.star_apply, star_def, conj_mul']
    rw [e, im_mul_ofReal]
    have := habs r v
    simp only [mul_im, ofReal_re, I_im, mul_one, ofReal_im, I_re, mul_zero, add_zero]
    linarith) F x
  have h2 : form (fun j => Matrix.of fun c c' => m j c c' - (Pi.single (0 : Fin d → ℤ) (((δ * I : ℂ) • (1 : Matrix (ι) (ι) ℂ)) c c') : (Fin d → ℤ) → ℂ) j) F x =
      form m F x - I * ((δ * ∑ j ∈ F, ∑ c, ‖x j c‖ ^ 2 : ℝ) : ℂ) := by
    unfold form
    simp only [Matrix.of_apply, mul_sub, Finset.sum_sub_distrib]
    congr 1
    push_cast
    rw [Finset.mul_sum, Finset.mul_sum]
    refine Finset.sum_congr rfl fun j hj => ?_
    rw [Finset.sum_eq_single j]
    · rw [Finset.mul_sum, Finset.mul_sum]
      refine Finset.sum_congr rfl fun c _ => ?_
      rw [Finset.sum_eq_single c]
      · rw [sub_self, Pi.single_eq_same, Matrix.smul_apply, Matrix.one_apply_eq, star_def, conj_mul', smul_eq_mul]
        ring
      · intro c' _ hc
        rw [sub_self, Pi.single_eq_same, Matrix.smul_apply, Matrix.one_apply_ne hc.symm, smul_zero, mul_zero]
      · simp
    · intro l _ hl
      refine Finset.sum_eq_zero fun c _ => Finset.sum_eq_zero fun c' _ => ?_
      rw [Pi.single_eq_of_ne (sub_ne_zero.2 hl.symm), mul_zero]
    · exact fun h => absurd hj h
  rw [h2, sub_im, im_mul_ofReal, I_im, one_mul] at h1
  linarith

end Verif.Existence
