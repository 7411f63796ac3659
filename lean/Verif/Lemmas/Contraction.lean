import Mathlib.Analysis.InnerProductSpace.Basic
import Mathlib.Analysis.Normed.Module.FiniteDimension
import Mathlib.Analysis.SpecificLimits.Basic
import Mathlib.Topology.Algebra.InfiniteSum.Real

/-!
# The preconditioned iteration in an inner-product space

For a linear operator `d` with adjoint `d'`, with `‖d‖ ≤ ρ ≤ 1` and a non-negative imaginary part, and any `U` that does not increase norms, the
map `M x = (1 - d²) x / 2 + (1 + i d) U ((1 + i d) x) / 2` does not increase norms.
-/

namespace Verif.Contraction

open Complex InnerProductSpace

variable {H : Type*} [NormedAddCommGroup H] [InnerProductSpace ℂ H]

local notation "⟪" x ", " y "⟫" => inner ℂ x y

theorem re_symm (a b : H) : (⟪a, b⟫).re = (⟪b, a⟫).re := by rw [← inner_conj_symm, Complex.conj_re]

theorem im_symm (a b : H) : (⟪a, b⟫).im = - (⟪b, a⟫).im := by rw [← inner_conj_symm, Complex.conj_im]

/-- Twice the real part of an inner product is bounded by the sum of squares, with the factor of a contraction. -/
theorem two_re_le {d : H → H} {ρ : ℝ} (hρ : ∀ x, ‖d x‖ ≤ ρ * ‖x‖) (p q : H) :
    2 * (⟪q, d p⟫).re ≤ ρ * (‖p‖ ^ 2 + ‖q‖ ^ 2) := by
  have h1 : (⟪q, d p⟫).re ≤ ‖q‖ * ‖d p‖ := (Complex.re_le_norm _).trans (norm_inner_le_norm _ _)
  have h2 : ‖q‖ * ‖d p‖ ≤ ‖q‖ * (ρ * ‖p‖) := mul_le_mul_of_nonneg_left (hρ p) (norm_nonneg _)
  by_cases hr : 0 ≤ ρ
  · nlinarith [mul_nonneg hr (sq_nonneg (‖p‖ - ‖q‖))]
  · push Not at hr
    have h0 : ∀ x : H, ‖x‖ = 0 := by
      intro x
      have := hρ x
      have h3 := norm_nonneg (d x)
      have h4 := norm_nonneg x
      nlinarith
    rw [h0 p, h0 q] at *
    simp only [zero_mul, mul_zero] at *
    linarith

/-- The quadratic inequality at the core. -/
theorem core (d d' : H →ₗ[ℂ] H) (hadj : ∀ x y, ⟪d' x, y⟫ = ⟪x, d y⟫) {ρ : ℝ} (hρ : ∀ x, ‖d x‖ ≤ ρ * ‖x‖) (x y : H) :
    2 * ‖d x - d' y‖ ^ 2 + (⟪d x - d' y - I • (x + y), d (d x - d' y - I • (x + y))⟫).im ≤
      ρ * (‖x - y‖ ^ 2 + ‖d x - d' y‖ ^ 2) + 2 * (⟪x, d x⟫).im + 2 * (⟪y, d y⟫).im := by
  set v := d x - d' y with hv
  set z := x - y with hz
  set w := x + y with hw
  have h1 := two_re_le hρ (z - I • v) (v - I • z)
  -- the two parts of ‖v‖²
  have h3 : (2 : ℝ) * ‖v‖ ^ 2 = 2 * (⟪v, d x⟫).re - 2 * (⟪v, d' y⟫).re := by
    rw [← mul_sub, ← Complex.sub_re, ← inner_sub_right, ← hv, inner_self_eq_norm_sq_to_K]
    norm_cast
  have n1 : ‖z - I • v‖ ^ 2 = ‖z‖ ^ 2 + ‖v‖ ^ 2 + 2 * (⟪z, v⟫).im := by
    rw [@norm_sub_sq ℂ, norm_smul, inner_smul_right]
    simp [Complex.mul_re]
    ring
  have n2 : ‖v - I • z‖ ^ 2 = ‖z‖ ^ 2 + ‖v‖ ^ 2 - 2 * (⟪z, v⟫).im := by
    rw [@norm_sub_sq ℂ, norm_smul, inner_smul_right]
    have := im_symm v z
    simp [Complex.mul_re, this]
    ring
  rw [n1, n2] at h1
  have conj_re : ∀ a b : H, (⟪a, d' b⟫).re = (⟪b, d a⟫).re := by
    intro a b
    rw [re_symm, hadj]
  have conj_im : ∀ a b : H, (⟪a, d' b⟫).im = - (⟪b, d a⟫).im := by
    intro a b
    rw [im_symm, hadj]
  have e1 : (⟪v - I • z, d (z - I • v)⟫).re = (⟪v, d z⟫).re + (⟪v, d v⟫).im - (⟪z, d z⟫).im + (⟪z, d v⟫).re := by
    simp only [map_sub, map_smul, inner_sub_left, inner_sub_right, inner_smul_left, inner_smul_right, Complex.sub_re, Complex.sub_im,
      Complex.mul_re, Complex.conj_I, Complex.I_re, Complex.I_im, Complex.neg_re, Complex.neg_im, Complex.mul_im]
    ring
  have e2 : (⟪v - I • w, d (v - I • w)⟫).im = (⟪v, d v⟫).im - (⟪v, d w⟫).re + (⟪w, d v⟫).re + (⟪w, d w⟫).im := by
    simp only [map_sub, map_smul, inner_sub_left, inner_sub_right, inner_smul_left, inner_smul_right, Complex.sub_re, Complex.sub_im,
      Complex.mul_re, Complex.conj_I, Complex.I_re, Complex.I_im, Complex.neg_re, Complex.neg_im, Complex.mul_im]
    ring
  have e3 : (⟪z, d z⟫).im + (⟪w, d w⟫).im = 2 * (⟪x, d x⟫).im + 2 * (⟪y, d y⟫).im := by
    simp only [hz, hw, map_add, map_sub, inner_add_left, inner_add_right, inner_sub_left, inner_sub_right, Complex.add_im, Complex.sub_im]
    ring
  rw [e1] at h1
  rw [e2]
  rw [conj_re] at h3
  have e4 : (⟪v, d z⟫).re + (⟪v, d w⟫).re = 2 * (⟪v, d x⟫).re := by
    simp only [hz, hw, map_add, map_sub, inner_add_right, inner_sub_right, Complex.add_re, Complex.sub_re]
    ring
  have e5 : (⟪z, d v⟫).re - (⟪w, d v⟫).re = - 2 * (⟪y, d v⟫).re := by
    simp only [hz, hw, inner_add_left, inner_sub_left, Complex.add_re, Complex.sub_re]
    ring
  nlinarith

/-- How much the map decreases norms. -/
theorem norm_sq_im (d d' : H →ₗ[ℂ] H) (hadj : ∀ x y, ⟪d' x, y⟫ = ⟪x, d y⟫) {ρ : ℝ} (hρ1 : ρ ≤ 1) (hρ : ∀ x, ‖d x‖ ≤ ρ * ‖x‖)
    (x u m : H) (hu : ‖u‖ ≤ ‖x + I • d x‖) (hm : (2 : ℂ) • m = x - d (d x) + (u + I • d u)) :
    ‖m‖ ^ 2 ≤ ‖x‖ ^ 2 - (1 - ρ) / 2 * ‖x - m‖ ^ 2 - (⟪d x - d' m - I • (x + m), d (d x - d' m - I • (x + m))⟫).im / 2 := by
  have hc := core d d' hadj hρ x m
  have conj_re : ∀ a b : H, (⟪a, d' b⟫).re = (⟪b, d a⟫).re := by
    intro a b
    rw [re_symm, hadj]
  have conj_im : ∀ a b : H, (⟪a, d' b⟫).im = - (⟪b, d a⟫).im := by
    intro a b
    rw [im_symm, hadj]
  -- 4 ‖m‖² = 2 Re ⟪m, x - d²x⟫ + 2 Re ⟪(1 + i d)† m, u⟫
  have h1 : 2 * ‖m‖ ^ 2 = (⟪m, x⟫).re - (⟪m, d (d x)⟫).re + (⟪m - I • d' m, u⟫).re := by
    have : (⟪m, (2 : ℂ) • m⟫).re = 2 * ‖m‖ ^ 2 := by
      rw [inner_smul_right, inner_self_eq_norm_sq_to_K, Complex.mul_re]
      simp [← Complex.ofReal_pow]
    rw [← this, hm]
    simp only [inner_add_right, inner_sub_right, inner_sub_left, inner_smul_left, inner_smul_right, hadj, Complex.add_re, Complex.sub_re,
      Complex.mul_re, Complex.conj_I, Complex.I_re, Complex.I_im, Complex.neg_re, Complex.neg_im]
    ring
  have h2 : 2 * (⟪m - I • d' m, u⟫).re ≤ ‖m - I • d' m‖ ^ 2 + ‖x + I • d x‖ ^ 2 := by
    have h1 : (⟪m - I • d' m, u⟫).re ≤ ‖m - I • d' m‖ * ‖u‖ := (Complex.re_le_norm _).trans (norm_inner_le_norm _ _)
    have h3 : ‖u‖ ^ 2 ≤ ‖x + I • d x‖ ^ 2 := pow_le_pow_left₀ (norm_nonneg _) hu 2
    nlinarith [sq_nonneg (‖m - I • d' m‖ - ‖u‖)]
  have n1 : ‖m - I • d' m‖ ^ 2 = ‖m‖ ^ 2 + ‖d' m‖ ^ 2 - 2 * (⟪m, d m⟫).im := by
    rw [@norm_sub_sq ℂ, norm_smul, inner_smul_right]
    have := conj_im m m
    simp [Complex.mul_re, this]
    ring
  have n2 : ‖x + I • d x‖ ^ 2 = ‖x‖ ^ 2 + ‖d x‖ ^ 2 - 2 * (⟪x, d x⟫).im := by
    rw [@norm_add_sq ℂ, norm_smul, inner_smul_right]
    simp [Complex.mul_re]
    ring
  have n3 : ‖d x - d' m‖ ^ 2 = ‖d x‖ ^ 2 + ‖d' m‖ ^ 2 - 2 * (⟪m, d (d x)⟫).re := by
    rw [@norm_sub_sq ℂ]
    have := conj_re (d x) m
    simp [this]
    ring
  have n4 : ‖x - m‖ ^ 2 = ‖x‖ ^ 2 + ‖m‖ ^ 2 - 2 * (⟪m, x⟫).re := by
    rw [@norm_sub_sq ℂ]
    have : (⟪x, m⟫).re = (⟪m, x⟫).re := re_symm x m
    simp [this]
    ring
  have h5 : ρ * ‖d x - d' m‖ ^ 2 ≤ ‖d x - d' m‖ ^ 2 := by nlinarith [sq_nonneg ‖d x - d' m‖]
  nlinarith

/-- **The map does not increase norms**, and decreases them by an amount that bounds the change. -/
theorem norm_sq_le (d d' : H →ₗ[ℂ] H) (hadj : ∀ x y, ⟪d' x, y⟫ = ⟪x, d y⟫) {ρ : ℝ} (hρ1 : ρ ≤ 1) (hρ : ∀ x, ‖d x‖ ≤ ρ * ‖x‖)
    (hB : ∀ x, 0 ≤ (⟪x, d x⟫).im) (x u m : H) (hu : ‖u‖ ≤ ‖x + I • d x‖)
    (hm : (2 : ℂ) • m = x - d (d x) + (u + I • d u)) :
    ‖m‖ ^ 2 ≤ ‖x‖ ^ 2 - (1 - ρ) / 2 * ‖x - m‖ ^ 2 := by
  have h1 := norm_sq_im d d' hadj hρ1 hρ x u m hu hm
  have h2 := hB (d x - d' m - I • (x + m))
  linarith

/-- The weighted mean of two squares is at least that of their sum. -/
theorem two_squares {p q s t : ℝ} (hp : 0 < p) (hq : 0 < q) : p * q / (p + q) * (s + t) ^ 2 ≤ p * s ^ 2 + q * t ^ 2 := by
  rw [div_mul_eq_mul_div, div_le_iff₀ (by positivity)]
  nlinarith [sq_nonneg (p * s - q * t)]

/-- **With absorption the map decreases norms by a factor** that only depends on the bounds of `d` from above and of its imaginary part from below. -/
theorem norm_sq_absorbing (d d' : H →ₗ[ℂ] H) (hadj : ∀ x y, ⟪d' x, y⟫ = ⟪x, d y⟫) {ρ δ : ℝ} (hρ1 : ρ < 1) (hδ : 0 < δ) (hρ : ∀ x, ‖d x‖ ≤ ρ * ‖x‖)
    (hB : ∀ x, δ * ‖x‖ ^ 2 ≤ (⟪x, d x⟫).im) (x u m : H) (hu : ‖u‖ ≤ ‖x + I • d x‖)
    (hm : (2 : ℂ) • m = x - d (d x) + (u + I • d u)) :
    ‖m‖ ^ 2 ≤ (1 - 2 * δ * (1 - ρ) ^ 3 / (1 - ρ + 4 * δ)) * ‖x‖ ^ 2 := by
  have h1 := norm_sq_im d d' hadj hρ1.le hρ x u m hu hm
  have h2 := hB (d x - d' m - I • (x + m))
  have ha : 0 < 1 - ρ := by linarith
  -- the adjoint has the same bound
  have hρ' : ∀ y, ‖d' y‖ ≤ ρ * ‖y‖ := by
    intro y
    have e : ‖d' y‖ ^ 2 = (⟪y, d (d' y)⟫).re := by
      rw [← hadj, inner_self_eq_norm_sq_to_K]
      norm_cast
    have h3 : (⟪y, d (d' y)⟫).re ≤ ‖y‖ * (ρ * ‖d' y‖) :=
      (Complex.re_le_norm _).trans ((norm_inner_le_norm _ _).trans (mul_le_mul_of_nonneg_left (hρ _) (norm_nonneg _)))
    rcases eq_or_lt_of_le (norm_nonneg (d' y)) with h0 | h0
    · rw [← h0]
      exact (norm_nonneg _).trans (hρ y)
    · have : ‖d' y‖ * ‖d' y‖ ≤ ‖d' y‖ * (ρ * ‖y‖) := by nlinarith
      exact le_of_mul_le_mul_left this h0
  have h3 : 2 * (1 - ρ) * ‖x‖ ≤ ‖d x - d' m - I • (x + m)‖ + 2 * ‖x - m‖ := by
    have e : (2 * I) • x = (d x - d' x) + (d' (x - m) + I • (x - m)) - (d x - d' m - I • (x + m)) := by
      rw [map_sub]
      module
    have n1 : ‖(2 * I) • x‖ = 2 * ‖x‖ := by
      rw [norm_smul, norm_mul, Complex.norm_I, mul_one, Complex.norm_ofNat]
    have n2 := norm_sub_le ((d x - d' x) + (d' (x - m) + I • (x - m))) (d x - d' m - I • (x + m))
    have n3 := norm_add_le (d x - d' x) (d' (x - m) + I • (x - m))
    have n4 := norm_sub_le (d x) (d' x)
    have n5 := norm_add_le (d' (x - m)) (I • (x - m))
    rw [norm_smul, Complex.norm_I, one_mul] at n5
    rw [← e, n1] at n2
    have n6 : ρ * ‖x - m‖ ≤ 1 * ‖x - m‖ := mul_le_mul_of_nonneg_right hρ1.le (norm_nonneg _)
    have := hρ x
    have := hρ' x
    have := hρ' (x - m)
    linarith
  have h4 : (2 * (1 - ρ) * ‖x‖) ^ 2 ≤ (2 * ‖x - m‖ + ‖d x - d' m - I • (x + m)‖) ^ 2 :=
    pow_le_pow_left₀ (by positivity) (by linarith) 2
  have h5 := two_squares (s := 2 * ‖x - m‖) (t := ‖d x - d' m - I • (x + m)‖) (show 0 < (1 - ρ) / 8 by positivity) (show 0 < δ / 2 by positivity)
  have h6 : (1 - ρ) / 8 * (δ / 2) / ((1 - ρ) / 8 + δ / 2) * (2 * (1 - ρ) * ‖x‖) ^ 2 = 2 * δ * (1 - ρ) ^ 3 / (1 - ρ + 4 * δ) * ‖x‖ ^ 2 := by
    field_simp
    ring
  have h7 := mul_le_mul_of_nonneg_left h4 (show 0 ≤ (1 - ρ) / 8 * (δ / 2) / ((1 - ρ) / 8 + δ / 2) by positivity)
  rw [h6] at h7
  linarith

/-- In a space of finite dimension, a linear map that decreases norms as above, and that has no other fixed point than zero, decreases norms by a constant factor. -/
theorem exists_rate [FiniteDimensional ℂ H] (M : H →ₗ[ℂ] H) {c : ℝ} (hc : 0 < c) (hM : ∀ x, ‖M x‖ ^ 2 ≤ ‖x‖ ^ 2 - c * ‖x - M x‖ ^ 2)
    (hinj : ∀ x, M x = x → x = 0) : ∃ q : ℝ, 0 ≤ q ∧ q < 1 ∧ ∀ x, ‖M x‖ ≤ q * ‖x‖ := by
  have hker : LinearMap.ker (LinearMap.id - M) = ⊥ := by
    rw [LinearMap.ker_eq_bot']
    intro x hx
    exact hinj x (sub_eq_zero.1 hx).symm
  obtain ⟨K, hK, hlip⟩ := LinearMap.exists_antilipschitzWith _ hker
  have hb : ∀ x, ‖x‖ ≤ K * ‖x - M x‖ := by
    intro x
    have := hlip.le_mul_dist x 0
    simpa using this
  have hK' : (0 : ℝ) < K := hK
  set r : ℝ := max 0 (1 - c / K ^ 2) with hr
  have hr1 : r < 1 := max_lt one_pos (by have : 0 < c / (K : ℝ) ^ 2 := by positivity
                                         linarith)
  refine ⟨Real.sqrt r, Real.sqrt_nonneg _, ?_, fun x => ?_⟩
  · rw [show (1 : ℝ) = Real.sqrt 1 by simp]
    exact Real.sqrt_lt_sqrt (le_max_left _ _) hr1
  · have h1 : ‖x‖ ^ 2 ≤ (K : ℝ) ^ 2 * ‖x - M x‖ ^ 2 := by
      rw [← mul_pow]
      exact pow_le_pow_left₀ (norm_nonneg _) (hb x) 2
    have h2 : ‖M x‖ ^ 2 ≤ r * ‖x‖ ^ 2 := by
      have h3 : c / (K : ℝ) ^ 2 * ‖x‖ ^ 2 ≤ c * ‖x - M x‖ ^ 2 := by
        rw [div_mul_eq_mul_div, div_le_iff₀ (by positivity)]
        nlinarith
      have h4 : (1 - c / (K : ℝ) ^ 2) * ‖x‖ ^ 2 ≤ r * ‖x‖ ^ 2 := mul_le_mul_of_nonneg_right (le_max_right _ _) (by positivity)
      nlinarith [hM x]
    rw [← Real.sqrt_sq (norm_nonneg (M x)), ← Real.sqrt_sq (norm_nonneg x), ← Real.sqrt_mul (le_max_left _ _)]
    exact Real.sqrt_le_sqrt h2

/-- In a space of finite dimension, the iterates of a linear map that decreases norms as above converge to a fixed point. -/
theorem tendsto_fixed [FiniteDimensional ℂ H] (M : H →ₗ[ℂ] H) {c : ℝ} (hc : 0 < c) (hM : ∀ x, ‖M x‖ ^ 2 ≤ ‖x‖ ^ 2 - c * ‖x - M x‖ ^ 2) (x : H) :
    ∃ p, M p = p ∧ Filter.Tendsto (fun n => M^[n] x) Filter.atTop (nhds p) := by
  have hle : ∀ y, ‖M y‖ ≤ ‖y‖ := by
    intro y
    have h1 := hM y
    have h2 : 0 ≤ c * ‖y - M y‖ ^ 2 := by positivity
    exact le_of_sq_le_sq (by linarith) (norm_nonneg y)
  have hanti : ∀ y, Antitone fun n => ‖M^[n] y‖ := fun y => antitone_nat_of_succ_le fun n => by
    rw [Function.iterate_succ_apply']; exact hle _
  have hcont : Continuous M := M.continuous_of_finiteDimensional
  haveI : ProperSpace H := FiniteDimensional.proper ℂ H
  -- the norms of the changes tend to zero
  have hconv : ∃ l, Filter.Tendsto (fun n => ‖M^[n] x‖) Filter.atTop (nhds l) :=
    ⟨_, tendsto_atTop_ciInf (hanti x) ⟨0, by rintro _ ⟨n, rfl⟩; exact norm_nonneg _⟩⟩
  obtain ⟨l, hl⟩ := hconv
  have hl1 : Filter.Tendsto (fun n => ‖M^[n + 1] x‖) Filter.atTop (nhds l) := hl.comp (Filter.tendsto_add_atTop_nat 1)
  have hdiff : Filter.Tendsto (fun n => (‖M^[n] x‖ ^ 2 - ‖M^[n + 1] x‖ ^ 2) / c) Filter.atTop (nhds 0) := by
    have := ((hl.pow 2).sub (hl1.pow 2)).div_const c
    simpa using this
  have hzero : Filter.Tendsto (fun n => ‖M^[n] x - M (M^[n] x)‖ ^ 2) Filter.atTop (nhds 0) := by
    refine squeeze_zero (fun n => by positivity) (fun n => ?_) hdiff
    rw [le_div_iff₀ hc, Function.iterate_succ_apply']
    have := hM (M^[n] x)
    linarith
  -- a cluster point
  obtain ⟨p, -, φ, hφ, hp⟩ := (isCompact_closedBall (0 : H) ‖x‖).tendsto_subseq (x := fun n => M^[n] x) (fun n => by
    rw [mem_closedBall_zero_iff]
    exact hanti x (Nat.zero_le n))
  have hfix : M p = p := by
    have h1 : Filter.Tendsto (fun n => ‖M^[φ n] x - M (M^[φ n] x)‖ ^ 2) Filter.atTop (nhds (‖p - M p‖ ^ 2)) :=
      ((hp.sub ((hcont.tendsto p).comp hp)).norm).pow 2
    have h2 : Filter.Tendsto (fun n => ‖M^[φ n] x - M (M^[φ n] x)‖ ^ 2) Filter.atTop (nhds 0) := hzero.comp hφ.tendsto_atTop
    have h3 := tendsto_nhds_unique h1 h2
    have h4 : ‖p - M p‖ = 0 := by simpa using h3
    exact (sub_eq_zero.1 (norm_eq_zero.1 h4)).symm
  refine ⟨p, hfix, ?_⟩
  have hsub : ∀ n, M^[n] (x - p) = M^[n] x - p := by
    intro n
    induction n with
    | zero => rfl
    | succ n ih => rw [Function.iterate_succ_apply', Function.iterate_succ_apply', ih, map_sub, hfix]
  have hconv2 : ∃ l, Filter.Tendsto (fun n => ‖M^[n] (x - p)‖) Filter.atTop (nhds l) :=
    ⟨_, tendsto_atTop_ciInf (hanti (x - p)) ⟨0, by rintro _ ⟨n, rfl⟩; exact norm_nonneg _⟩⟩
  obtain ⟨l2, hl2⟩ := hconv2
  have h5 : Filter.Tendsto (fun n => ‖M^[φ n] (x - p)‖) Filter.atTop (nhds 0) := by
    have : Filter.Tendsto (fun n => M^[φ n] x - p) Filter.atTop (nhds (p - p)) := hp.sub_const p
    rw [sub_self] at this
    have := this.norm
    rw [norm_zero] at this
    simpa only [hsub] using this
  have h6 : l2 = 0 := tendsto_nhds_unique (hl2.comp hφ.tendsto_atTop) h5
  rw [h6] at hl2
  simp only [hsub] at hl2
  exact tendsto_iff_norm_sub_tendsto_zero.2 hl2

end Verif.Contraction
