import Verif.Props.SolverBias
import Mathlib.Analysis.Complex.Polynomial.Basic

/-!
# Property C80: the convolution kernel does not pass through the boundary

`__increase_bias_to_limit_kernel_width` (solver.py 591–627) documents that "the 1D kernel field decreases to `max_kernel_field_residue` at the other
side of the boundary".  The one-dimensional kernel of the Green function is the wave `exp(i k₀ z |x|)` with the refractive index `z` for which
`z² = alpha`, with a positive imaginary part.  The properties are stated for all such `z`, without reference to how the bias is determined.
-/

namespace Verif.Solver

open Verif Complex

theorem foldl_min_le (ts : List ℝ) (t : ℝ) : ts.foldl min t ≤ t ∧ ∀ u ∈ ts, ts.foldl min t ≤ u := by
  induction ts generalizing t with
  | nil => simp
  | cons a ts ih =>
    obtain ⟨h1, h2⟩ := ih (min t a)
    refine ⟨h1.trans (min_le_left _ _), fun u hu => ?_⟩
    rcases List.mem_cons.1 hu with rfl | hu
    · exact h1.trans (min_le_right _ _)
    · exact h2 u hu

theorem foldl_min_mem (ts : List ℝ) (t : ℝ) : ts.foldl min t ∈ t :: ts := by
  induction ts generalizing t with
  | nil => simp
  | cons a ts ih =>
    have h := ih (min t a)
    rw [List.foldl_cons]
    rcases List.mem_cons.1 h with h | h
    · rw [h]
      rcases min_choice t a with h | h <;> rw [h] <;> simp
    · exact List.mem_cons_of_mem _ (List.mem_cons_of_mem _ h)

/-- A root with an imaginary part of `κ` or more. -/
theorem kappa_le {a κ : ℝ} (hκ : 0 < κ) {z : ℂ} (hz : 0 < z.im) (hre : (z ^ 2).re = a) (him : 2 * Real.sqrt (max 0 (a + κ ^ 2)) * κ ≤ (z ^ 2).im) : κ ≤ z.im := by
  have e1 : (z ^ 2).re = z.re ^ 2 - z.im ^ 2 := by rw [pow_two, mul_re]; ring
  have e2 : (z ^ 2).im = 2 * z.re * z.im := by rw [pow_two, mul_im]; ring
  rw [e1] at hre
  rw [e2] at him
  by_contra hlt
  push Not at hlt
  have hsq : z.im ^ 2 < κ ^ 2 := pow_lt_pow_left₀ hlt hz.le two_ne_zero
  have hpos : 0 < a + κ ^ 2 ∨ a + κ ^ 2 ≤ 0 := lt_or_ge _ _
  rcases hpos with hpos | hneg
  · rw [max_eq_right hpos.le] at him
    have h3 : |z.re| < Real.sqrt (a + κ ^ 2) := by
      rw [← Real.sqrt_sq_eq_abs]
      exact Real.sqrt_lt_sqrt (sq_nonneg _) (by nlinarith)
    have h4 : z.re * z.im ≤ |z.re| * z.im := mul_le_mul_of_nonneg_right (le_abs_self _) hz.le
    have h5 : |z.re| * z.im ≤ |z.re| * κ := mul_le_mul_of_nonneg_left hlt.le (abs_nonneg _)
    have h6 : |z.re| * κ < Real.sqrt (a + κ ^ 2) * κ := mul_lt_mul_of_pos_right h3 hκ
    linarith
  · have := sq_nonneg z.re
    linarith

/-- **C80.** For all wavenumbers, all boundaries and all constants: the kernel that the selected bias gives decreases to 0.001 or less over each
of the boundaries. -/
theorem C80_residue {k0 : ℝ} (hk0 : 0 < k0) {thickness : List ℝ} (ht : ∀ t ∈ thickness, 0 < t) (alpha : ℂ) {z : ℂ} (hz : 0 < z.im)
    (h2 : z ^ 2 = increaseBias k0 thickness alpha) {t : ℝ} (hmem : t ∈ thickness) : Real.exp (- k0 * z.im * t) ≤ 0.001 := by
  cases thickness with
  | nil => cases hmem
  | cons t0 ts =>
    set T := ts.foldl min t0 with hT
    have hTpos : 0 < T := ht _ (foldl_min_mem ts t0)
    have hTt : T ≤ t := by
      rcases List.mem_cons.1 hmem with rfl | h
      · exact (foldl_min_le ts t).1
      · exact (foldl_min_le ts t0).2 t h
    set κ := Real.log 0.001 / (-k0 * T) with hκ
    have hlog : Real.log 0.001 < 0 := Real.log_neg (by norm_num) (by norm_num)
    have hκpos : 0 < κ := div_pos_of_neg_of_neg hlog (by nlinarith)
    have hre : (z ^ 2).re = alpha.re := by rw [h2, increaseBias_re]
    have him : 2 * Real.sqrt (max 0 (alpha.re + κ ^ 2)) * κ ≤ (z ^ 2).im := by
      rw [h2]
      unfold increaseBias
      simp only [add_im, ofReal_im, I_mul_im, zero_add, ofReal_re]
      rw [← hT, ← hκ]
      split_ifs with h
      · exact le_rfl
      · exact not_lt.1 h
    have hle := kappa_le hκpos hz hre him
    have h7 : κ * (k0 * T) = - Real.log 0.001 := by
      rw [hκ]; field_simp
    have h8 : - k0 * z.im * t ≤ Real.log 0.001 := by
      have : κ * (k0 * T) ≤ z.im * (k0 * t) := mul_le_mul hle (mul_le_mul_of_nonneg_left hTt hk0.le) (by positivity) hz.le
      linarith
    calc Real.exp (- k0 * z.im * t) ≤ Real.exp (Real.log 0.001) := Real.exp_le_exp.2 h8
      _ = 0.001 := Real.exp_log (by norm_num)

/-- There is such a refractive index, unless the bias is zero. -/
theorem C80_exists {k0 : ℝ} {thickness : List ℝ} {alpha : ℂ} (h : 0 < alpha.im) : ∃ z : ℂ, 0 < z.im ∧ z ^ 2 = increaseBias k0 thickness alpha := by
  set w := increaseBias k0 thickness alpha
  have hw : 0 < w.im := lt_of_lt_of_le (by linarith) (C36_increase k0 thickness alpha)
  obtain ⟨z, hz⟩ := IsAlgClosed.exists_pow_nat_eq w (n := 2) (by norm_num)
  have e : (z ^ 2).im = 2 * z.re * z.im := by rw [pow_two, mul_im]; ring
  have hne : z.im ≠ 0 := by
    intro h0
    rw [← hz, e, h0] at hw
    simp at hw
  rcases lt_or_gt_of_ne hne with h | h
  · exact ⟨-z, by simpa using h, by rw [neg_sq, hz]⟩
  · exact ⟨z, h, hz⟩

/-- **C80 (no more than needed).** The bias is increased beyond the margin of 0.05 only as much as required: the kernel then decreases to exactly 0.001 over
the thinnest boundary. -/
theorem C80_minimal {k0 : ℝ} (hk0 : 0 < k0) {thickness : List ℝ} (ht : ∀ t ∈ thickness, 0 < t) (alpha : ℂ) :
    (increaseBias k0 thickness alpha).im = alpha.im + 0.05 ∨
    (alpha.im + 0.05 < (increaseBias k0 thickness alpha).im ∧ ∃ t ∈ thickness, (∀ u ∈ thickness, t ≤ u) ∧
      (0 < alpha.im + 0.05 → ∀ z : ℂ, 0 < z.im → z ^ 2 = increaseBias k0 thickness alpha → Real.exp (- k0 * z.im * t) = 0.001)) := by
  cases thickness with
  | nil => left; simp [increaseBias]
  | cons t0 ts =>
    set T := ts.foldl min t0 with hT
    have hTpos : 0 < T := ht _ (foldl_min_mem ts t0)
    have hTle : ∀ u ∈ t0 :: ts, T ≤ u := by
      intro u hu
      rcases List.mem_cons.1 hu with rfl | h
      · exact (foldl_min_le ts u).1
      · exact (foldl_min_le ts t0).2 u h
    set κ := Real.log 0.001 / (-k0 * T) with hκ
    have hlog : Real.log 0.001 < 0 := Real.log_neg (by norm_num) (by norm_num)
    have hκpos : 0 < κ := div_pos_of_neg_of_neg hlog (by nlinarith)
    by_cases h : alpha.im + 0.05 < 2 * Real.sqrt (max 0 (alpha.re + κ ^ 2)) * κ
    · right
      have hv : (increaseBias k0 (t0 :: ts) alpha).im = 2 * Real.sqrt (max 0 (alpha.re + κ ^ 2)) * κ := by
        unfold increaseBias
        simp only [add_im, ofReal_im, I_mul_im, zero_add, ofReal_re]
        rw [← hT, ← hκ, if_pos h, ofReal_re]
      refine ⟨by rw [hv]; exact h, T, foldl_min_mem ts t0, hTle, fun h0 z hz h2 => ?_⟩
      have hle : κ ≤ z.im := kappa_le hκpos hz (by rw [h2, increaseBias_re]) (by rw [h2, hv])
      have e1 : z.re ^ 2 - z.im ^ 2 = alpha.re := by rw [← increaseBias_re k0 (t0 :: ts) alpha, ← h2, pow_two z, mul_re]; ring
      have e2 : 2 * z.re * z.im = 2 * Real.sqrt (max 0 (alpha.re + κ ^ 2)) * κ := by rw [← hv, ← h2, pow_two z, mul_im]; ring
      have hr : 0 < Real.sqrt (max 0 (alpha.re + κ ^ 2)) := by
        by_contra hn
        have hz0 : Real.sqrt (max 0 (alpha.re + κ ^ 2)) = 0 := le_antisymm (not_lt.1 hn) (Real.sqrt_nonneg _)
        rw [hz0] at h
        linarith
      have hpos : 0 < alpha.re + κ ^ 2 := by
        by_contra hn
        rw [max_eq_left (not_lt.1 hn), Real.sqrt_zero] at hr
        exact lt_irrefl _ hr
      have heq : z.im = κ := by
        by_contra hne
        have hlt : κ < z.im := lt_of_le_of_ne hle (Ne.symm hne)
        have hsq : κ ^ 2 < z.im ^ 2 := pow_lt_pow_left₀ hlt hκpos.le two_ne_zero
        have hzre : 0 < z.re := by
          by_contra hn
          have h1 : z.re * z.im ≤ 0 := mul_nonpos_of_nonpos_of_nonneg (not_lt.1 hn) hz.le
          have h2 := mul_pos hr hκpos
          linarith
        have h3 : Real.sqrt (max 0 (alpha.re + κ ^ 2)) < z.re := by
          rw [max_eq_right hpos.le, Real.sqrt_lt' hzre]
          linarith
        have := mul_lt_mul h3 hle hκpos hzre.le
        linarith
      rw [heq]
      have h7 : - k0 * κ * T = Real.log 0.001 := by
        rw [hκ]; field_simp
      rw [h7, Real.exp_log (by norm_num)]
    · left
      unfold increaseBias
      simp only [add_im, ofReal_im, I_mul_im, zero_add, ofReal_re]
      rw [← hT, ← hκ, if_neg h, ofReal_re]

/-- The hypotheses are met: a boundary on two sides of an axis, around vacuum. -/
example : ∃ z : ℂ, 0 < z.im ∧ z ^ 2 = increaseBias 1 [2, 3] (1 + I) ∧ Real.exp (- 1 * z.im * 2) ≤ 0.001 := by
  obtain ⟨z, hz, h2⟩ := C80_exists (k0 := 1) (thickness := [2, 3]) (alpha := 1 + I) (by simp)
  exact ⟨z, hz, h2, C80_residue one_pos (by intro t ht; simp at ht; rcases ht with rfl | rfl <;> norm_num) _ hz h2 (by simp)⟩

end Verif.Solver
