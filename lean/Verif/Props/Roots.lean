import Verif.Lemmas.Roots
import Mathlib.Tactic.Linarith
import Mathlib.Tactic.NormNum
import Mathlib.Analysis.SpecialFunctions.Pow.Real

/-!
# Property C26: roots of polynomials up to degree three
-/

namespace Verif.Roots

open Complex Verif.Spec.Roots

variable {eps : ℝ}

/-! ### The formulas -/

/-- **C26 (degree one).** -/
theorem C26_linear {c0 c1 : ℂ} (h : c1 ≠ 0) : AllRoots [c0, c1] (linear c0 c1) := by
  intro x
  rw [value_two]
  simp only [linear, List.getLastD, List.map_cons, List.map_nil, List.prod_cons, List.prod_nil, mul_one]
  change _ = c1 * _
  field_simp
  ring

theorem quadraticQ_root (c0 c1 c2 : ℂ) : quadraticQ c0 c1 c2 ^ 2 + c1 * quadraticQ c0 c1 c2 + c0 * c2 = 0 := by
  unfold quadraticQ
  have h := sqrt_sq (c1 ^ 2 - 4 * c2 * c0)
  simp only
  generalize (c1 ^ 2 - 4 * c2 * c0) ^ (1 / 2 : ℂ) = s at h ⊢
  have h2 := sgn_sq ((starRingEnd ℂ) c1 * s).re
  generalize sgn ((starRingEnd ℂ) c1 * s).re = σ at h2 ⊢
  linear_combination (1 / 4 : ℂ) * (s ^ 2 * h2 + h)

theorem quadraticQ_norm (c0 c1 c2 : ℂ) : ‖c1‖ ≤ 2 * ‖quadraticQ c0 c1 c2‖ := by
  unfold quadraticQ
  simp only
  generalize (c1 ^ 2 - 4 * c2 * c0) ^ (1 / 2 : ℂ) = s
  have h := norm_le_add_sgn c1 s
  generalize c1 + sgn ((starRingEnd ℂ) c1 * s).re * s = z at h ⊢
  rw [norm_mul]
  have h1 : ‖c1‖ ^ 2 ≤ ‖z‖ ^ 2 := by nlinarith [sq_nonneg ‖s‖]
  have h2 := (pow_le_pow_iff_left₀ (norm_nonneg _) (norm_nonneg _) two_ne_zero).1 h1
  have h3 : ‖(-1 / 2 : ℂ)‖ = 1 / 2 := by norm_num
  rw [h3]
  linarith

theorem quadraticQ_zero {c0 c1 c2 : ℂ} (h2 : c2 ≠ 0) (h : quadraticQ c0 c1 c2 = 0) : c0 = 0 := by
  have := quadraticQ_root c0 c1 c2
  rw [h] at this
  have h3 : c0 * c2 = 0 := by simpa using this
  exact (mul_eq_zero.1 h3).resolve_right h2

/-- **C26 (degree two).** For all coefficients, what the code computes is right if and only if the constant coefficient is zero, or it or `q` is significant. -/
theorem C26_quadratic {c0 c1 c2 : ℂ} (h : c2 ≠ 0) :
    AllRoots [c0, c1, c2] (quadratic eps c0 c1 c2) ↔ c0 = 0 ∨ Significant eps c0 ∨ Significant eps (quadraticQ c0 c1 c2) := by
  have hr := quadraticQ_root c0 c1 c2
  have hz := quadraticQ_zero (c0 := c0) (c1 := c1) h
  have hn := quadraticQ_norm c0 c1 c2
  constructor
  · intro H
    by_contra hn
    push Not at hn
    obtain ⟨n0, n1, n2⟩ := hn
    have e1 : ind (¬ Significant eps c0) = 1 := by simp [ind, n1]
    have e2 : ind (¬ Significant eps (quadraticQ c0 c1 c2)) = 1 := by simp [ind, n2]
    have H0 := H 0
    rw [value_three] at H0
    simp only [quadratic, e1, e2, List.getLastD, List.map_cons, List.map_nil, List.prod_cons, List.prod_nil, mul_one] at H0
    change _ = c2 * _ at H0
    generalize quadraticQ c0 c1 c2 = q at *
    by_cases hq : q + 1 = 0
    · rw [hq] at H0
      simp at H0
      exact n0 H0
    · have hq0 : q ≠ 0 := fun e => n0 (hz e)
      field_simp at H0
      apply n0
      linear_combination H0
  · intro H x
    rw [value_three]
    simp only [quadratic, List.getLastD, List.map_cons, List.map_nil, List.prod_cons, List.prod_nil, mul_one]
    change _ = c2 * _
    generalize quadraticQ c0 c1 c2 = q at *
    by_cases h0 : c0 = 0
    · rw [h0] at hr ⊢
      rw [zero_div, sub_zero]
      field_simp
      have : q * (q + c1) = 0 := by linear_combination hr
      rcases mul_eq_zero.1 this with e | e
      · have hc : c1 = 0 := by
          rw [e, norm_zero, mul_zero] at hn
          exact norm_le_zero_iff.1 hn
        rw [e, hc]
        ring
      · rw [show c1 = -q by linear_combination e]
        ring
    · have hq0 : q ≠ 0 := fun e => h0 (hz e)
      have e : ind (¬ Significant eps c0) * ind (¬ Significant eps q) = 0 := by
        rcases H with H | H | H
        · exact absurd H h0
        · simp [ind, H]
        · simp [ind, H]
      rw [e, add_zero]
      field_simp
      linear_combination x * hr

/-- **C26 (degree two).** Large enough coefficients suffice.
Full claim: for all coefficients, see `C26_quadratic` and `C26_quadratic_violates`. -/
theorem C26_quadratic_partial {c0 c1 c2 : ℂ} (h : c2 ≠ 0) (hc : c0 = 0 ∨ √eps < ‖c0‖ ∨ 2 * √eps < ‖c1‖) :
    AllRoots [c0, c1, c2] (quadratic eps c0 c1 c2) := by
  rw [C26_quadratic h]
  rcases hc with hc | hc | hc
  · exact .inl hc
  · exact .inr (.inl hc)
  · refine .inr (.inr ?_)
    have := quadraticQ_norm c0 c1 c2
    unfold Significant
    linarith

/-- **C26 (degree three).** `A` is significant, or zero. -/
theorem cubicAB_spec {Q R : ℂ} (h : (cubicAB eps Q R).1 = 0 ∨ Significant eps (cubicAB eps Q R).1) :
    (cubicAB eps Q R).1 * (cubicAB eps Q R).2 = Q ∧ (cubicAB eps Q R).1 ^ 3 + (cubicAB eps Q R).2 ^ 3 = -2 * R := by
  have hS := sqrt_sq (R ^ 2 - Q ^ 3)
  unfold cubicAB at *
  simp only at *
  generalize (R ^ 2 - Q ^ 3) ^ (1 / 2 : ℂ) = S at hS h ⊢
  have hσ := sgn_sq ((starRingEnd ℂ) R * S).re
  have hn := norm_le_add_sgn R S
  have hA := cbrt_cube (R + sgn ((starRingEnd ℂ) R * S).re * S)
  generalize sgn ((starRingEnd ℂ) R * S).re = σ at *
  generalize hw : (R + σ * S) ^ (1 / 3 : ℂ) = w at *
  rcases h with h | h
  · have hw0 : w = 0 := neg_eq_zero.1 h
    rw [hw0] at hA ⊢
    have h0 : R + σ * S = 0 := by rw [← hA]; simp
    rw [h0, norm_zero] at hn
    have hR : R = 0 := by
      have : ‖R‖ ^ 2 = 0 := le_antisymm (by nlinarith [sq_nonneg ‖S‖]) (sq_nonneg _)
      simpa using this
    have hS0 : S = 0 := by
      have : ‖S‖ ^ 2 = 0 := le_antisymm (by nlinarith [sq_nonneg ‖R‖]) (sq_nonneg _)
      simpa using this
    rw [hR, hS0] at hS ⊢
    have hQ : Q = 0 := by
      have : Q ^ 3 = 0 := by linear_combination hS
      simpa using this
    rw [hQ]
    have e : (0 - npSign ((starRingEnd ℂ) 0 * 0).re * 0 : ℂ) ^ (1 / 3 : ℂ) = 0 := by
      rw [mul_zero, sub_zero, zero_cpow (by norm_num)]
    rw [e]
    simp
  · have e1 : ind (Significant eps (-w)) = 1 := by simp [ind, h]
    have e2 : ind (¬ Significant eps (-w)) = 0 := by simp [ind, h]
    have hw0 : w ≠ 0 := by
      rintro rfl
      unfold Significant at h
      rw [neg_zero, norm_zero] at h
      exact absurd h (not_lt.2 (Real.sqrt_nonneg _))
    rw [e1, e2, one_mul, zero_mul, add_zero, add_zero]
    refine ⟨by field_simp, ?_⟩
    have e3 : (-w) ^ 3 = -(R + σ * S) := by linear_combination -hA
    rw [div_pow, e3]
    have h0 : R + σ * S ≠ 0 := by
      rw [← hA]
      exact pow_ne_zero 3 hw0
    have hQ : Q ^ 3 = (R - σ * S) * (R + σ * S) := by linear_combination hS + S ^ 2 * hσ
    rw [hQ, mul_div_assoc, div_neg, div_self h0]
    ring

/-- **C26 (degree three).** For all coefficients: what the code computes is right if `A` is significant or zero. -/
theorem C26_cubic {c0 c1 c2 c3 : ℂ} (h3 : c3 ≠ 0)
    (h : (cubicAB eps (cubicQ c1 c2 c3) (cubicR c0 c1 c2 c3)).1 = 0 ∨ Significant eps (cubicAB eps (cubicQ c1 c2 c3) (cubicR c0 c1 c2 c3)).1) :
    AllRoots [c0, c1, c2, c3] (cubic eps c0 c1 c2 c3) := by
  obtain ⟨h1, h2⟩ := cubicAB_spec h
  rw [cubic_eq]
  exact cubic_factor h3 h1 h2

/-- If `A` is not significant, `Q` and `R` are very small. -/
theorem cubicAB_small {Q R : ℂ} (h : ¬ Significant eps (cubicAB eps Q R).1) :
    ‖Q‖ ≤ √eps ^ 2 ∧ ‖R‖ ≤ √eps ^ 3 ∧ ‖(cubicAB eps Q R).1‖ ≤ √eps ∧ ‖(cubicAB eps Q R).2‖ ≤ √eps := by
  have hS := sqrt_sq (R ^ 2 - Q ^ 3)
  unfold cubicAB at *
  simp only at *
  generalize (R ^ 2 - Q ^ 3) ^ (1 / 2 : ℂ) = S at hS h ⊢
  have hn := norm_le_add_sgn R S
  have hA := cbrt_cube (R + sgn ((starRingEnd ℂ) R * S).re * S)
  generalize hw : (R + sgn ((starRingEnd ℂ) R * S).re * S) ^ (1 / 3 : ℂ) = w at *
  have e1 : ind (Significant eps (-w)) = 0 := by simp [ind, h]
  have e2 : ind (¬ Significant eps (-w)) = 1 := by simp [ind, h]
  rw [e1, e2, one_mul, zero_mul, zero_add]
  have hw1 : ‖w‖ ≤ √eps := by
    unfold Significant at h
    rw [norm_neg] at h
    exact not_lt.1 h
  have h0 := Real.sqrt_nonneg eps
  generalize √eps = t at *
  have hz : ‖R + sgn ((starRingEnd ℂ) R * S).re * S‖ ≤ t ^ 3 := by
    rw [← hA, norm_pow]
    exact pow_le_pow_left₀ (norm_nonneg _) hw1 3
  have hz2 : ‖R + sgn ((starRingEnd ℂ) R * S).re * S‖ ^ 2 ≤ (t ^ 3) ^ 2 := pow_le_pow_left₀ (norm_nonneg _) hz 2
  have hR2 : ‖R‖ ^ 2 ≤ (t ^ 3) ^ 2 := by nlinarith [sq_nonneg ‖S‖]
  have hR : ‖R‖ ≤ t ^ 3 := (pow_le_pow_iff_left₀ (norm_nonneg _) (pow_nonneg h0 3) two_ne_zero).1 hR2
  have hB : ‖R - npSign ((starRingEnd ℂ) R * S).re * S‖ ≤ t ^ 3 := by
    rcases lt_trichotomy ((starRingEnd ℂ) R * S).re 0 with hs | hs | hs
    · have e3 : npSign ((starRingEnd ℂ) R * S).re = -1 := by rw [npSign, if_neg (not_lt.2 hs.le), if_pos hs]
      have e4 : sgn ((starRingEnd ℂ) R * S).re = -1 := by rw [sgn, if_neg (not_le.2 hs)]
      rw [e4] at hz
      rw [e3]
      refine le_trans ?_ hz
      refine (pow_le_pow_iff_left₀ (norm_nonneg _) (norm_nonneg _) two_ne_zero).1 ?_
      simp only [mul_re, conj_re, conj_im] at hs
      simp only [← normSq_eq_norm_sq, normSq_apply, add_re, add_im, sub_re, sub_im, neg_mul, one_mul, neg_re, neg_im]
      nlinarith
    · have e3 : npSign ((starRingEnd ℂ) R * S).re = 0 := by simp [npSign, hs]
      rw [e3, zero_mul, sub_zero]
      exact hR
    · have e3 : npSign ((starRingEnd ℂ) R * S).re = 1 := by rw [npSign, if_pos hs]
      have e4 : sgn ((starRingEnd ℂ) R * S).re = 1 := by rw [sgn, if_pos hs.le]
      rw [e4] at hz
      rw [e3]
      refine le_trans ?_ hz
      refine (pow_le_pow_iff_left₀ (norm_nonneg _) (norm_nonneg _) two_ne_zero).1 ?_
      simp only [mul_re, conj_re, conj_im] at hs
      simp only [← normSq_eq_norm_sq, normSq_apply, add_re, add_im, sub_re, sub_im, one_mul]
      nlinarith
  refine ⟨?_, hR, by rwa [norm_neg], ?_⟩
  · have hQ : ‖Q‖ ^ 3 ≤ (t ^ 2) ^ 3 := by
      have : Q ^ 3 = R ^ 2 - S ^ 2 := by linear_combination hS
      rw [← norm_pow, this]
      refine (norm_sub_le _ _).trans ?_
      rw [norm_pow, norm_pow]
      nlinarith
    exact (pow_le_pow_iff_left₀ (norm_nonneg _) (pow_nonneg h0 2) three_ne_zero).1 hQ
  · rw [norm_neg]
    have hc := cbrt_cube (R - npSign ((starRingEnd ℂ) R * S).re * S)
    generalize (R - npSign ((starRingEnd ℂ) R * S).re * S) ^ (1 / 3 : ℂ) = v at hc ⊢
    rw [← hc, norm_pow] at hB
    exact (pow_le_pow_iff_left₀ (norm_nonneg _) h0 three_ne_zero).1 hB

theorem cubic_depressed {c0 c1 c2 c3 : ℂ} (h3 : c3 ≠ 0) (x : ℂ) :
    value [c0, c1, c2, c3] x = c3 * ((x + cubicA c2 c3) ^ 3 - 3 * cubicQ c1 c2 c3 * (x + cubicA c2 c3) + 2 * cubicR c0 c1 c2 c3) := by
  rw [value_four]
  unfold cubicQ cubicR cubicA
  field_simp
  ring

/-- If `A` is not significant, all roots are near the average root. -/
theorem cubic_near {c0 c1 c2 c3 : ℂ} (h3 : c3 ≠ 0) (h : ¬ Significant eps (cubicAB eps (cubicQ c1 c2 c3) (cubicR c0 c1 c2 c3)).1) {x : ℂ}
    (hx : value [c0, c1, c2, c3] x = 0) : ‖x + cubicA c2 c3‖ ≤ 2 * √eps := by
  obtain ⟨hQ, hR, -, -⟩ := cubicAB_small h
  rw [cubic_depressed h3] at hx
  have hx := (mul_eq_zero.1 hx).resolve_left h3
  generalize x + cubicA c2 c3 = y at *
  have hy : ‖y‖ ^ 3 ≤ 3 * ‖cubicQ c1 c2 c3‖ * ‖y‖ + 2 * ‖cubicR c0 c1 c2 c3‖ := by
    have : y ^ 3 = 3 * cubicQ c1 c2 c3 * y - 2 * cubicR c0 c1 c2 c3 := by linear_combination hx
    rw [← norm_pow, this]
    refine (norm_sub_le _ _).trans ?_
    simp
  have h0 := Real.sqrt_nonneg eps
  generalize √eps = t at *
  by_contra hn
  push Not at hn
  have hy0 := norm_nonneg y
  generalize ‖y‖ = s at *
  have h1 : s ^ 3 ≤ 3 * t ^ 2 * s + 2 * t ^ 3 := by nlinarith
  have h2 : (s - 2 * t) * (s + t) ^ 2 ≤ 0 := by nlinarith
  have h4 : 0 < (s - 2 * t) * (s + t) ^ 2 := by
    have : 0 < s - 2 * t := by linarith
    have : 0 < s + t := by linarith
    positivity
  linarith

/-- **C26 (degree three, spread roots).** If the distance of a root to the average root is more than twice the square root of the precision, all roots are right.
Full claim: for all coefficients, see `C26_cubic_violates`. -/
theorem C26_cubic_partial {c0 c1 c2 c3 : ℂ} (h3 : c3 ≠ 0) {x : ℂ} (hx : value [c0, c1, c2, c3] x = 0) (hs : 2 * √eps < ‖x - -c2 / (3 * c3)‖) :
    AllRoots [c0, c1, c2, c3] (cubic eps c0 c1 c2 c3) := by
  refine C26_cubic h3 (.inr ?_)
  by_contra hn
  have := cubic_near h3 hn hx
  have e : x + cubicA c2 c3 = x - -c2 / (3 * c3) := by
    unfold cubicA
    field_simp
    ring
  rw [e] at this
  linarith

/-- **C26 (degree three, triple root).** -/
theorem C26_cubic_triple {c x : ℂ} (hc : c ≠ 0) :
    AllRoots [-c * x ^ 3, 3 * c * x ^ 2, -3 * c * x, c] (cubic eps (-c * x ^ 3) (3 * c * x ^ 2) (-3 * c * x) c) := by
  refine C26_cubic hc (.inl ?_)
  have hQ : cubicQ (3 * c * x ^ 2) (-3 * c * x) c = 0 := by
    unfold cubicQ cubicA
    field_simp
    ring
  have hR : cubicR (-c * x ^ 3) (3 * c * x ^ 2) (-3 * c * x) c = 0 := by
    unfold cubicR cubicA
    field_simp
    ring
  rw [hQ, hR]
  unfold cubicAB
  simp only
  rw [show ((0 : ℂ) ^ 2 - 0 ^ 3) = 0 by norm_num, zero_cpow (by norm_num), mul_zero, add_zero, zero_cpow (by norm_num), neg_zero]

/-- **C26 (degree three, error).** For all coefficients the result is right, or both the roots and the results are within twice the square root of the precision from the
average root. -/
theorem C26_cubic_error {c0 c1 c2 c3 : ℂ} (h3 : c3 ≠ 0) :
    AllRoots [c0, c1, c2, c3] (cubic eps c0 c1 c2 c3) ∨
      ((∀ x, value [c0, c1, c2, c3] x = 0 → ‖x - -c2 / (3 * c3)‖ ≤ 2 * √eps) ∧ ∀ r ∈ cubic eps c0 c1 c2 c3, ‖r - -c2 / (3 * c3)‖ ≤ 2 * √eps) := by
  by_cases h : Significant eps (cubicAB eps (cubicQ c1 c2 c3) (cubicR c0 c1 c2 c3)).1
  · exact .inl (C26_cubic h3 (.inr h))
  · refine .inr ⟨fun x hx => ?_, fun r hr => ?_⟩
    · have e : x + cubicA c2 c3 = x - -c2 / (3 * c3) := by
        unfold cubicA
        field_simp
        ring
      rw [← e]
      exact cubic_near h3 h hx
    · obtain ⟨-, -, hA, hB⟩ := cubicAB_small h
      have e : r + cubicA c2 c3 = r - -c2 / (3 * c3) := by
        unfold cubicA
        field_simp
        ring
      rw [← e]
      rw [cubic_eq] at hr
      generalize (cubicAB eps (cubicQ c1 c2 c3) (cubicR c0 c1 c2 c3)).1 = A at *
      generalize (cubicAB eps (cubicQ c1 c2 c3) (cubicR c0 c1 c2 c3)).2 = B at *
      have key : ∀ u v : ℂ, ‖u‖ = 1 → ‖v‖ = 1 → ‖A * u + B * v‖ ≤ 2 * √eps := by
        intro u v hu hv
        refine (norm_add_le _ _).trans ?_
        rw [norm_mul, norm_mul, hu, hv]
        linarith
      have hw := norm_omega
      have hw2 : ‖omega ^ 2‖ = 1 := by rw [norm_pow, hw, one_pow]
      simp only [List.mem_cons, List.not_mem_nil, or_false] at hr
      rcases hr with rfl | rfl | rfl
      · rw [sub_add_cancel]; exact key _ _ hw2 hw
      · rw [sub_add_cancel]; simpa using key 1 1 (by simp) (by simp)
      · rw [sub_add_cancel]; exact key _ _ hw hw2

theorem cubic_tiny (heps : 0 < eps) {c1 c2 c3 : ℂ} (h3 : c3 ≠ 0) (hQ : cubicQ c1 c2 c3 = (√eps : ℂ) ^ 2) (hR : cubicR 0 c1 c2 c3 = 0) (ha : cubicA c2 c3 = 0) :
    ¬ AllRoots [0, c1, c2, c3] (cubic eps 0 c1 c2 c3) := by
  intro H
  have h0 : 0 < √eps := Real.sqrt_pos.2 heps
  have H0 := H 0
  rw [value_four, cubic_eq, hQ, hR] at H0
  generalize ht : √eps = t at h0 H0
  have hA3 : (cubicAB eps ((t : ℂ) ^ 2) 0).1 ^ 6 = -(t : ℂ) ^ 6 := by
    unfold cubicAB
    simp only [map_zero, zero_mul, zero_re]
    have hS := sqrt_sq (0 ^ 2 - ((t : ℂ) ^ 2) ^ 3)
    generalize (0 ^ 2 - ((t : ℂ) ^ 2) ^ 3 : ℂ) ^ (1 / 2 : ℂ) = S at hS ⊢
    rw [show sgn 0 = 1 by simp [sgn], one_mul, zero_add]
    have hc := cbrt_cube S
    generalize S ^ (1 / 3 : ℂ) = w at hc ⊢
    have : (-w) ^ 6 = (w ^ 3) ^ 2 := by ring
    rw [this, hc, hS]
    ring
  have hn : ‖(cubicAB eps ((t : ℂ) ^ 2) 0).1‖ = t := by
    have h1 : ‖(cubicAB eps ((t : ℂ) ^ 2) 0).1‖ ^ 6 = t ^ 6 := by
      rw [← norm_pow, hA3, norm_neg, norm_pow, norm_real, Real.norm_of_nonneg h0.le]
    exact (pow_left_inj₀ (norm_nonneg _) h0.le (by norm_num)).1 h1
  have hs : ¬ Significant eps (cubicAB eps ((t : ℂ) ^ 2) 0).1 := by
    unfold Significant
    rw [hn, ht]
    exact lt_irrefl t
  have hB : (cubicAB eps ((t : ℂ) ^ 2) 0).2 = 0 := by
    have e1 : ind (Significant eps (cubicAB eps ((t : ℂ) ^ 2) 0).1) = 0 := by simp [ind, hs]
    unfold cubicAB at e1 ⊢
    simp only [map_zero, zero_mul, zero_re] at e1 ⊢
    rw [e1, show npSign 0 = 0 by simp [npSign], zero_mul, zero_mul, sub_zero, zero_cpow (by norm_num)]
    simp
  rw [hB, ha] at H0
  simp only [List.getLastD, List.map_cons, List.map_nil, List.prod_cons, List.prod_nil, mul_one, mul_zero, zero_mul, add_zero, sub_zero, zero_sub,
    ne_eq, OfNat.ofNat_ne_zero, not_false_eq_true, zero_pow] at H0
  have hAne : (cubicAB eps ((t : ℂ) ^ 2) 0).1 ≠ 0 := by
    rw [← norm_pos_iff, hn]; exact h0
  have hw : omega ≠ 0 := by rw [← norm_pos_iff, norm_omega]; norm_num
  change 0 = c3 * _ at H0
  exact (mul_ne_zero h3 (mul_ne_zero (neg_ne_zero.2 (mul_ne_zero hAne (pow_ne_zero 2 hw))) (mul_ne_zero (neg_ne_zero.2 hAne) (neg_ne_zero.2 (mul_ne_zero hAne hw))))) H0.symm

/-- **C26 (degree three).** For every precision there is a polynomial `x³ - 3 s² x` with roots 0 and `±√3 s` for which the result is wrong: zero is not found. -/
theorem C26_cubic_violates (heps : 0 < eps) : ∃ c1 : ℂ, c1 ≠ 0 ∧ ¬ AllRoots [0, c1, 0, 1] (cubic eps 0 c1 0 1) := by
  have h0 : 0 < √eps := Real.sqrt_pos.2 heps
  refine ⟨-3 * (√eps : ℂ) ^ 2, ?_, cubic_tiny heps one_ne_zero ?_ ?_ ?_⟩
  · have : (√eps : ℂ) ≠ 0 := by exact_mod_cast h0.ne'
    simp [this]
  · unfold cubicQ cubicA; ring
  · unfold cubicR cubicA; ring
  · unfold cubicA; norm_num

/-- **C26 (degree two).** For every precision there is a polynomial with the roots 1 and 2, for which the result is wrong. -/
theorem C26_quadratic_violates (heps : 0 < eps) :
    ∃ c : ℂ, c ≠ 0 ∧ AllRoots [2 * c, -3 * c, c] [1, 2] ∧ ¬ AllRoots [2 * c, -3 * c, c] (quadratic eps (2 * c) (-3 * c) c) := by
  have h0 : 0 < √eps := Real.sqrt_pos.2 heps
  refine ⟨((√eps / 4 : ℝ) : ℂ), ?_, ?_, ?_⟩
  · exact_mod_cast (by positivity : √eps / 4 ≠ 0)
  · intro x
    rw [value_three]
    simp only [List.getLastD, List.map_cons, List.map_nil, List.prod_cons, List.prod_nil, mul_one]
    change _ = ((√eps / 4 : ℝ) : ℂ) * _
    ring
  · rw [C26_quadratic (by exact_mod_cast (by positivity : √eps / 4 ≠ 0))]
    have hc : ‖((√eps / 4 : ℝ) : ℂ)‖ = √eps / 4 := by rw [norm_real, Real.norm_of_nonneg (by positivity)]
    have hc0 : ((√eps / 4 : ℝ) : ℂ) ≠ 0 := by exact_mod_cast (by positivity : √eps / 4 ≠ 0)
    generalize ((√eps / 4 : ℝ) : ℂ) = c at hc hc0
    have hq := quadraticQ_root (2 * c) (-3 * c) c
    rintro (h | h | h)
    · simp [hc0] at h
    · unfold Significant at h
      rw [norm_mul, hc] at h
      norm_num at h
      linarith
    · unfold Significant at h
      have e : (quadraticQ (2 * c) (-3 * c) c - c) * (quadraticQ (2 * c) (-3 * c) c - 2 * c) = 0 := by linear_combination hq
      rcases mul_eq_zero.1 e with e | e
      · rw [sub_eq_zero.1 e, hc] at h
        linarith
      · rw [sub_eq_zero.1 e, norm_mul, hc] at h
        norm_num at h
        linarith

/-! ### Examples -/

/-- C26_linear: 3 + 2x. -/
example : AllRoots [3, 2] (linear 3 2) := C26_linear two_ne_zero

/-- C26_quadratic: the constant coefficient of 6 - 5x + x² is significant. -/
example : AllRoots [6, -5, 1] (quadratic 1e-16 6 (-5) 1) :=
  (C26_quadratic one_ne_zero).2 (.inr (.inl (by
    unfold Significant
    rw [Real.sqrt_lt' (by norm_num)]
    norm_num)))

/-- C26_cubic: x³ - 1 meets the condition on `A`, because its root 1 is far from the centre of its roots. -/
example : AllRoots [-1, 0, 0, 1] (cubic 1e-16 (-1) 0 0 1) :=
  C26_cubic one_ne_zero (.inr (by
    by_contra hn
    have h := cubic_near one_ne_zero hn (x := 1) (by rw [value_four]; norm_num)
    have e : √(1e-16 : ℝ) < 1 / 4 := by
      rw [Real.sqrt_lt' (by norm_num)]
      norm_num
    have e1 : (1 : ℂ) + cubicA 0 1 = 1 := by unfold cubicA; norm_num
    rw [e1, norm_one] at h
    linarith))

/-- C26_cubic_triple: (x - 2)³ multiplied by 5. -/
example : AllRoots [-5 * 2 ^ 3, 3 * 5 * 2 ^ 2, -3 * 5 * 2, 5] (cubic 1e-16 (-5 * 2 ^ 3) (3 * 5 * 2 ^ 2) (-3 * 5 * 2) 5) := C26_cubic_triple (by norm_num)

/-- C26_cubic_error: the roots of x³ - x / 10¹⁸ are either exact or within twice the square root of the precision from 0. -/
example : AllRoots [0, -1e-18, 0, 1] (cubic 1e-16 0 (-1e-18) 0 1) ∨
    ((∀ x, value [0, -1e-18, 0, 1] x = 0 → ‖x - -0 / (3 * 1)‖ ≤ 2 * √1e-16) ∧ ∀ r ∈ cubic 1e-16 0 (-1e-18) 0 1, ‖r - -0 / (3 * 1)‖ ≤ 2 * √1e-16) := C26_cubic_error one_ne_zero

end Verif.Roots
