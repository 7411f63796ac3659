import Verif.Model.Roots
import Verif.Spec.Roots
import Mathlib.Tactic.Ring
import Mathlib.Tactic.FieldSimp
import Mathlib.Tactic.LinearCombination
import Mathlib.Data.List.ReduceOption

/-!
# Lemmas about the roots of polynomials of low order
-/

namespace Verif.Roots

open Complex Verif.Spec.Roots

theorem sgn_sq (x : ℝ) : sgn x * sgn x = 1 := by
  unfold sgn
  split_ifs <;> norm_num

theorem sqrt_sq (z : ℂ) : (z ^ (1 / 2 : ℂ)) ^ 2 = z := by
  have := cpow_nat_inv_pow z (n := 2) two_ne_zero
  rwa [show ((2 : ℕ) : ℂ)⁻¹ = 1 / 2 by norm_num] at this

theorem cbrt_cube (z : ℂ) : (z ^ (1 / 3 : ℂ)) ^ 3 = z := by
  have := cpow_nat_inv_pow z (n := 3) three_ne_zero
  rwa [show ((3 : ℕ) : ℂ)⁻¹ = 1 / 3 by norm_num] at this

/-- With the sign that the code chooses there is no cancellation. -/
theorem norm_le_add_sgn (z w : ℂ) : ‖z‖ ^ 2 + ‖w‖ ^ 2 ≤ ‖z + sgn ((starRingEnd ℂ) z * w).re * w‖ ^ 2 := by
  have h : ∀ σ : ℝ, σ ^ 2 = 1 → 0 ≤ σ * ((starRingEnd ℂ) z * w).re → ‖z‖ ^ 2 + ‖w‖ ^ 2 ≤ ‖z + (σ : ℂ) * w‖ ^ 2 := by
    intro σ h1 h2
    simp only [← normSq_eq_norm_sq, normSq_apply, add_re, add_im, re_ofReal_mul, im_ofReal_mul] at *
    simp only [mul_re, conj_re, conj_im] at h2
    nlinarith [h1, h2]
  unfold sgn
  split_ifs with h0
  · have := h 1 (by norm_num) (by simpa using h0)
    simpa using this
  · have := h (-1) (by norm_num) (by linarith)
    push_cast at this
    exact this

theorem omega_cube : omega ^ 3 = 1 := by
  rw [omega, ← exp_nat_mul]
  rw [show ((3 : ℕ) : ℂ) * (2 * Real.pi * I / 3) = 2 * Real.pi * I by push_cast; ring]
  exact exp_two_pi_mul_I

theorem omega_ne : omega ≠ 1 := by
  intro h
  rw [omega, exp_eq_one_iff] at h
  obtain ⟨n, hn⟩ := h
  have h1 : (2 * Real.pi * I : ℂ) ≠ 0 := two_pi_I_ne_zero
  have h2 : ((1 : ℂ) / 3 - n) * (2 * Real.pi * I) = 0 := by linear_combination hn
  have h3 := (mul_eq_zero.1 h2).resolve_right h1
  have h4 : (1 : ℂ) = 3 * n := by linear_combination 3 * h3
  have h5 : (1 : ℤ) = 3 * n := by exact_mod_cast h4
  omega

theorem omega_sum : omega ^ 2 + omega + 1 = 0 := by
  have h : (omega - 1) * (omega ^ 2 + omega + 1) = 0 := by linear_combination omega_cube
  exact (mul_eq_zero.1 h).resolve_left (sub_ne_zero.2 omega_ne)

theorem exp_one : exp (2 * Real.pi * I * 1 / 3) = omega := by rw [omega, mul_one]

theorem exp_neg_one : exp (2 * Real.pi * I * (-1) / 3) = omega ^ 2 := by
  have h : exp (2 * Real.pi * I * (-1) / 3) * omega = 1 := by
    rw [omega, ← exp_add, show (2 * Real.pi * I * (-1) / 3 + 2 * Real.pi * I / 3 : ℂ) = 0 by ring, exp_zero]
  have h0 : omega ≠ 0 := exp_ne_zero _
  apply mul_right_cancel₀ h0
  rw [h]
  linear_combination -omega_cube

theorem conj_omega : (starRingEnd ℂ) omega = omega ^ 2 := by
  rw [← exp_neg_one, omega, ← exp_conj]
  congr 1
  simp only [map_div₀, map_mul, conj_I, conj_ofReal, map_ofNat]
  ring

theorem conj_omega_sq : (starRingEnd ℂ) (omega ^ 2) = omega := by
  rw [map_pow, conj_omega]
  linear_combination omega * omega_cube

theorem norm_omega : ‖omega‖ = 1 := by
  have : omega = exp (((2 * Real.pi / 3 : ℝ) : ℂ) * I) := by rw [omega]; congr 1; push_cast; ring
  rw [this, norm_exp_ofReal_mul_I]

/-- The three roots, without the exponentials. -/
theorem cubic_eq (eps : ℝ) (c0 c1 c2 c3 : ℂ) :
    cubic eps c0 c1 c2 c3 =
      [(cubicAB eps (cubicQ c1 c2 c3) (cubicR c0 c1 c2 c3)).1 * omega ^ 2 + (cubicAB eps (cubicQ c1 c2 c3) (cubicR c0 c1 c2 c3)).2 * omega - cubicA c2 c3,
       (cubicAB eps (cubicQ c1 c2 c3) (cubicR c0 c1 c2 c3)).1 + (cubicAB eps (cubicQ c1 c2 c3) (cubicR c0 c1 c2 c3)).2 - cubicA c2 c3,
       (cubicAB eps (cubicQ c1 c2 c3) (cubicR c0 c1 c2 c3)).1 * omega + (cubicAB eps (cubicQ c1 c2 c3) (cubicR c0 c1 c2 c3)).2 * omega ^ 2 - cubicA c2 c3] := by
  unfold cubic
  simp only [exp_one, exp_neg_one, conj_omega, conj_omega_sq, mul_zero, zero_div, exp_zero, map_one]
  simp only [mul_one]

theorem value_two (c0 c1 x : ℂ) : value [c0, c1] x = c0 + c1 * x := by simp [value, Fin.sum_univ_two]
theorem value_three (c0 c1 c2 x : ℂ) : value [c0, c1, c2] x = c0 + c1 * x + c2 * x ^ 2 := by
  simp [value, Fin.sum_univ_three]
theorem value_four (c0 c1 c2 c3 x : ℂ) : value [c0, c1, c2, c3] x = c0 + c1 * x + c2 * x ^ 2 + c3 * x ^ 3 := by
  simp [value, Fin.sum_univ_four]

theorem value_nil (x : ℂ) : value [] x = 0 := by simp [value]

theorem value_cons (c : ℂ) (C : List ℂ) (x : ℂ) : value (c :: C) x = c + x * value C x := by
  unfold value
  rw [show (∑ i : Fin (c :: C).length, (c :: C)[i] * x ^ (i : ℕ)) = ∑ i : Fin (C.length + 1), (c :: C)[i] * x ^ (i : ℕ) from rfl, Fin.sum_univ_succ, Finset.mul_sum]
  simp only [Fin.getElem_fin, Fin.val_zero, List.getElem_cons_zero, pow_zero, mul_one, Fin.val_succ, List.getElem_cons_succ, pow_succ]
  congr 1
  refine Finset.sum_congr rfl fun i _ => ?_
  ring

/-- The identity behind the cubic formula. -/
theorem cubic_factor {c0 c1 c2 c3 A B : ℂ} (h3 : c3 ≠ 0) (hAB : A * B = cubicQ c1 c2 c3) (hS : A ^ 3 + B ^ 3 = -2 * cubicR c0 c1 c2 c3) :
    AllRoots [c0, c1, c2, c3] [A * omega ^ 2 + B * omega - cubicA c2 c3, A + B - cubicA c2 c3, A * omega + B * omega ^ 2 - cubicA c2 c3] := by
  intro x
  rw [value_four]
  simp only [List.getLastD, List.map_cons, List.map_nil, List.prod_cons, List.prod_nil, mul_one]
  have hw := omega_sum
  have key : (x - (A * omega ^ 2 + B * omega - cubicA c2 c3)) * ((x - (A + B - cubicA c2 c3)) * (x - (A * omega + B * omega ^ 2 - cubicA c2 c3))) =
      (x + cubicA c2 c3) ^ 3 - 3 * (A * B) * (x + cubicA c2 c3) - (A ^ 3 + B ^ 3) := by
    generalize cubicA c2 c3 = a
    generalize omega = w at hw
    have h2 : w ^ 2 = -w - 1 := by linear_combination hw
    have h3 : w ^ 3 = 1 := by linear_combination (w - 1) * hw
    have h4 : w ^ 4 = w := by linear_combination w * h3
    ring_nf
    simp only [h4, h3, h2]
    ring
  change _ = c3 * _
  rw [key, hAB, hS]
  unfold cubicQ cubicR cubicA
  field_simp
  ring

/-! ### removal of roots -/

theorem removeLoop_spec (eps : ℝ) (X : List ℂ) (r : ℕ) :
    ∃ Z : List ℂ, (∀ z ∈ Z, ¬ Significant eps z) ∧ X.Perm (Z ++ (removeLoop eps X r).1.reduceOption) ∧
      (removeLoop eps X r).2 + Z.length = r ∧ (removeLoop eps X r).1.length = X.length ∧
      (0 < (removeLoop eps X r).2 → ∀ x, some x ∈ (removeLoop eps X r).1 → Significant eps x) := by
  classical
  induction X with
  | nil => exact ⟨[], by simp, by simp [removeLoop], by simp [removeLoop], by simp [removeLoop], by simp [removeLoop]⟩
  | cons x X ih =>
    obtain ⟨Z, h1, h2, h3, h4, h5⟩ := ih
    rw [removeLoop]
    generalize removeLoop eps X r = Y at *
    obtain ⟨Y, r'⟩ := Y
    simp only at *
    split_ifs with h
    · refine ⟨x :: Z, ?_, ?_, ?_, ?_, ?_⟩
      · intro z hz
        rcases List.mem_cons.1 hz with rfl | hz
        · exact h.1
        · exact h1 z hz
      · simp only [List.reduceOption_cons_of_none, List.cons_append]
        exact h2.cons _
      · simp only [List.length_cons]; omega
      · simp [h4]
      · intro hr y hy
        simp only [List.mem_cons, reduceCtorEq, false_or] at hy
        exact h5 h.2 y hy
    · refine ⟨Z, h1, ?_, h3, ?_, ?_⟩
      · simp only [List.reduceOption_cons_of_some]
        exact (h2.cons x).trans List.perm_middle.symm
      · simp [h4]
      · intro hr y hy
        simp only [List.mem_cons, Option.some.injEq] at hy
        rcases hy with rfl | hy
        · by_contra hn
          exact h ⟨hn, hr⟩
        · exact h5 hr y hy

theorem sort_perm (X : List (Option ℂ)) : (sort X).Perm X := by
  unfold sort
  exact List.mergeSort_perm _ _

end Verif.Roots
