import Verif.Model.EigenBias
import Verif.Lemmas.Bias
import Verif.Props.Eigenvalues

/-!
# The eigenvalues of Hermitian matrices as they are calculated
-/

namespace Verif.Roots

open Complex Verif.Spec.Roots

variable {eps : ℝ}

/-- The principal cube root is within 60 degrees of the positive real axis. -/
theorem cbrt_re (z : ℂ) : ‖z ^ (1 / 3 : ℂ)‖ ≤ 2 * (z ^ (1 / 3 : ℂ)).re := by
  by_cases hz : z = 0
  · rw [hz, zero_cpow (by norm_num)]
    simp
  · rw [cpow_def_of_ne_zero hz, norm_exp, exp_re]
    have e : (log z * (1 / 3)).im = arg z / 3 := by
      rw [mul_comm, show (1 / 3 : ℂ) = ((1 / 3 : ℝ) : ℂ) by push_cast; rfl, im_ofReal_mul, log_im]
      ring
    rw [e]
    have hc : 1 / 2 ≤ Real.cos (arg z / 3) := by
      rw [← Real.cos_abs, ← Real.cos_pi_div_three]
      refine Real.cos_le_cos_of_nonneg_of_le_pi (abs_nonneg _) (by linarith [Real.pi_pos]) ?_
      rw [abs_div, abs_of_pos (by norm_num : (0 : ℝ) < 3)]
      exact div_le_div_of_nonneg_right (abs_arg_le_pi z) (by norm_num)
    have := Real.exp_pos (log z * (1 / 3)).re
    nlinarith

theorem im_le_of_norm {u : ℂ} (h : ‖u‖ ≤ 2 * u.re) : |u.im| ≤ √3 * u.re := by
  have h0 : 0 ≤ u.re := by linarith [norm_nonneg u]
  have h1 : ‖u‖ ^ 2 ≤ (2 * u.re) ^ 2 := pow_le_pow_left₀ (norm_nonneg _) h 2
  rw [← normSq_eq_norm_sq, normSq_apply] at h1
  refine abs_le_of_sq_le_sq ?_ (by positivity)
  rw [mul_pow, Real.sq_sqrt (by norm_num)]
  nlinarith

theorem omega_parts : omega.re = -1 / 2 ∧ omega.im = √3 / 2 := by
  have e : (2 * Real.pi * I / 3 : ℂ) = ((2 * Real.pi / 3 : ℝ) : ℂ) * I := by push_cast; ring
  have e2 : 2 * Real.pi / 3 = Real.pi - Real.pi / 3 := by ring
  unfold omega
  rw [e, exp_ofReal_mul_I_re, exp_ofReal_mul_I_im, e2, Real.cos_pi_sub, Real.sin_pi_sub, Real.cos_pi_div_three, Real.sin_pi_div_three]
  norm_num

/-- Of the three cube roots, the principal has the largest real part. -/
theorem cbrt_turn {u : ℂ} (h : ‖u‖ ≤ 2 * u.re) : (u * omega).re ≤ u.re ∧ (u * omega ^ 2).re ≤ u.re := by
  have h1 := abs_le.1 (im_le_of_norm h)
  have h3 : √3 * √3 = 3 := Real.mul_self_sqrt (by norm_num)
  have h0 := Real.sqrt_nonneg 3
  obtain ⟨e1, e2⟩ := omega_parts
  have a := mul_le_mul_of_nonneg_left h1.1 h0
  have b := mul_le_mul_of_nonneg_left h1.2 h0
  constructor
  · rw [mul_re, e1, e2]
    nlinarith
  · rw [sq, mul_re, mul_re, mul_im, e1, e2]
    nlinarith

/-- Cubic polynomials with real roots: what is calculated is not less than the smallest root. -/
theorem cubic_lower {c0 c1 c2 c3 : ℂ} (h3 : c3 ≠ 0) {q r : ℝ} (hQ : cubicQ c1 c2 c3 = q) (hR : cubicR c0 c1 c2 c3 = r) (hqr : r ^ 2 ≤ q ^ 3) :
    ∀ y ∈ cubic eps c0 c1 c2 c3, ∃ x, value [c0, c1, c2, c3] x = 0 ∧ x.re ≤ y.re := by
  intro y hy
  by_cases hs : Significant eps (cubicAB eps (cubicQ c1 c2 c3) (cubicR c0 c1 c2 c3)).1
  · refine ⟨y, ?_, le_rfl⟩
    rw [C26_cubic h3 (.inr hs) y]
    refine mul_eq_zero_of_right _ (List.prod_eq_zero_iff.2 (List.mem_map.2 ⟨y, hy, sub_self y⟩))
  · rw [cubic_eq, hQ, hR] at hy
    rw [hQ, hR] at hs
    have hS := sqrt_sq ((r : ℂ) ^ 2 - (q : ℂ) ^ 3)
    have e : cubicAB eps q r = (-((r : ℂ) + sgn ((starRingEnd ℂ) (r : ℂ) * ((r : ℂ) ^ 2 - (q : ℂ) ^ 3) ^ (1 / 2 : ℂ)).re * ((r : ℂ) ^ 2 - (q : ℂ) ^ 3) ^ (1 / 2 : ℂ)) ^ (1 / 3 : ℂ),
        -((r : ℂ) - npSign ((starRingEnd ℂ) (r : ℂ) * ((r : ℂ) ^ 2 - (q : ℂ) ^ 3) ^ (1 / 2 : ℂ)).re * ((r : ℂ) ^ 2 - (q : ℂ) ^ 3) ^ (1 / 2 : ℂ)) ^ (1 / 3 : ℂ)) := by
      have hs' := hs
      unfold cubicAB at hs' ⊢
      simp only at hs' ⊢
      rw [show ind (Significant eps (-((r : ℂ) + sgn ((starRingEnd ℂ) (r : ℂ) * ((r : ℂ) ^ 2 - (q : ℂ) ^ 3) ^ (1 / 2 : ℂ)).re * ((r : ℂ) ^ 2 - (q : ℂ) ^ 3) ^ (1 / 2 : ℂ)) ^ (1 / 3 : ℂ))) = 0 by
          simp only [ind, if_neg hs'],
        show ind (¬ Significant eps (-((r : ℂ) + sgn ((starRingEnd ℂ) (r : ℂ) * ((r : ℂ) ^ 2 - (q : ℂ) ^ 3) ^ (1 / 2 : ℂ)).re * ((r : ℂ) ^ 2 - (q : ℂ) ^ 3) ^ (1 / 2 : ℂ)) ^ (1 / 3 : ℂ))) = 1 by
          simp only [ind, if_pos hs'],
        one_mul, zero_mul, zero_add]
    rw [e] at hy
    generalize ((r : ℂ) ^ 2 - (q : ℂ) ^ 3) ^ (1 / 2 : ℂ) = S at hS hy
    have hre : S.re = 0 := by
      have a := congrArg re hS
      have b := congrArg im hS
      simp only [pow_succ, pow_zero, one_mul, sub_re, sub_im, mul_re, mul_im, ofReal_re, ofReal_im] at a b
      have b' : S.re * S.im = 0 := by linarith
      rcases mul_eq_zero.1 b' with h | h
      · exact h
      · rw [h] at a
        nlinarith [sq_nonneg S.re]
    have hz : ((starRingEnd ℂ) (r : ℂ) * S).re = 0 := by
      rw [conj_ofReal, re_ofReal_mul, hre, mul_zero]
    rw [hz, show sgn 0 = 1 by simp [sgn], show npSign 0 = 0 by simp [npSign], one_mul, zero_mul, sub_zero] at hy
    have hu := cbrt_cube ((r : ℂ) + S)
    have hv := cbrt_cube (r : ℂ)
    have hu2 := cbrt_re ((r : ℂ) + S)
    have hv2 := cbrt_re (r : ℂ)
    generalize ((r : ℂ) + S) ^ (1 / 3 : ℂ) = u at hu hu2 hy
    generalize (r : ℂ) ^ (1 / 3 : ℂ) = v at hv hv2 hy
    have hx0 : 0 ≤ u.re := by linarith [norm_nonneg u]
    have hp0 : 0 ≤ v.re := by linarith [norm_nonneg v]
    -- the norm of `u`
    have hS2 : S.im ^ 2 = q ^ 3 - r ^ 2 := by
      have a := congrArg re hS
      simp only [pow_succ, pow_zero, one_mul, sub_re, mul_re, ofReal_re, ofReal_im, mul_im, hre] at a
      nlinarith
    have hur : u.re ^ 3 - 3 * u.re * u.im ^ 2 = r := by
      have a := congrArg re hu
      simp only [pow_succ, pow_zero, one_mul, mul_re, mul_im, add_re, ofReal_re, hre] at a
      nlinarith
    have hui : 3 * u.re ^ 2 * u.im - u.im ^ 3 = S.im := by
      have a := congrArg im hu
      simp only [pow_succ, pow_zero, one_mul, mul_re, mul_im, add_im, ofReal_im] at a
      nlinarith
    have hq0 : 0 ≤ q := by
      by_contra hn
      push Not at hn
      have : q ^ 3 < 0 := by
        have := pow_pos (neg_pos.2 hn) 3
        nlinarith
      nlinarith [sq_nonneg r]
    have hq : u.re ^ 2 + u.im ^ 2 = q := by
      have : (u.re ^ 2 + u.im ^ 2) ^ 3 = q ^ 3 := by
        have : (u.re ^ 2 + u.im ^ 2) ^ 3 = (u.re ^ 3 - 3 * u.re * u.im ^ 2) ^ 2 + (3 * u.re ^ 2 * u.im - u.im ^ 3) ^ 2 := by ring
        rw [this, hur, hui, hS2]
        ring
      exact (pow_left_inj₀ (by positivity) hq0 (by norm_num)).1 this
    have hvr : v.re ^ 3 - 3 * v.re * v.im ^ 2 = r := by
      have a := congrArg re hv
      simp only [pow_succ, pow_zero, one_mul, mul_re, mul_im, ofReal_re] at a
      nlinarith
    have hvi : v.im * (3 * v.re ^ 2 - v.im ^ 2) = 0 := by
      have a := congrArg im hv
      simp only [pow_succ, pow_zero, one_mul, mul_re, mul_im, ofReal_im] at a
      nlinarith
    have hvn : v.im ^ 2 ≤ 3 * v.re ^ 2 := by
      have h1 : ‖v‖ ^ 2 ≤ (2 * v.re) ^ 2 := pow_le_pow_left₀ (norm_nonneg _) hv2 2
      rw [← normSq_eq_norm_sq, normSq_apply] at h1
      nlinarith
    have hun : u.im ^ 2 ≤ 3 * u.re ^ 2 := by
      have h1 : ‖u‖ ^ 2 ≤ (2 * u.re) ^ 2 := pow_le_pow_left₀ (norm_nonneg _) hu2 2
      rw [← normSq_eq_norm_sq, normSq_apply] at h1
      nlinarith
    have hle : v.re ≤ u.re := by
      rcases mul_eq_zero.1 hvi with h | h
      · rw [h] at hvr
        have : v.re ^ 3 ≤ u.re ^ 3 := by nlinarith [mul_nonneg hx0 (sq_nonneg u.im)]
        exact (pow_le_pow_iff_left₀ hp0 hx0 (by norm_num)).1 this
      · have h' : v.im ^ 2 = 3 * v.re ^ 2 := by linarith
        rw [h'] at hvr
        have : v.re ^ 3 ≤ u.re ^ 3 := by nlinarith [mul_nonneg hx0 (sub_nonneg.2 hun)]
        exact (pow_le_pow_iff_left₀ hp0 hx0 (by norm_num)).1 this
    refine ⟨((-2 * u.re : ℝ) : ℂ) - cubicA c2 c3, ?_, ?_⟩
    · rw [cubic_depressed h3, hQ, hR, sub_add_cancel]
      refine mul_eq_zero_of_right _ ?_
      rw [← hq, ← hur]
      push_cast
      ring
    · obtain ⟨t1, t2⟩ := cbrt_turn hu2
      obtain ⟨t3, t4⟩ := cbrt_turn hv2
      simp only [List.mem_cons, List.not_mem_nil, or_false] at hy
      rcases hy with rfl | rfl | rfl
      · simp only [sub_re, add_re, ofReal_re, neg_mul, neg_re] at *
        linarith
      · simp only [sub_re, add_re, ofReal_re, neg_mul, neg_re] at *
        linarith
      · simp only [sub_re, add_re, ofReal_re, neg_mul, neg_re] at *
        linarith

/-- The characteristic polynomial of a Hermitian matrix has three real roots, so that it meets the assumptions of `cubic_lower`. -/
theorem hermitian_lower {a : Matrix (Fin 3) (Fin 3) ℂ} (ha : a.IsHermitian) :
    ∀ y ∈ formula eps (charCoefficients a), ∃ x : ℂ, (x • (1 : Matrix (Fin 3) (Fin 3) ℂ) - a).det = 0 ∧ x.re ≤ y.re := by
  have hdet : ∀ x : ℂ, (x • (1 : Matrix (Fin 3) (Fin 3) ℂ) - a).det = (x - (ha.eigenvalues 0 : ℝ)) * (x - (ha.eigenvalues 1 : ℝ)) * (x - (ha.eigenvalues 2 : ℝ)) := by
    intro x
    have h := congrArg (Polynomial.eval x) ha.charpoly_eq
    rw [Matrix.eval_charpoly, Polynomial.eval_prod, Fin.prod_univ_three] at h
    rw [Matrix.scalar_apply, ← Matrix.smul_one_eq_diagonal] at h
    rw [h]
    simp
  generalize ha.eigenvalues 0 = l0 at hdet
  generalize ha.eigenvalues 1 = l1 at hdet
  generalize ha.eigenvalues 2 = l2 at hdet
  have hval : ∀ x, value (charCoefficients a) x = -((x - l0) * (x - l1) * (x - l2)) := fun x => by rw [value_charCoefficients, hdet]
  obtain ⟨c0, c1, c2, hc⟩ : ∃ c0 c1 c2, charCoefficients a = [c0, c1, c2, -1] := ⟨_, _, _, rfl⟩
  rw [hc] at hval ⊢
  have v0 := hval 0
  have v1 := hval 1
  have v2 := hval (-1)
  simp only [value_four] at v0 v1 v2
  have e0 : c0 = l0 * l1 * l2 := by linear_combination v0
  have e2 : c2 = l0 + l1 + l2 := by linear_combination (v1 + v2) / 2 - v0
  have e1 : c1 = -(l0 * l1 + l1 * l2 + l2 * l0) := by linear_combination (v1 - v2) / 2
  intro y hy
  obtain ⟨x, h1, h2⟩ := cubic_lower (eps := eps) (c0 := c0) (c1 := c1) (c2 := c2) (c3 := -1) (by norm_num)
    (q := ((l0 + l1 + l2) / 3) ^ 2 - (l0 * l1 + l1 * l2 + l2 * l0) / 3)
    (r := -((l0 + l1 + l2) / 3) ^ 3 + ((l0 + l1 + l2) / 3 * (l0 * l1 + l1 * l2 + l2 * l0) - l0 * l1 * l2) / 2)
    (by rw [cubicQ, cubicA, e1, e2]; push_cast; ring) (by rw [cubicR, cubicA, e0, e1, e2]; push_cast; ring)
    (by
      have := sq_nonneg ((l0 - l1) * (l1 - l2) * (l2 - l0))
      have e : (((l0 + l1 + l2) / 3) ^ 2 - (l0 * l1 + l1 * l2 + l2 * l0) / 3) ^ 3 -
          (-((l0 + l1 + l2) / 3) ^ 3 + ((l0 + l1 + l2) / 3 * (l0 * l1 + l1 * l2 + l2 * l0) - l0 * l1 * l2) / 2) ^ 2 =
          ((l0 - l1) * (l1 - l2) * (l2 - l0)) ^ 2 / 108 := by ring
      linarith) y hy
  refine ⟨x, ?_, h2⟩
  have := value_charCoefficients a x
  rw [hc, h1] at this
  exact neg_eq_zero.1 this.symm

end Verif.Roots

namespace Verif.Solver

open Verif Verif.Fourier Verif.Backend Complex Matrix
open Verif.Spec.Solver (NoGain Within)

variable {d n : ℕ} {N : Fin d → ℕ} {eps : ℝ}

theorem mem_roots_det (A : Matrix (Fin n) (Fin n) ℂ) (z : ℂ) : z ∈ A.charpoly.roots ↔ (z • (1 : Matrix (Fin n) (Fin n) ℂ) - A).det = 0 := by
  rw [Polynomial.mem_roots (Matrix.charpoly_monic A).ne_zero, Polynomial.IsRoot, Matrix.eval_charpoly, Matrix.scalar_apply, ← Matrix.smul_one_eq_diagonal]

/-- The values that are found for one number. -/
theorem spectrum_one (eps : ℝ) (torch : Bool) (A : Matrix (Fin 1) (Fin 1) ℂ) : spectrum eps torch A = [A 0 0] := by
  have h : ¬ ((1 : ℕ) = 3 ∧ (1 : ℕ) = 3) := by decide
  have h1 : Roots.mat3Eigh eps ⟨1, 1, A⟩ = .ok [some (A 0 0)] := by
    unfold Roots.mat3Eigh
    simp only [dif_neg h]
    rfl
  have h2 : Roots.mat3EighTorch eps ⟨1, 1, A⟩ = .ok [some (A 0 0)] := by
    unfold Roots.mat3EighTorch
    simp only [dif_neg h]
    exact h1
  unfold spectrum
  rw [h1, h2]
  cases torch <;> rfl

/-- The values that are found for a matrix, in some order. -/
theorem spectrum_three (heps : 2 * eps ≤ 1) (A : Matrix (Fin 3) (Fin 3) ℂ) :
    (spectrum eps false A).Perm (Roots.formula eps (Roots.charCoefficients A)) ∧
      (spectrum eps true A).Perm ((Roots.formula eps (Roots.charCoefficients A)).map fun z => ((z.re : ℝ) : ℂ)) := by
  obtain ⟨X, h1, -, Y, rfl, h2⟩ := Roots.mat3Eigh_full heps A
  have hc : Roots.mat3Eigh eps (Roots.full A) = Roots.calcRoots eps (Roots.charCoefficients A) := by
    unfold Roots.mat3Eigh
    rw [dif_pos ⟨rfl, rfl⟩]
    rfl
  constructor
  · unfold spectrum
    change List.Perm (match Roots.mat3Eigh eps (Roots.full A) with | .ok X => X.reduceOption | .error _ => []) _
    rw [h1]
    dsimp only
    rw [Roots.map_some_reduceOption]
    exact h2
  · unfold spectrum
    have e : Roots.mat3EighTorch eps ⟨3, 3, A⟩ = .ok (Roots.sort ((Y.map some).map (Option.map fun z => ((z.re : ℝ) : ℂ)))) := by
      unfold Roots.mat3EighTorch
      rw [dif_pos ⟨rfl, rfl⟩]
      change Roots.calcRootsTorch eps (Roots.charCoefficients A) = _
      unfold Roots.calcRootsTorch
      rw [← hc, h1]
      rfl
    simp only [if_true]
    rw [e]
    dsimp only
    have hp : (Roots.sort ((Y.map some).map (Option.map fun z => ((z.re : ℝ) : ℂ)))).Perm ((Y.map fun z => ((z.re : ℝ) : ℂ)).map some) := by
      refine (List.mergeSort_perm _ _).trans ?_
      rw [List.map_map, List.map_map]
      exact List.Perm.refl _
    have h3 := hp.filterMap id
    refine List.Perm.trans h3 ?_
    rw [← List.reduceOption, Roots.map_some_reduceOption]
    exact h2.map _

end Verif.Solver
