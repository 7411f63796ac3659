import Verif.Props.SolverTolerance

/-!
# C87, C88: permeabilities that are not used
-/

namespace Verif.Solver

open Verif Verif.Fourier Verif.Backend Complex Matrix
open Verif.Spec.Solver (NoGain Within WaveEquation ScalarWaveEquation negLaplacian)

variable {d n : ℕ}

/-- Vacuum with permeability 1 at the first of two points and 2 at the other. -/
noncomputable def varyingMu : Medium 1 demoGrid.shape := ⟨fun _ => 1, fun _ => 0, fun _ => 0, fun x => (if (x 0).val = 0 then 1 else 2 : ℂ) • 1⟩

theorem alternating_eigen : ∃ K : ℂ, K ≠ 0 ∧ ∀ x, negLaplacian (kOf demoGrid) alternating x = K * alternating x := by
  refine ⟨∑ a, (kOf demoGrid a nyquist : ℂ) ^ 2, fun h => ?_, fun x => ?_⟩
  · refine negLaplacian_alternating ?_
    unfold negLaplacian alternating
    rw [C23_ft_ift]
    have : (fun x : Idx demoGrid.shape => (∑ a, (kOf demoGrid a x : ℂ) ^ 2) * if (x 0).val = 1 then (1 : ℂ) else 0) = 0 := by
      funext x
      split_ifs with h1
      · have hx : x = nyquist := by
          funext a
          rw [Fin.fin_one_eq_zero a]
          exact Fin.ext h1
        rw [hx, h]
        simp
      · simp
    rw [this]
    exact ift_isLinear.map_zero
  · unfold negLaplacian alternating
    rw [C23_ft_ift, ← smul_eq_mul, ← Pi.smul_apply, ← ift_isLinear.map_smul]
    congr 1
    funext y
    simp only [Pi.smul_apply, smul_eq_mul]
    split_ifs with h1
    · have hy : y = nyquist := by
        funext a
        rw [Fin.fin_one_eq_zero a]
        exact Fin.ext h1
      rw [hy]
    · simp

theorem alternating_ne_zero (x : Idx demoGrid.shape) : alternating x ≠ 0 := by
  unfold alternating ift
  have hs : ∀ F : Idx demoGrid.shape → ℂ, (∑ k, (if (k 0).val = 1 then (1 : ℂ) else 0) * F k) = F nyquist := fun F => by
    rw [Finset.sum_eq_single nyquist]
    · change (if (1 : ℕ) = 1 then (1 : ℂ) else 0) * _ = _
      rw [if_pos rfl, one_mul]
    · intro y _ hy
      rw [if_neg, zero_mul]
      intro h1
      apply hy
      funext a
      rw [Fin.fin_one_eq_zero a]
      exact Fin.ext h1
    · intro h
      exact absurd (Finset.mem_univ _) h
  rw [hs]
  refine div_ne_zero (Finset.prod_ne_zero_iff.mpr fun a _ => exp_ne_zero _) (Finset.prod_ne_zero_iff.mpr fun a _ => ?_)
  change ((2 : ℕ) : ℂ) ≠ 0
  norm_num

/-- **C88 is violated**: the scalar calculation does not solve the wave equation with a permeability that depends on the position, whatever `β` the optimization has returned. -/
theorem C88_violates {alpha : ℂ} (hα : alpha.im ≠ 0) {beta : ℝ} (hβ : beta ≠ 0) (mag : Bool) :
    ∃ S F : Field 1 demoGrid.shape, Preconditioned .scalar (backendK demoGrid 1) (prepare varyingMu mag alpha beta S F) ∧
      ¬ ∀ x, (varyingMu.mu x 0 0)⁻¹ * negLaplacian (kOf demoGrid) (getE 1 (prepare varyingMu mag alpha beta S F) 0) x -
        (getE 1 (prepare varyingMu mag alpha beta S F) 0) x = S 0 x := by
  obtain ⟨K, hK, hlap⟩ := alternating_eigen
  refine ⟨fun _ x => (beta : ℂ) * negLaplacian (kOf demoGrid) alternating x - alternating x, fun _ => alternating, ?_, fun h => ?_⟩
  · rw [C88_equation demoGrid demo_step one_ne_zero varyingMu mag hα hβ]
    intro x
    have hg : getE 1 (prepare varyingMu mag alpha beta (fun _ x => (beta : ℂ) * negLaplacian (kOf demoGrid) alternating x - alternating x) (fun _ => alternating)) 0 =
        alternating := by
      funext x
      simp [getE, prepare, prepared, updateOperators]
    rw [hg]
    simp [varyingMu]
  · have hg : getE 1 (prepare varyingMu mag alpha beta (fun _ x => (beta : ℂ) * negLaplacian (kOf demoGrid) alternating x - alternating x) (fun _ => alternating)) 0 =
        alternating := by
      funext x
      simp [getE, prepare, prepared, updateOperators]
    rw [hg] at h
    have h0 := h fun _ => (0 : Fin 2)
    have h1 := h nyquist
    beta_reduce at h0 h1
    rw [hlap (fun _ => (0 : Fin 2))] at h0
    rw [hlap nyquist] at h1
    have m0 : varyingMu.mu (fun _ => (0 : Fin 2)) 0 0 = 1 := by
      change ((if ((0 : Fin 2)).val = 0 then 1 else 2 : ℂ) • (1 : Matrix (Fin 1) (Fin 1) ℂ)) 0 0 = 1
      simp
    have m1 : varyingMu.mu nyquist 0 0 = 2 := by
      change ((if ((1 : Fin 2)).val = 0 then 1 else 2 : ℂ) • (1 : Matrix (Fin 1) (Fin 1) ℂ)) 0 0 = 2
      simp
    rw [m0, sub_left_inj] at h0
    rw [m1, sub_left_inj] at h1
    have e0 := mul_right_cancel₀ (mul_ne_zero hK (alternating_ne_zero _)) h0
    have e1 := mul_right_cancel₀ (mul_ne_zero hK (alternating_ne_zero _)) h1
    rw [← e0] at e1
    norm_num at e1

/-! ### C87 is violated within the tolerance -/

/-- Vacuum with permeability 1 at the first of two points and 1.00001 at the other: a difference within the tolerance of `np.allclose`. -/
noncomputable def nearlyUniform : Medium 3 demoGrid.shape :=
  ⟨fun _ => 1, fun _ => 0, fun _ => 0, fun x => (if (x 0).val = 0 then 1 else 1 + 1e-5 : ℂ) • 1⟩

/-- A transversal field. -/
noncomputable def transversalWave : Field 3 demoGrid.shape := fun c x => if c = 1 then alternating x else 0

theorem ft_alternating (y : Idx demoGrid.shape) : ft alternating y = if (y 0).val = 1 then 1 else 0 := by
  unfold alternating
  rw [C23_ft_ift]

theorem ft_zero_field : ft (fun _ : Idx demoGrid.shape => (0 : ℂ)) = fun _ => 0 := ft_isLinear.map_zero

theorem nyquist_ne_zero : (kOf demoGrid 0 nyquist : ℂ) ≠ 0 := by
  intro h
  refine negLaplacian_alternating ?_
  unfold negLaplacian
  have : (fun x : Idx demoGrid.shape => (∑ a, (kOf demoGrid a x : ℂ) ^ 2) * ft alternating x) = 0 := by
    funext x
    rw [ft_alternating]
    split_ifs with h1
    · have hx : x = nyquist := by
        funext a
        rw [Fin.fin_one_eq_zero a]
        exact Fin.ext h1
      rw [hx]
      simp [h]
    · simp
  rw [this]
  exact ift_isLinear.map_zero

theorem curl_transversal (c : Fin 3) (x : Idx demoGrid.shape) :
    Spec.Solver.curl (kOf demoGrid) transversalWave c x = if c = 2 then I * (kOf demoGrid 0 nyquist : ℂ) * alternating x else 0 := by
  unfold Spec.Solver.curl
  have e : (fun y => I * crossProduct (Spec.Backend.kVector (kOf demoGrid) y) (fun c' => ft (transversalWave c') y) c) =
      (if c = 2 then I * (kOf demoGrid 0 nyquist : ℂ) else 0) • fun y : Idx demoGrid.shape => if (y 0).val = 1 then (1 : ℂ) else 0 := by
    funext y
    have f0 : ft (transversalWave 0) y = 0 := congrFun ft_zero_field y
    have f1 : ft (transversalWave 1) y = if (y 0).val = 1 then 1 else 0 := ft_alternating y
    have f2 : ft (transversalWave 2) y = 0 := congrFun ft_zero_field y
    have hy : (kOf demoGrid 0 y : ℂ) * (if (y 0).val = 1 then 1 else 0) = (kOf demoGrid 0 nyquist : ℂ) * (if (y 0).val = 1 then 1 else 0) := by
      split_ifs with h1
      · have hx : y = nyquist := by
          funext a
          rw [Fin.fin_one_eq_zero a]
          exact Fin.ext h1
        rw [hx]
      · simp
    fin_cases c
    · simp [cross_apply, Spec.Backend.kVector, f0, f1, f2]
    · simp [cross_apply, Spec.Backend.kVector, f0, f1, f2]
    · simp only [cross_apply, Spec.Backend.kVector, f0, f1, f2]
      simp only [Pi.smul_apply, smul_eq_mul]
      simp at hy ⊢
      split_ifs at hy ⊢ with h1
      · rw [hy]
      · rfl
  rw [e, ift_isLinear.map_smul]
  simp only [Pi.smul_apply, smul_eq_mul, ite_mul, zero_mul]
  rfl

/-- The component of the double curl that matters, at the highest frequency. -/
theorem ft_doubleCurl (v : Idx demoGrid.shape → ℂ) :
    ft (Spec.Solver.curl (kOf demoGrid) (Spec.Solver.act (fun x => v x • (1 : Matrix (Fin 3) (Fin 3) ℂ)) (Spec.Solver.curl (kOf demoGrid) transversalWave)) 1) nyquist =
      (kOf demoGrid 0 nyquist : ℂ) ^ 2 * ft (fun x => v x * alternating x) nyquist := by
  have hact : ∀ c, Spec.Solver.act (fun x => v x • (1 : Matrix (Fin 3) (Fin 3) ℂ)) (Spec.Solver.curl (kOf demoGrid) transversalWave) c =
      (if c = 2 then I * (kOf demoGrid 0 nyquist : ℂ) else 0) • fun x => v x * alternating x := fun c => by
    funext x
    unfold Spec.Solver.act
    rw [Matrix.smul_mulVec, Matrix.one_mulVec, Pi.smul_apply, curl_transversal, smul_eq_mul, Pi.smul_apply, smul_eq_mul]
    split_ifs <;> ring
  rw [Spec.Solver.curl, C23_ft_ift]
  simp only [hact, ft_isLinear.map_smul, Pi.smul_apply, smul_eq_mul]
  simp [cross_apply, Spec.Backend.kVector]
  ring_nf
  rw [I_sq]
  ring

theorem act_identity {N : Fin d → ℕ} (F : Field n N) : Spec.Solver.act (fun _ => (1 : Matrix (Fin n) (Fin n) ℂ)) F = F := by
  funext c x
  unfold Spec.Solver.act
  rw [Matrix.one_mulVec]

/-- **C87 is violated**: the equation is not solved for the permeability that is given, for one that is within the tolerance but not uniform. -/
theorem C87_violates (k0 : ℝ) (hk0 : k0 ≠ 0) (tol alphaR : ℝ) (thickness : List ℝ) {alpha : ℂ} (hα : alpha.im ≠ 0) :
    (∀ x, ‖nearlyUniform.mu x 0 0 - nearlyUniform.mu (fun _ => (0 : Fin 2)) 0 0‖ ≤ 1e-8 + 1e-5 * ‖nearlyUniform.mu (fun _ => (0 : Fin 2)) 0 0‖) ∧
    ∃ S F : Field 3 demoGrid.shape,
      Preconditioned (.vectorial (show 1 ≤ 3 by decide)) (backendK demoGrid k0)
        (prepare nearlyUniform false alpha (nearlyUniform.constantsNonMagnetic tol k0 thickness 0 (fun _ => (0 : Fin 2)) alphaR).2 S F) ∧
      ¬ WaveEquation (kOf demoGrid) k0 nearlyUniform.epsilon nearlyUniform.mu S
        (getE k0 (prepare nearlyUniform false alpha (nearlyUniform.constantsNonMagnetic tol k0 thickness 0 (fun _ => (0 : Fin 2)) alphaR).2 S F)) := by
  have hfirst : nearlyUniform.mu (fun _ => (0 : Fin 2)) = 1 := by
    change ((if ((0 : Fin 2)).val = 0 then 1 else 1 + 1e-5 : ℂ) • (1 : Matrix (Fin 3) (Fin 3) ℂ)) = 1
    simp
  have hval : ∀ x, nearlyUniform.mu x = (if (x 0).val = 0 then 1 else 1 + 1e-5 : ℂ) • 1 := fun _ => rfl
  have hbeta : (nearlyUniform.constantsNonMagnetic tol k0 thickness 0 (fun _ => (0 : Fin 2)) alphaR).2 = 1 := by
    change ((nearlyUniform.mu (fun _ => (0 : Fin 2)))⁻¹ 0 0).re = 1
    rw [hfirst]
    simp
  rw [hbeta]
  have hE : ∀ S, getE k0 (prepare nearlyUniform false alpha 1 S fun c x => (k0 ^ 2 : ℝ) * transversalWave c x) = transversalWave := fun S => by
    rw [getE_prepare]
    funext c x
    exact mul_div_cancel_left₀ _ (ofReal_ne (pow_ne_zero 2 hk0))
  refine ⟨fun x => ?_, fun c x => ((1 : ℝ) : ℂ) * Spec.Solver.curl (kOf demoGrid) (Spec.Solver.curl (kOf demoGrid) transversalWave) c x - (k0 : ℂ) ^ 2 * transversalWave c x,
    fun c x => (k0 ^ 2 : ℝ) * transversalWave c x, ?_, fun h => ?_⟩
  · rw [hfirst, hval]
    by_cases h : (x 0).val = 0
    · simp [h]; norm_num
    · simp [h]; norm_num
  · rw [C87_equation demoGrid demo_step hk0 _ nearlyUniform hα one_ne_zero]
    rw [hE]
    intro c x
    have hone : (fun x : Idx demoGrid.shape => (((1 : ℝ) : ℂ)⁻¹ • (1 : Matrix (Fin 3) (Fin 3) ℂ))⁻¹) = fun _ => 1 := by
      funext x
      simp
    have heps : (fun x => nearlyUniform.epsilon x - nearlyUniform.xi x * ((nearlyUniform.mu x)⁻¹ * nearlyUniform.zeta x)) = fun _ => 1 := by
      funext x
      simp [nearlyUniform]
    rw [hone, heps, act_identity, act_identity]
    simp
  · rw [hE] at h
    have hinv : (fun x => (nearlyUniform.mu x)⁻¹) = fun x : Idx demoGrid.shape => ((if (x 0).val = 0 then 1 else 1 + 1e-5 : ℂ)⁻¹) • (1 : Matrix (Fin 3) (Fin 3) ℂ) := by
      funext x
      rw [hval, smul_one_inv]
      split_ifs <;> norm_num
    have heq : Spec.Solver.curl (kOf demoGrid) (Spec.Solver.act (fun x => (nearlyUniform.mu x)⁻¹) (Spec.Solver.curl (kOf demoGrid) transversalWave)) 1 =
        Spec.Solver.curl (kOf demoGrid) (Spec.Solver.act (fun _ => (1 : ℂ) • (1 : Matrix (Fin 3) (Fin 3) ℂ)) (Spec.Solver.curl (kOf demoGrid) transversalWave)) 1 := by
      funext x
      have hx := h 1 x
      rw [show nearlyUniform.epsilon = fun _ => 1 from rfl, act_identity, sub_left_inj, ofReal_one, one_mul] at hx
      rw [hx, one_smul, act_identity]
    have hft := congrFun (congrArg ft heq) nyquist
    rw [hinv, ft_doubleCurl, ft_doubleCurl] at hft
    have hc := mul_left_cancel₀ (pow_ne_zero 2 nyquist_ne_zero) hft
    rw [← sub_eq_zero, ← Pi.sub_apply, ← ft_isLinear.map_sub] at hc
    unfold ft at hc
    rw [Finset.sum_eq_single nyquist] at hc
    · rw [mul_eq_zero] at hc
      rcases hc with hc | hc
      · change ((if (1 : ℕ) = 0 then 1 else 1 + 1e-5 : ℂ)⁻¹) * alternating nyquist - 1 * alternating nyquist = 0 at hc
        rw [← sub_mul, mul_eq_zero] at hc
        rcases hc with hc | hc
        · norm_num at hc
        · exact alternating_ne_zero _ hc
      · exact Finset.prod_ne_zero_iff.mpr (fun a _ => exp_ne_zero _) hc
    · intro y _ hy
      have h0 : (y 0).val = 0 := by
        by_contra hn
        apply hy
        funext a
        rw [Fin.fin_one_eq_zero a]
        apply Fin.ext
        change (y 0).val = 1
        have : (y 0).val < 2 := (y 0).isLt
        omega
      simp [h0]
    · intro hn
      exact absurd (Finset.mem_univ _) hn

end Verif.Solver
