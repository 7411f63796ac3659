import Verif.Props.SolverCoupled
import Verif.Props.SolverToleranceViolates

/-!
# C89 is violated, and concrete cases
-/

namespace Verif.Solver

open Verif Verif.Fourier Verif.Backend Complex Matrix
open Verif.Spec.Solver (Coupled CoupledEquation absorbed PassiveCoupled AbsorbingCoupled Within)

theorem alternating_real (x : Idx demoGrid.shape) : (alternating x).im = 0 := by
  rw [alternating_eq]
  split_ifs <;> simp

/-- With the source for which a field solves the equation with exchanged coupling, the iteration converges to that field. -/
theorem exchanged_converges {d : ℕ} {g : Grid.Obj d ℝ} (hs : ∀ a, g.step a ≠ 0) {k0 : ℝ} (hk0 : 0 < k0) (hd : d ≤ 3) {m : Medium 3 g.shape}
    (hinv : ∀ x, IsUnit (m.mu x).det) (thickness : List ℝ) {vec : ℝ × ℝ} (hv : vec.2 ≠ 0)
    (hp : AbsorbingCoupled m.exchanged.epsilon m.exchanged.xi m.exchanged.zeta m.exchanged.mu) (E F : Field 3 g.shape) :
    let c := m.constantsMagnetic g.step k0 thickness vec
    ConvergesExponentially (.vectorial hd) (backendK g k0) k0
      (prepare m true c.1 c.2 (coupledOp (backendK g k0) m.exchanged (((k0 : ℂ) ^ 2) • E)) F) E := by
  intro c
  obtain ⟨E', -, hu, hc⟩ := C89_absorbing hs hk0 hd hinv thickness hv hp (coupledOp (backendK g k0) m.exchanged (((k0 : ℂ) ^ 2) • E)) F
  have : E = E' := hu _ ((coupled_iff hk0.ne' (C31_backend g hs hk0.ne') (m := m.exchanged) hinv _ _).2 rfl)
  rw [← this] at hc
  exact hc

/-- A Tellegen material that absorbs, with coupling that depends on the position. -/
noncomputable def absorbingTellegen : Medium 3 demoGrid.shape := ⟨fun _ => (1 + I) • 1, fun x => alternating x • 1, fun x => alternating x • 1, fun _ => (1 : ℂ) • 1⟩

theorem absorbingTellegen_isotropic : Isotropic absorbingTellegen (fun _ => 1 + I) alternating alternating fun _ => 1 :=
  ⟨fun _ => rfl, fun _ => rfl, fun _ => rfl, fun _ => rfl, fun _ => one_ne_zero⟩

theorem absorbingTellegen_absorbing : AbsorbingCoupled absorbingTellegen.epsilon absorbingTellegen.xi absorbingTellegen.zeta absorbingTellegen.mu := by
  refine ⟨1, one_pos, fun x e h => le_of_eq ?_⟩
  have h1 : star h ⬝ᵥ e = star (star e ⬝ᵥ h) := Matrix.star_dotProduct _ _
  simp only [absorbed, absorbingTellegen, Matrix.smul_mulVec, Matrix.one_mulVec, dotProduct_add, dotProduct_smul, smul_eq_mul, one_mul, h1, star_dot_self]
  have := alternating_real x
  simp only [add_im, mul_im, add_re, one_re, I_re, one_im, I_im, ofReal_re, ofReal_im, this, RCLike.star_def, conj_im, conj_re]
  ring

/-- **C89 is violated**: there is an isotropic material that absorbs everywhere, and a source, so that the iteration converges to a field that is not a solution of Maxwell's equations,
whatever the initial field, the boundary, and what the optimizer returns. -/
theorem C89_violates (thickness : List ℝ) {vec : ℝ × ℝ} (hv : vec.2 ≠ 0) :
    AbsorbingCoupled absorbingTellegen.epsilon absorbingTellegen.xi absorbingTellegen.zeta absorbingTellegen.mu ∧
    ∃ S E : Field 3 demoGrid.shape, ¬ CoupledEquation (kOf demoGrid) 1 absorbingTellegen.epsilon absorbingTellegen.xi absorbingTellegen.zeta absorbingTellegen.mu S E ∧
      ∀ F, let c := absorbingTellegen.constantsMagnetic demoGrid.step 1 thickness vec
        ConvergesExponentially (.vectorial (by decide)) (backendK demoGrid 1) 1 (prepare absorbingTellegen true c.1 c.2 S F) E := by
  refine ⟨absorbingTellegen_absorbing, coupledOp (backendK demoGrid 1) absorbingTellegen.exchanged constantY, constantY, fun h => ?_, fun F => ?_⟩
  · have hinv := absorbingTellegen_isotropic.invertible
    rw [coupled_iff one_ne_zero (C31_backend demoGrid demo_step one_ne_zero) hinv, ofReal_one, one_pow, one_smul] at h
    unfold coupledOp at h
    rw [show absorbingTellegen.exchanged.chiEHBeta = absorbingTellegen.chiHEBeta from funext (exchanged_EH hinv),
      show absorbingTellegen.exchanged.chiHEBeta = absorbingTellegen.chiEHBeta from funext (exchanged_HE hinv),
      show absorbingTellegen.exchanged.epsilonPrime = absorbingTellegen.epsilonPrime from funext (exchanged_epsilonPrime hinv),
      show absorbingTellegen.exchanged.muInv = absorbingTellegen.muInv from rfl] at h
    have h0 : curl 3 (backendK demoGrid 1) constantY = 0 := curl_uniform (backendK_origin demoGrid demo_step one_ne_zero) fun c => if c = 1 then 1 else 0
    have e1 : mulField absorbingTellegen.chiEHBeta constantY = -I • fun c x => alternating x * constantY c x := by
      funext c x
      simp [mulField, absorbingTellegen, Medium.chiEHBeta, Medium.muInv, Matrix.one_apply, mul_assoc]
    have e2 : mulField absorbingTellegen.chiHEBeta constantY = I • fun c x => alternating x * constantY c x := by
      funext c x
      simp [mulField, absorbingTellegen, Medium.chiHEBeta, Medium.muInv, Matrix.one_apply, mul_assoc]
    have hL := curl_isLinear (n := 3) (m := 3) (backendK demoGrid 1)
    rw [h0, e1, e2, (mulField_isLinear absorbingTellegen.muInv).map_zero, (mulField_isLinear absorbingTellegen.chiEHBeta).map_zero,
      (mulField_isLinear absorbingTellegen.chiHEBeta).map_zero, sub_zero, sub_zero, hL.map_smul, hL.map_smul, sub_left_inj, sub_right_inj] at h
    apply curl_alternating
    have h2 : (2 * I) • curl 3 (backendK demoGrid 1) (fun c x => alternating x * constantY c x) = 0 := by
      rw [two_mul, add_smul]
      nth_rewrite 1 [h]
      rw [neg_smul, neg_add_cancel]
    exact (smul_eq_zero.1 h2).resolve_left (by simp)
  · have := exchanged_converges demo_step one_pos (by decide) absorbingTellegen_isotropic.invertible thickness hv
      ((C89_passive absorbingTellegen_isotropic).2.2 absorbingTellegen_absorbing) constantY F
    rw [ofReal_one, one_pow, one_smul] at this
    exact this

/-! ### Materials without gain that become materials with gain -/

/-- A uniform anisotropic material that absorbs. -/
noncomputable def anisotropic : Medium 3 demoGrid.shape :=
  ⟨fun _ => !![1 + 2 * I, 0, 0; 0, 1 + I / 4, 0; 0, 0, 1 + I / 4], fun _ => !![0, I, 0; 0, 0, 0; 0, 0, 0], fun _ => !![0, 0, 0; I, 0, 0; 0, 0, 0], fun _ => (1 + I) • 1⟩

/-- **C89 (gain).** The exchange can turn a material that absorbs into one with gain, to which `C89_converges` does not apply. -/
theorem C89_gain : AbsorbingCoupled anisotropic.epsilon anisotropic.xi anisotropic.zeta anisotropic.mu ∧
    ¬ PassiveCoupled anisotropic.exchanged.epsilon anisotropic.exchanged.xi anisotropic.exchanged.zeta anisotropic.exchanged.mu := by
  have hI : (1 + I : ℂ) ≠ 0 := by intro h; have := congrArg Complex.im h; simp at this
  have hn : (1 + I : ℂ)⁻¹ = 1 / 2 - I / 2 := by
    refine inv_eq_of_mul_eq_one_right ?_
    ring_nf
    rw [I_sq]
    ring
  constructor
  · refine ⟨1 / 4, by norm_num, fun x e h => ?_⟩
    simp only [absorbed, anisotropic, Matrix.mulVec, dotProduct, Fin.sum_univ_three, Pi.star_apply, RCLike.star_def, Pi.add_apply]
    simp [← normSq_eq_norm_sq, normSq_apply]
    nlinarith [sq_nonneg ((e 0).re + (h 1).re), sq_nonneg ((e 0).im + (h 1).im), sq_nonneg (e 0).re, sq_nonneg (e 0).im, sq_nonneg (h 0).re, sq_nonneg (h 0).im,
      sq_nonneg (h 2).re, sq_nonneg (h 2).im]
  · intro hp
    have := hp (fun _ => (0 : Fin 2)) ![0, 1, 0] ![1, 0, 0]
    simp only [absorbed, Medium.exchanged, anisotropic, smul_one_inv hI, hn] at this
    simp [Matrix.mulVec, dotProduct, Fin.sum_univ_three, Matrix.one_apply] at this
    norm_num at this

/-- A chiral material that absorbs, with a chirality that depends on the position. -/
noncomputable def absorbingChiral : Medium 3 demoGrid.shape :=
  ⟨fun _ => (1 + I) • 1, fun x => (alternating x * I) • 1, fun x => (-(alternating x * I)) • 1, fun _ => (1 : ℂ) • 1⟩

/-- The hypotheses of `C89_reciprocal_partial` are met. -/
example (S F : Field 3 demoGrid.shape) :
    let c := absorbingChiral.constantsMagnetic demoGrid.step 1 [] (1, 1)
    ∃ E, CoupledEquation (kOf demoGrid) 1 absorbingChiral.epsilon absorbingChiral.xi absorbingChiral.zeta absorbingChiral.mu S E ∧
      (∀ E', CoupledEquation (kOf demoGrid) 1 absorbingChiral.epsilon absorbingChiral.xi absorbingChiral.zeta absorbingChiral.mu S E' → E' = E) ∧
      ConvergesExponentially (.vectorial (by decide)) (backendK demoGrid 1) 1 (prepare absorbingChiral true c.1 c.2 S F) E := by
  refine C89_reciprocal_partial demo_step one_pos (by decide) (fun x => by simp [absorbingChiral]) [] (vec := (1, 1)) one_ne_zero (fun x => by simp [absorbingChiral]) ?_ S F
  refine ⟨1, one_pos, fun x e h => le_of_eq ?_⟩
  have h1 : star h ⬝ᵥ e = star (star e ⬝ᵥ h) := Matrix.star_dotProduct _ _
  simp only [absorbed, absorbingChiral, Matrix.smul_mulVec, Matrix.one_mulVec, dotProduct_add, dotProduct_smul, smul_eq_mul, one_mul, h1, star_dot_self]
  have := alternating_real x
  simp only [add_im, mul_im, add_re, one_re, I_re, one_im, I_im, ofReal_re, ofReal_im, this, RCLike.star_def, conj_im, conj_re, neg_im, neg_re, mul_re]
  ring

end Verif.Solver
