import Verif.Spec.Coupled
import Verif.Props.SolverBias
import Verif.Props.SolverFields
import Verif.Props.ProblemRuns

/-!
# C89: materials with magneto-electric coupling
-/

namespace Verif.Solver

open Verif Verif.Fourier Verif.Backend Complex Matrix
open Verif.Spec.Solver (Coupled CoupledEquation absorbed PassiveCoupled AbsorbingCoupled Within)

variable {d : ℕ} {N : Fin d → ℕ}

/-- The material for which the code solves Maxwell's equations when it is given the material `m`: the terms with the two coupling tensors are exchanged. -/
noncomputable def Medium.exchanged (m : Medium 3 N) : Medium 3 N where
  epsilon := fun x => m.epsilon x - m.xi x * ((m.mu x)⁻¹ * m.zeta x) + (m.mu x)⁻¹ * m.zeta x * (m.mu x * m.xi x * (m.mu x)⁻¹)
  xi := fun x => -((m.mu x)⁻¹ * m.zeta x * m.mu x)
  zeta := fun x => -(m.mu x * m.xi x * (m.mu x)⁻¹)
  mu := m.mu

theorem epsilonPrime_eq_sub (m : Medium 3 N) (x : Idx N) : m.epsilonPrime x = m.epsilon x - m.xi x * ((m.mu x)⁻¹ * m.zeta x) := by
  rw [Medium.epsilonPrime, Medium.chiHEBeta, smul_smul, neg_mul, I_mul_I, neg_neg, one_smul]
  rfl

section
variable {m : Medium 3 N} (hinv : ∀ x, IsUnit (m.mu x).det)
include hinv

theorem exchanged_EH (x : Idx N) : m.exchanged.chiEHBeta x = m.chiHEBeta x := by
  simp only [Medium.chiEHBeta, Medium.chiHEBeta, Medium.muInv, Medium.exchanged]
  rw [Matrix.neg_mul, Matrix.mul_assoc _ (m.mu x), Matrix.mul_nonsing_inv _ (hinv x), Matrix.mul_one, smul_neg, neg_smul, neg_neg]

theorem exchanged_HE (x : Idx N) : m.exchanged.chiHEBeta x = m.chiEHBeta x := by
  simp only [Medium.chiEHBeta, Medium.chiHEBeta, Medium.muInv, Medium.exchanged]
  rw [Matrix.mul_neg, Matrix.mul_assoc (m.mu x), ← Matrix.mul_assoc (m.mu x)⁻¹, Matrix.nonsing_inv_mul _ (hinv x), Matrix.one_mul, smul_neg, neg_smul]

theorem exchanged_epsilonPrime (x : Idx N) : m.exchanged.epsilonPrime x = m.epsilonPrime x := by
  rw [epsilonPrime_eq_sub, epsilonPrime_eq_sub]
  simp only [Medium.exchanged]
  have e : -((m.mu x)⁻¹ * m.zeta x * m.mu x) * ((m.mu x)⁻¹ * -(m.mu x * m.xi x * (m.mu x)⁻¹)) = (m.mu x)⁻¹ * m.zeta x * (m.mu x * m.xi x * (m.mu x)⁻¹) := by
    rw [Matrix.mul_neg, Matrix.neg_mul, Matrix.mul_neg, neg_neg, ← Matrix.mul_assoc, Matrix.mul_assoc _ (m.mu x) (m.mu x)⁻¹, Matrix.mul_nonsing_inv _ (hinv x), Matrix.mul_one]
  rw [e, add_sub_cancel_right]

end

/-- The operator for the electric field that follows from Maxwell's equations, in the units of the back end. -/
noncomputable def coupledOp (k : Fin d → Idx N → ℝ) (m : Medium 3 N) (F : Field 3 N) : Field 3 N :=
  curl 3 k (mulField m.muInv (curl 3 k F)) - curl 3 k (mulField m.chiHEBeta F) - mulField m.chiEHBeta (curl 3 k F) - mulField m.epsilonPrime F

theorem waveOp_eq_coupled (k : Fin d → Idx N → ℝ) (beta : ℝ) (hd : d ≤ 3) {m : Medium 3 N} (hinv : ∀ x, IsUnit (m.mu x).det) (F : Field 3 N) :
    waveOp k beta (.vectorial hd) m F = coupledOp k m.exchanged F := by
  simp only [waveOp, coupledOp]
  rw [show m.exchanged.chiEHBeta = m.chiHEBeta from funext (exchanged_EH hinv), show m.exchanged.chiHEBeta = m.chiEHBeta from funext (exchanged_HE hinv),
    show m.exchanged.epsilonPrime = m.epsilonPrime from funext (exchanged_epsilonPrime hinv)]
  rfl

/-- Maxwell's equations without the magnetic field. -/
theorem coupled_iff {k kp : Fin d → Idx N → ℝ} {k0 : ℝ} (hk0 : k0 ≠ 0) (hkp : ∀ a x, kp a x = k0 * k a x) {m : Medium 3 N} (hinv : ∀ x, IsUnit (m.mu x).det)
    (S E : Field 3 N) : CoupledEquation kp k0 m.epsilon m.xi m.zeta m.mu S E ↔ coupledOp k m (((k0 : ℂ) ^ 2) • E) = S := by
  have hk := ofReal_ne hk0
  have hL := curl_isLinear (n := 3) (m := 3) k
  have hmi : ∀ F : Field 3 N, mulField m.mu (mulField m.muInv F) = F := fun F => by
    rw [← mulField_mul, show (fun x => m.mu x * m.muInv x) = fun _ => 1 from funext fun x => Matrix.mul_nonsing_inv _ (hinv x), mulField_one]
  have him : ∀ F : Field 3 N, mulField m.muInv (mulField m.mu F) = F := fun F => by
    rw [← mulField_mul, show (fun x => m.muInv x * m.mu x) = fun _ => 1 from funext fun x => Matrix.nonsing_inv_mul _ (hinv x), mulField_one]
  have hHE : ∀ F : Field 3 N, mulField m.chiHEBeta F = I • mulField m.muInv (mulField m.zeta F) := fun F => by
    rw [← mulField_mul, ← mulField_smul_left]
    rfl
  have hEH : ∀ F : Field 3 N, mulField m.chiEHBeta F = -I • mulField m.xi (mulField m.muInv F) := fun F => by
    rw [← mulField_mul, ← mulField_smul_left]
    rfl
  have hEp : mulField m.epsilonPrime E = mulField m.epsilon E - mulField m.xi (mulField m.muInv (mulField m.zeta E)) := by
    rw [← mulField_mul, ← mulField_mul, ← mulField_sub_left]
    exact congrArg (mulField · E) (funext fun x => (epsilonPrime_eq_sub m x).trans (by rw [Matrix.mul_assoc]; rfl))
  have first : ∀ H : Field 3 N, (∀ c x, Spec.Solver.curl kp E c x = I * k0 * (Spec.Solver.act m.zeta E c x + Spec.Solver.act m.mu H c x)) ↔
      H = -I • mulField m.muInv (curl 3 k E) - mulField m.muInv (mulField m.zeta E) := by
    intro H
    have e : (∀ c x, Spec.Solver.curl kp E c x = I * k0 * (Spec.Solver.act m.zeta E c x + Spec.Solver.act m.mu H c x)) ↔
        curl 3 k E = I • (mulField m.zeta E + mulField m.mu H) := by
      rw [spec_curl, curl_scale k kp k0 hkp, spec_act, spec_act]
      constructor
      · intro h
        funext c x
        have := h c x
        simp only [Pi.smul_apply, smul_eq_mul] at this
        simp only [Pi.smul_apply, smul_eq_mul, Pi.add_apply]
        exact mul_left_cancel₀ hk (this.trans (by ring))
      · intro h c x
        rw [h]
        simp only [Pi.smul_apply, smul_eq_mul, Pi.add_apply]
        ring
    rw [e]
    constructor
    · intro h
      rw [h, (mulField_isLinear _).map_smul, (mulField_isLinear _).map_add, him, smul_smul, neg_mul, I_mul_I, neg_neg, one_smul, add_sub_cancel_left]
    · intro h
      rw [h, (mulField_isLinear _).map_sub, (mulField_isLinear _).map_smul, hmi, hmi, add_sub_cancel, smul_smul, mul_neg, I_mul_I, neg_neg, one_smul]
  have second : (∀ c x, Spec.Solver.curl kp (-I • mulField m.muInv (curl 3 k E) - mulField m.muInv (mulField m.zeta E)) c x =
      -I * k0 * (Spec.Solver.act m.epsilon E c x + Spec.Solver.act m.xi (-I • mulField m.muInv (curl 3 k E) - mulField m.muInv (mulField m.zeta E)) c x) - I / k0 * S c x) ↔
      coupledOp k m (((k0 : ℂ) ^ 2) • E) = S := by
    have hop : coupledOp k m (((k0 : ℂ) ^ 2) • E) = ((k0 : ℂ) ^ 2) • (curl 3 k (mulField m.muInv (curl 3 k E)) - I • curl 3 k (mulField m.muInv (mulField m.zeta E))
        + I • mulField m.xi (mulField m.muInv (curl 3 k E)) - (mulField m.epsilon E - mulField m.xi (mulField m.muInv (mulField m.zeta E)))) := by
      unfold coupledOp
      rw [hL.map_smul, (mulField_isLinear m.muInv).map_smul, (mulField_isLinear m.chiHEBeta).map_smul, (mulField_isLinear m.chiEHBeta).map_smul,
        (mulField_isLinear m.epsilonPrime).map_smul, hL.map_smul, hL.map_smul, hHE, hEH, hEp, hL.map_smul]
      module
    rw [hop, spec_curl, curl_scale k kp k0 hkp, spec_act, spec_act, hL.map_sub, hL.map_smul, (mulField_isLinear m.xi).map_sub, (mulField_isLinear m.xi).map_smul]
    set a := curl 3 k (mulField m.muInv (curl 3 k E))
    set b := curl 3 k (mulField m.muInv (mulField m.zeta E))
    set u := mulField m.xi (mulField m.muInv (curl 3 k E))
    set v := mulField m.epsilon E
    set w := mulField m.xi (mulField m.muInv (mulField m.zeta E))
    constructor
    · intro h
      funext c x
      have := h c x
      simp only [Pi.smul_apply, Pi.sub_apply, Pi.add_apply, smul_eq_mul] at this ⊢
      have h2 : I / (k0 : ℂ) * S c x = I / (k0 : ℂ) * ((k0 : ℂ) ^ 2 * (a c x - I * b c x + I * u c x - (v c x - w c x))) := by
        have e : I / (k0 : ℂ) * S c x = -I * k0 * (v c x + (-I * u c x - w c x)) - (k0 : ℂ) * (-I * a c x - b c x) := by rw [this]; ring
        rw [e]
        field_simp
        linear_combination (b c x) * I_sq
      exact (mul_left_cancel₀ (div_ne_zero I_ne_zero hk) h2).symm
    · intro h c x
      rw [← h]
      simp only [Pi.smul_apply, Pi.sub_apply, Pi.add_apply, smul_eq_mul]
      field_simp
      linear_combination -(b c x) * I_sq
  constructor
  · rintro ⟨H, h1, h2⟩
    rw [(first H).1 h1] at h2
    exact second.1 h2
  · intro h
    exact ⟨_, (first _).2 rfl, second.2 h⟩

/-! ### Absorption -/

/-- The absorbed power, expressed in the electric field and its curl. -/
theorem absorbed_eq (epsilon xi zeta mu : Matrix (Fin 3) (Fin 3) ℂ) (hmu : IsUnit mu.det) (e c : Fin 3 → ℂ) :
    absorbed epsilon xi zeta mu e (mu⁻¹.mulVec ((-I) • c - zeta.mulVec e)) =
      (star e ⬝ᵥ (epsilon - xi * (mu⁻¹ * zeta)).mulVec e - star c ⬝ᵥ mu⁻¹.mulVec c + star c ⬝ᵥ (I • (mu⁻¹ * zeta)).mulVec e + star e ⬝ᵥ ((-I) • (xi * mu⁻¹)).mulVec c).im := by
  unfold absorbed
  set h := mu⁻¹.mulVec ((-I) • c - zeta.mulVec e) with hh
  have e1 : zeta.mulVec e + mu.mulVec h = (-I) • c := by
    rw [hh, Matrix.mulVec_mulVec, Matrix.mul_nonsing_inv _ hmu, Matrix.one_mulVec, add_sub_cancel]
  have e2 : star h ⬝ᵥ c = star (star c ⬝ᵥ h) := Matrix.star_dotProduct _ _
  have e3 : epsilon.mulVec e + xi.mulVec h = (epsilon - xi * (mu⁻¹ * zeta)).mulVec e + ((-I) • (xi * mu⁻¹)).mulVec c := by
    rw [hh, Matrix.mulVec_sub, Matrix.mulVec_sub, Matrix.mulVec_smul, Matrix.mulVec_smul, Matrix.mulVec_mulVec, Matrix.mulVec_mulVec, Matrix.mulVec_mulVec, Matrix.sub_mulVec,
      Matrix.smul_mulVec, ← Matrix.mul_assoc]
    abel
  have e4 : star c ⬝ᵥ h = -I * (star c ⬝ᵥ mu⁻¹.mulVec c) - star c ⬝ᵥ (mu⁻¹ * zeta).mulVec e := by
    rw [hh, Matrix.mulVec_sub, Matrix.mulVec_smul, Matrix.mulVec_mulVec, dotProduct_sub, dotProduct_smul, smul_eq_mul]
  rw [e1, e3, dotProduct_add, dotProduct_smul, e2, e4, Matrix.smul_mulVec I, dotProduct_smul, smul_eq_mul, smul_eq_mul]
  simp only [add_im, sub_im, mul_im, neg_re, neg_im, I_re, I_im, star_sub, star_mul, RCLike.star_def, conj_re, conj_im, sub_re, mul_re, map_neg, conj_I]
  ring

theorem coupled_im (hd : d ≤ 3) (k : Fin d → Idx N → ℝ) {m : Medium 3 N} (hinv : ∀ x, IsUnit (m.mu x).det) (alphaR beta : ℝ) (F : Field 3 N) :
    (dot F (deviation k alphaR beta (.vectorial hd) m F)).im = ∑ x, absorbed (m.exchanged.epsilon x) (m.exchanged.xi x) (m.exchanged.zeta x) (m.mu x) (fun j => F j x)
      ((m.mu x)⁻¹.mulVec ((-I) • (fun j => curl 3 k F j x) - (m.exchanged.zeta x).mulVec fun j => F j x)) := by
  rw [deviation_im_vectorial]
  refine Finset.sum_congr rfl fun x _ => ?_
  rw [absorbed_eq _ _ _ _ (hinv x)]
  have h1 := exchanged_epsilonPrime hinv x
  rw [epsilonPrime_eq_sub] at h1
  have h2 := exchanged_HE hinv x
  have h3 := exchanged_EH hinv x
  rw [← h2, ← h3, ← h1]
  rfl

section Runs
variable {g : Grid.Obj d ℝ} (hs : ∀ a, g.step a ≠ 0) {k0 : ℝ} (hk0 : 0 < k0) (hd : d ≤ 3) {m : Medium 3 g.shape} (hinv : ∀ x, IsUnit (m.mu x).det)
include hs hk0 hinv

/-- **C89.** For all materials with an invertible permeability that are found to be magnetic, the fields that the iteration leaves unchanged are the solutions of Maxwell's equations for
the material with the exchanged coupling. -/
theorem C89_equation {alpha : ℂ} (hα : alpha.im ≠ 0) {beta : ℝ} (hβ : beta ≠ 0) (S F : Field 3 g.shape) :
    Preconditioned (.vectorial hd) (backendK g k0) (prepare m true alpha beta S F) ↔
      CoupledEquation (kOf g) k0 m.exchanged.epsilon m.exchanged.xi m.exchanged.zeta m.exchanged.mu S (getE k0 (prepare m true alpha beta S F)) := by
  rw [preconditioned_iff (backendK_origin g hs hk0.ne') (.vectorial hd) m true hα hβ S F (.inl rfl),
    coupled_iff hk0.ne' (C31_backend g hs hk0.ne') (m := m.exchanged) hinv, ← field_getE hk0.ne', waveOp_eq_coupled _ _ _ hinv]
  rfl

variable (thickness : List ℝ) {vec : ℝ × ℝ} (hv : vec.2 ≠ 0)
include hv

omit hinv in
theorem coupled_norm : ∃ σ, 0 ≤ σ ∧ σ < (m.constantsMagnetic g.step k0 thickness vec).1.im * (m.constantsMagnetic g.step k0 thickness vec).2 ∧
    ∀ F, Backend.norm (deviation (backendK g k0) (m.constantsMagnetic g.step k0 thickness vec).1.re (m.constantsMagnetic g.step k0 thickness vec).2 (.vectorial hd) m F) ≤
      σ * Backend.norm F := by
  obtain ⟨sE, sM, sEH, sHE, h1, h2, h3, h4, w1, w2, w3, w4, hlt⟩ := C36_bias_magnetic m g.step k0 thickness vec hv
  have hD := sigmaD_nonneg g.step hk0
  refine ⟨_, by positivity, hlt, fun F => deviation_norm_vectorial hd (backendK g k0) hD (fun x => ?_) m h1 h2 h3 h4 w1 w2 w3 w4 F⟩
  have := kOf_le g hs hk0 x
  simp only [C31_backend g hs hk0.ne', mul_pow, ← Finset.mul_sum] at this
  exact le_of_mul_le_mul_left this (by positivity)

/-- **C89 (convergence).** If the material with the exchanged coupling is passive, then for the constants that the code selects, whatever the optimizer returns, the iteration converges to a solution
of its equations, if there is one. -/
theorem C89_converges (hp : PassiveCoupled m.exchanged.epsilon m.exchanged.xi m.exchanged.zeta m.exchanged.mu) (S F E0 : Field 3 g.shape)
    (hE0 : CoupledEquation (kOf g) k0 m.exchanged.epsilon m.exchanged.xi m.exchanged.zeta m.exchanged.mu S E0) :
    let c := m.constantsMagnetic g.step k0 thickness vec
    ∃ E, CoupledEquation (kOf g) k0 m.exchanged.epsilon m.exchanged.xi m.exchanged.zeta m.exchanged.mu S E ∧
      ConvergesTo (.vectorial hd) (backendK g k0) k0 (prepare m true c.1 c.2 S F) E := by
  intro c
  obtain ⟨σ, h0, hσ, hn⟩ := coupled_norm hs hk0 hd (m := m) thickness hv
  have hbp : 0 < c.2 := by
    change 0 < vec.2 ^ 2
    positivity
  have him : 0 < c.1.im := pos_of_mul_pos_left (h0.trans_lt hσ) hbp.le
  have hk2 : ((k0 : ℂ) ^ 2) ≠ 0 := pow_ne_zero 2 (ofReal_ne hk0.ne')
  have hw : ∀ E, CoupledEquation (kOf g) k0 m.exchanged.epsilon m.exchanged.xi m.exchanged.zeta m.exchanged.mu S E ↔
      waveOp (backendK g k0) c.2 (.vectorial hd) m (((k0 : ℂ) ^ 2) • E) = S := fun E => by
    rw [coupled_iff hk0.ne' (C31_backend g hs hk0.ne') (m := m.exchanged) hinv, waveOp_eq_coupled _ _ _ hinv]
  obtain ⟨P, hP, hq⟩ := converges (backendK_origin g hs hk0.ne') (.vectorial hd) him hbp (.inl rfl : Consistent m true c.2) hn (fun F => by
    rw [coupled_im hd _ hinv]
    exact Finset.sum_nonneg fun x _ => hp x _ _) hσ S F _ ((hw E0).1 hE0)
  have hPE : P = ((k0 : ℂ) ^ 2) • (((k0 : ℂ) ^ 2)⁻¹ • P) := by rw [smul_smul, mul_inv_cancel₀ hk2, one_smul]
  refine ⟨((k0 : ℂ) ^ 2)⁻¹ • P, (hw _).2 (by rw [← hPE]; exact hP), fun δ hδ => ?_⟩
  have hpos : 0 < k0 ^ 2 := by positivity
  obtain ⟨j0, hj0⟩ := hq (k0 ^ 2 * δ) (mul_pos hpos hδ)
  refine ⟨j0, fun i hi => ?_⟩
  rcases hj0 i hi with ⟨t, ht, hn⟩ | ⟨he, j, hj, t, ht, hf⟩
  · refine .inl ⟨t, ht, ?_⟩
    rw [hPE, norm_getE_sub hk0.ne'] at hn
    exact lt_of_mul_lt_mul_left hn hpos.le
  · refine .inr ⟨he, j, hj, t, ht, ?_⟩
    rw [field_getE hk0.ne', hPE] at hf
    exact smul_right_injective _ hk2 hf

/-- **C89 (absorption).** If moreover it absorbs a little everywhere, there is exactly one solution, and the error decreases exponentially. -/
theorem C89_absorbing (hp : AbsorbingCoupled m.exchanged.epsilon m.exchanged.xi m.exchanged.zeta m.exchanged.mu) (S F : Field 3 g.shape) :
    let c := m.constantsMagnetic g.step k0 thickness vec
    ∃ E, CoupledEquation (kOf g) k0 m.exchanged.epsilon m.exchanged.xi m.exchanged.zeta m.exchanged.mu S E ∧
      (∀ E', CoupledEquation (kOf g) k0 m.exchanged.epsilon m.exchanged.xi m.exchanged.zeta m.exchanged.mu S E' → E' = E) ∧
      ConvergesExponentially (.vectorial hd) (backendK g k0) k0 (prepare m true c.1 c.2 S F) E := by
  intro c
  obtain ⟨σ, h0, hσ, hn⟩ := coupled_norm hs hk0 hd (m := m) thickness hv
  have hbp : 0 < c.2 := by
    change 0 < vec.2 ^ 2
    positivity
  have him : 0 < c.1.im := pos_of_mul_pos_left (h0.trans_lt hσ) hbp.le
  have hk2 : ((k0 : ℂ) ^ 2) ≠ 0 := pow_ne_zero 2 (ofReal_ne hk0.ne')
  have hw : ∀ S E, CoupledEquation (kOf g) k0 m.exchanged.epsilon m.exchanged.xi m.exchanged.zeta m.exchanged.mu S E ↔
      waveOp (backendK g k0) c.2 (.vectorial hd) m (((k0 : ℂ) ^ 2) • E) = S := fun S E => by
    rw [coupled_iff hk0.ne' (C31_backend g hs hk0.ne') (m := m.exchanged) hinv, waveOp_eq_coupled _ _ _ hinv]
  obtain ⟨δ, hδ, hab⟩ := hp
  have him' : ∀ F, δ * Backend.norm F ^ 2 ≤ (dot F (deviation (backendK g k0) c.1.re c.2 (.vectorial hd) m F)).im := fun F => by
    rw [coupled_im hd _ hinv, norm_sq, Finset.sum_comm, Finset.mul_sum]
    exact Finset.sum_le_sum fun x _ => hab x _ _
  have hu : ∀ E, waveOp (backendK g k0) c.2 (.vectorial hd) m E = 0 → E = 0 := by
    intro F hF
    have hdev := chiOp_prepared (backendK g k0) (.vectorial hd) m true him.ne' hbp.ne' 0 0 F (.inl rfl)
    have e : deviation (backendK g k0) c.1.re c.2 (.vectorial hd) m F =
        (c.2 : ℂ) • curlCurl (backendK g k0) (.vectorial hd) F - ((c.1.re * c.2 : ℝ) : ℂ) • F - waveOp (backendK g k0) c.2 (.vectorial hd) m F := by
      simp only [deviation, waveOp, curlCurl]
      rw [mulField_sub_real, mulField_sub_real, (curl_isLinear (n := 3) (m := 3) _).map_sub, (curl_isLinear (n := 3) (m := 3) _).map_smul]
      module
    have h1 := him' F
    rw [e, hF, sub_zero, dot_sub, sub_im, im_dot_real, dot_smul, im_ofReal_mul] at h1
    have h2 : (dot F (curlCurl (backendK g k0) (.vectorial hd) F)).im = 0 := by
      simp only [curlCurl]
      rw [curl_adjoint, dot_self_im]
    rw [h2, mul_zero, sub_zero] at h1
    have h3 : Backend.norm F ^ 2 ≤ 0 := by
      by_contra hne
      push Not at hne
      have := mul_pos hδ hne
      linarith
    exact (norm_eq_zero_iff F).1 (pow_eq_zero_iff two_ne_zero |>.1 (le_antisymm h3 (sq_nonneg _)))
  obtain ⟨P, hP, hq⟩ := converges_unique (backendK_origin g hs hk0.ne') (.vectorial hd) him hbp (.inl rfl : Consistent m true c.2) hn (fun F => by
    exact le_trans (by positivity) (him' F)) hσ hu S F
  have hPE : P = ((k0 : ℂ) ^ 2) • (((k0 : ℂ) ^ 2)⁻¹ • P) := by rw [smul_smul, mul_inv_cancel₀ hk2, one_smul]
  set E := ((k0 : ℂ) ^ 2)⁻¹ • P with hE
  refine ⟨E, (hw S E).2 (by rw [← hPE]; exact hP), fun E' hE' => ?_, (hPE ▸ hq).electric hk0.ne'⟩
  have h1 := (hw S E').1 hE'
  have h2 := hu (((k0 : ℂ) ^ 2) • E' - P) (by rw [(waveOp_isLinear _ _ _ m).map_sub, h1, hP, sub_self])
  rw [sub_eq_zero, hPE] at h2
  exact smul_right_injective _ hk2 h2

end Runs

/-! ### Materials of which the coupling can be exchanged -/

theorem exchanged_reciprocal {m : Medium 3 N} (hinv : ∀ x, IsUnit (m.mu x).det) (hx : ∀ x, m.xi x * (m.mu x)⁻¹ = - ((m.mu x)⁻¹ * m.zeta x)) : m.exchanged = m := by
  have h1 : ∀ x, -((m.mu x)⁻¹ * m.zeta x * m.mu x) = m.xi x := fun x => by
    rw [← Matrix.neg_mul, ← hx, Matrix.mul_assoc, Matrix.nonsing_inv_mul _ (hinv x), Matrix.mul_one]
  have h2 : ∀ x, -(m.mu x * m.xi x * (m.mu x)⁻¹) = m.zeta x := fun x => by
    rw [Matrix.mul_assoc, hx, Matrix.mul_neg, neg_neg, ← Matrix.mul_assoc, Matrix.mul_nonsing_inv _ (hinv x), Matrix.one_mul]
  have h3 : ∀ x, m.epsilon x - m.xi x * ((m.mu x)⁻¹ * m.zeta x) + (m.mu x)⁻¹ * m.zeta x * (m.mu x * m.xi x * (m.mu x)⁻¹) = m.epsilon x := fun x => by
    have : m.mu x * m.xi x * (m.mu x)⁻¹ = - m.zeta x := by rw [← h2 x, neg_neg]
    rw [this, ← Matrix.mul_assoc, hx, Matrix.neg_mul, Matrix.mul_neg]
    abel
  cases m
  simp only [Medium.exchanged] at *
  simp only [h1, h2, h3]

/-- An isotropic material. -/
structure Isotropic (m : Medium 3 N) (epsilon xi zeta mu : Idx N → ℂ) : Prop where
  epsilon_eq : ∀ x, m.epsilon x = epsilon x • 1
  xi_eq : ∀ x, m.xi x = xi x • 1
  zeta_eq : ∀ x, m.zeta x = zeta x • 1
  mu_eq : ∀ x, m.mu x = mu x • 1
  mu_ne : ∀ x, mu x ≠ 0

theorem Isotropic.invertible {m : Medium 3 N} {epsilon xi zeta mu : Idx N → ℂ} (h : Isotropic m epsilon xi zeta mu) (x : Idx N) : IsUnit (m.mu x).det := by
  rw [h.mu_eq, Matrix.det_smul, Matrix.det_one, mul_one]
  exact isUnit_iff_ne_zero.2 (pow_ne_zero _ (h.mu_ne x))

/-- **C89 (isotropic).** For isotropic materials the code solves Maxwell's equations with `-ζ` and `-ξ` as coupling constants. -/
theorem C89_isotropic {m : Medium 3 N} {epsilon xi zeta mu : Idx N → ℂ} (h : Isotropic m epsilon xi zeta mu) :
    Isotropic m.exchanged epsilon (fun x => - zeta x) (fun x => - xi x) mu := by
  refine ⟨fun x => ?_, fun x => ?_, fun x => ?_, h.mu_eq, h.mu_ne⟩
  · simp only [Medium.exchanged, h.epsilon_eq, h.xi_eq, h.zeta_eq, h.mu_eq, smul_one_inv (h.mu_ne x), smul_mul_smul_comm, one_mul]
    rw [← sub_smul, ← add_smul]
    congr 1
    have := h.mu_ne x
    field_simp
    ring
  · simp only [Medium.exchanged, h.zeta_eq, h.mu_eq, smul_one_inv (h.mu_ne x), smul_mul_smul_comm, one_mul]
    rw [← neg_smul]
    congr 1
    have := h.mu_ne x
    field_simp
  · simp only [Medium.exchanged, h.xi_eq, h.mu_eq, smul_one_inv (h.mu_ne x), smul_mul_smul_comm, one_mul]
    rw [← neg_smul]
    congr 1
    have := h.mu_ne x
    field_simp

theorem Isotropic.absorbed_exchanged {m : Medium 3 N} {epsilon xi zeta mu : Idx N → ℂ} (h : Isotropic m epsilon xi zeta mu) (x : Idx N) (e f : Fin 3 → ℂ) :
    absorbed (m.exchanged.epsilon x) (m.exchanged.xi x) (m.exchanged.zeta x) (m.exchanged.mu x) e f =
      absorbed (m.epsilon x) (m.xi x) (m.zeta x) (m.mu x) (star e) (-star f) := by
  have h' := C89_isotropic h
  rw [h'.epsilon_eq, h'.xi_eq, h'.zeta_eq, h'.mu_eq, h.epsilon_eq, h.xi_eq, h.zeta_eq, h.mu_eq]
  unfold absorbed
  simp only [Matrix.smul_mulVec, Matrix.one_mulVec, dotProduct_add, dotProduct_smul, smul_eq_mul, star_neg, star_star, neg_dotProduct, dotProduct_neg]
  rw [dotProduct_comm e (star e), dotProduct_comm f (star f), dotProduct_comm e (star f), dotProduct_comm f (star e)]
  congr 1
  ring

/-- **C89 (isotropic materials, passivity).** An isotropic material is passive if and only if it is with the coupling exchanged. -/
theorem C89_passive {m : Medium 3 N} {epsilon xi zeta mu : Idx N → ℂ} (h : Isotropic m epsilon xi zeta mu) :
    (PassiveCoupled m.exchanged.epsilon m.exchanged.xi m.exchanged.zeta m.exchanged.mu ↔ PassiveCoupled m.epsilon m.xi m.zeta m.mu) ∧
    (AbsorbingCoupled m.exchanged.epsilon m.exchanged.xi m.exchanged.zeta m.exchanged.mu ↔ AbsorbingCoupled m.epsilon m.xi m.zeta m.mu) := by
  have hn : ∀ e : Fin 3 → ℂ, ∑ i, ‖star e i‖ ^ 2 = ∑ i, ‖e i‖ ^ 2 := fun e => by simp
  constructor
  · constructor
    · intro hp x e f
      have := hp x (star e) (-star f)
      rw [h.absorbed_exchanged, star_star, star_neg, star_star, neg_neg] at this
      exact this
    · intro hp x e f
      rw [h.absorbed_exchanged]
      exact hp x _ _
  · constructor
    · rintro ⟨δ, hδ, hp⟩
      refine ⟨δ, hδ, fun x e f => ?_⟩
      have := hp x (star e) (-star f)
      rw [h.absorbed_exchanged, star_star, star_neg, star_star, neg_neg, hn] at this
      exact this
    · rintro ⟨δ, hδ, hp⟩
      refine ⟨δ, hδ, fun x e f => ?_⟩
      rw [h.absorbed_exchanged, ← hn]
      exact hp x _ _

/-- **C89 (uniform).** If the coupling and permeability are isotropic and do not depend on the position, exchanging the coupling does not change Maxwell's equations. -/
theorem C89_uniform {g : Grid.Obj d ℝ} (hs : ∀ a, g.step a ≠ 0) {k0 : ℝ} (hk0 : k0 ≠ 0) {m : Medium 3 g.shape} {xi zeta mu : ℂ} (hmu : mu ≠ 0) (h1 : ∀ x, m.xi x = xi • 1)
    (h2 : ∀ x, m.zeta x = zeta • 1) (h3 : ∀ x, m.mu x = mu • 1) (S E : Field 3 g.shape) :
    CoupledEquation (kOf g) k0 m.exchanged.epsilon m.exchanged.xi m.exchanged.zeta m.exchanged.mu S E ↔ CoupledEquation (kOf g) k0 m.epsilon m.xi m.zeta m.mu S E := by
  have hinv : ∀ x, IsUnit (m.mu x).det := fun x => by
    rw [h3, Matrix.det_smul, Matrix.det_one, mul_one]
    exact isUnit_iff_ne_zero.2 (pow_ne_zero _ hmu)
  rw [coupled_iff hk0 (C31_backend g hs hk0) (m := m.exchanged) hinv, coupled_iff hk0 (C31_backend g hs hk0) hinv]
  have e1 : m.chiEHBeta = fun _ => (-I * (xi * mu⁻¹)) • (1 : Matrix (Fin 3) (Fin 3) ℂ) := by
    funext x
    rw [Medium.chiEHBeta, Medium.muInv, h1, h3, smul_one_inv hmu, smul_mul_smul_comm, one_mul, smul_smul]
  have e2 : m.chiHEBeta = fun _ => (I * (mu⁻¹ * zeta)) • (1 : Matrix (Fin 3) (Fin 3) ℂ) := by
    funext x
    rw [Medium.chiHEBeta, Medium.muInv, h2, h3, smul_one_inv hmu, smul_mul_smul_comm, one_mul, smul_smul]
  have : ∀ F, coupledOp (backendK g k0) m.exchanged F = coupledOp (backendK g k0) m F := fun F => by
    unfold coupledOp
    rw [show m.exchanged.chiEHBeta = m.chiHEBeta from funext (exchanged_EH hinv), show m.exchanged.chiHEBeta = m.chiEHBeta from funext (exchanged_HE hinv),
      show m.exchanged.epsilonPrime = m.epsilonPrime from funext (exchanged_epsilonPrime hinv), e1, e2]
    simp only [mulField_smul_left _ (fun _ => 1), mulField_one, (curl_isLinear (n := 3) (m := 3) (backendK g k0)).map_smul]
    rw [show m.exchanged.muInv = m.muInv from rfl]
    abel
  rw [this]

/-- **C89 (what is right).** For reciprocal isotropic, and for all other passive and absorbing materials with `ξ μ⁻¹ = -μ⁻¹ ζ`, the iteration converges to the solution of Maxwell's equations for the
given material. Full claim: for all passive materials with coupling, see `C89_violates`. -/
theorem C89_reciprocal_partial {g : Grid.Obj d ℝ} (hs : ∀ a, g.step a ≠ 0) {k0 : ℝ} (hk0 : 0 < k0) (hd : d ≤ 3) {m : Medium 3 g.shape} (hinv : ∀ x, IsUnit (m.mu x).det)
    (thickness : List ℝ) {vec : ℝ × ℝ} (hv : vec.2 ≠ 0) (hx : ∀ x, m.xi x * (m.mu x)⁻¹ = - ((m.mu x)⁻¹ * m.zeta x)) (hp : AbsorbingCoupled m.epsilon m.xi m.zeta m.mu)
    (S F : Field 3 g.shape) :
    let c := m.constantsMagnetic g.step k0 thickness vec
    ∃ E, CoupledEquation (kOf g) k0 m.epsilon m.xi m.zeta m.mu S E ∧ (∀ E', CoupledEquation (kOf g) k0 m.epsilon m.xi m.zeta m.mu S E' → E' = E) ∧
      ConvergesExponentially (.vectorial hd) (backendK g k0) k0 (prepare m true c.1 c.2 S F) E := by
  have := C89_absorbing hs hk0 hd hinv thickness hv (by rw [exchanged_reciprocal hinv hx]; exact hp) S F
  rw [exchanged_reciprocal hinv hx] at this
  exact this

end Verif.Solver
