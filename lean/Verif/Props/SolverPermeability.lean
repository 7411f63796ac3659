import Verif.Props.SolverExamples

/-!
# Uniform permeabilities that are complex or negative (properties C32 and C35)

For media with a uniform scalar permeability the code keeps only the real part of its inverse (solver.py 446).
-/

namespace Verif.Solver

open Verif Verif.Fourier Verif.Backend Complex
open Verif.Spec.Solver (NoGain Within WaveEquation ScalarWaveEquation negLaplacian)

variable {d n : ℕ} {N : Fin d → ℕ}

/-- The medium with another, uniform, scalar permeability. -/
noncomputable def Medium.withMu (m : Medium n N) (mu : ℂ) : Medium n N := { m with mu := fun _ => mu • 1 }

/-- If the medium is not taken to be magnetic, its permeability is only used to choose beta. -/
theorem preconditioned_withMu (kind : Kind d n) (k : Fin d → Idx N → ℝ) (m : Medium n N) (hxi : ∀ x, m.xi x = 0) (mu : ℂ) {alpha : ℂ}
    (hα : alpha.im ≠ 0) (beta : ℝ) (S F : Field n N) :
    Preconditioned kind k (prepare m false alpha beta S F) ↔ Preconditioned kind k (prepare (m.withMu mu) false alpha beta S F) := by
  have e : (m.withMu mu).epsilonPrime = m.epsilonPrime := by
    funext x
    simp [Medium.epsilonPrime, Medium.withMu, hxi]
  have e1 : ∀ F', chiOp k (prepare (m.withMu mu) false alpha beta S F) F' = chiOp k (prepare m false alpha beta S F) F' := by
    intro F'
    rw [prepare_eq _ _ hα, prepare_eq _ _ hα, chiOp_nonmagnetic _ _ rfl, chiOp_nonmagnetic _ _ rfl]
    simp only [prepared, e]
  have a1 : ∀ m : Medium n N, (prepare m false alpha beta S F).alpha = alpha := fun _ => rfl
  have a2 : ∀ m : Medium n N, (prepare m false alpha beta S F).field = F := fun _ => rfl
  have a3 : ∀ m : Medium n N, (prepare m false alpha beta S F).source = (prepared m false alpha beta S F).source := fun m => by rw [prepare_eq m _ hα]
  have a4 : ∀ m : Medium n N, (prepared m false alpha beta S F).source = fun c x => S c x * factor alpha beta := fun _ => rfl
  unfold Preconditioned
  simp only [e1, a1, a2, a3, a4]

theorem getE_prepare (k0 : ℝ) (m : Medium n N) (mag : Bool) (alpha : ℂ) (beta : ℝ) (S F : Field n N) :
    getE k0 (prepare m mag alpha beta S F) = fun c x => F c x / (k0 ^ 2 : ℝ) := rfl

section
variable {muScalar : Bool} {beta : ℝ}

theorem chosen_withMu {m : Medium n N} {i0 : Fin n} {x0 : Idx N} (hc : Chosen m muScalar i0 x0 false beta) :
    Chosen (m.withMu (beta : ℂ)⁻¹) muScalar i0 x0 false beta ∧ RealPermeability (m.withMu (beta : ℂ)⁻¹) false x0 := by
  obtain ⟨h1, h2, h3, -⟩ := hc.nonmagnetic rfl
  have hb := hc.beta_ne
  refine ⟨⟨?_, fun _ => ?_, hb⟩, fun _ => ⟨beta⁻¹, inv_ne_zero hb, ?_⟩⟩
  · simp [Medium.isMagnetic, Medium.withMu, h1, h2, h3]
  · simp only [Medium.betaNonMagnetic, Medium.muInv, Medium.withMu]
    rw [smul_one_inv (inv_ne_zero (ofReal_ne hb))]
    simp
  · simp [Medium.withMu]

/-- **C32 (what is solved, vectorial).** For a uniform scalar permeability, complex or not, the equation that is solved is that for the permeability
`1 / Re(1 / μ)`. -/
theorem C32_uniform_permeability (g : Grid.Obj d ℝ) (hs : ∀ a, g.step a ≠ 0) {k0 : ℝ} (hk0 : k0 ≠ 0) (hd : d ≤ 3) (m : Medium 3 g.shape)
    {i0 : Fin 3} {x0 : Idx g.shape} (hc : Chosen m muScalar i0 x0 false beta) {alpha : ℂ} (hα : alpha.im ≠ 0) (S F : Field 3 g.shape) :
    Preconditioned (.vectorial hd) (backendK g k0) (prepare m false alpha beta S F) ↔
      WaveEquation (kOf g) k0 m.epsilon (fun _ => (((m.mu x0)⁻¹ i0 i0).re : ℂ)⁻¹ • 1) S (getE k0 (prepare m false alpha beta S F)) := by
  obtain ⟨h1, h2, h3, -⟩ := hc.nonmagnetic rfl
  obtain ⟨hc', hr'⟩ := chosen_withMu hc
  rw [preconditioned_withMu _ _ m h1 (beta : ℂ)⁻¹ hα, C32_wave_equation g hs hk0 hd (m.withMu (beta : ℂ)⁻¹) h1 h2 hc' hr' hα]
  have : ((((m.mu x0)⁻¹ i0 i0).re : ℝ) : ℂ) = beta := by rw [hc.beta_eq rfl]; rfl
  rw [this, getE_prepare, getE_prepare]
  exact Iff.rfl

/-- **C32 (what is solved, scalar).** -/
theorem C32_scalar_uniform_permeability (g : Grid.Obj d ℝ) (hs : ∀ a, g.step a ≠ 0) {k0 : ℝ} (hk0 : k0 ≠ 0) (m : Medium 1 g.shape)
    {x0 : Idx g.shape} (hc : Chosen m muScalar 0 x0 false beta) {alpha : ℂ} (hα : alpha.im ≠ 0) (S F : Field 1 g.shape) :
    Preconditioned .scalar (backendK g k0) (prepare m false alpha beta S F) ↔
      ScalarWaveEquation (kOf g) k0 (fun x => m.epsilon x 0 0) (((m.mu x0 0 0)⁻¹).re : ℂ)⁻¹ (S 0) (getE k0 (prepare m false alpha beta S F) 0) := by
  obtain ⟨h1, h2, h3, -⟩ := hc.nonmagnetic rfl
  obtain ⟨hc', hr'⟩ := chosen_withMu hc
  rw [preconditioned_withMu _ _ m h1 (beta : ℂ)⁻¹ hα, C32_scalar g hs hk0 (m.withMu (beta : ℂ)⁻¹) hc' hr' hα]
  have : ((((m.mu x0 0 0)⁻¹).re : ℝ) : ℂ) = beta := by
    rw [hc.beta_eq rfl, Medium.betaNonMagnetic, Medium.muInv]
    congr 2
    by_cases h0 : m.mu x0 0 0 = 0
    · have : m.mu x0 = 0 := by ext i j; rw [Fin.fin_one_eq_zero i, Fin.fin_one_eq_zero j, h0]; rfl
      rw [this, Matrix.inv_zero]; simp
    · have : m.mu x0 = m.mu x0 0 0 • 1 := by ext i j; rw [Fin.fin_one_eq_zero i, Fin.fin_one_eq_zero j]; simp
      conv_rhs => rw [this]
      rw [smul_one_inv h0]; simp
  rw [this, getE_prepare, getE_prepare]
  simp [Medium.withMu]

/-- A field with negative Laplacian other than 0 solves the scalar equation for at most one permeability. -/
theorem scalar_mu_unique {k : Fin d → Idx N → ℝ} {k0 : ℝ} {epsilon : Idx N → ℂ} {mu mu' : ℂ} {S E : Idx N → ℂ} (hE : negLaplacian k E ≠ 0)
    (h : ScalarWaveEquation k k0 epsilon mu S E) (h' : ScalarWaveEquation k k0 epsilon mu' S E) : mu = mu' := by
  obtain ⟨x, hx⟩ := Function.ne_iff.1 hE
  have h1 := h x
  have h2 := h' x
  rw [← h2, sub_left_inj] at h1
  exact inv_injective (mul_right_cancel₀ hx h1)

end

/-- The second point of `demoGrid`. -/
def nyquist : Idx demoGrid.shape := fun _ => (1 : Fin 2)

/-- The field `(1, -1) / 2` on the two points of `demoGrid`. -/
noncomputable def alternating : Idx demoGrid.shape → ℂ := ift fun x => if (x 0).val = 1 then 1 else 0

theorem negLaplacian_alternating : negLaplacian (kOf demoGrid) alternating ≠ 0 := by
  intro h
  unfold negLaplacian alternating at h
  have h2 := congrArg ft h
  rw [C23_ft_ift] at h2
  have h3 := congrFun h2 nyquist
  rw [C23_ft_ift] at h3
  have hz : ft (0 : Idx demoGrid.shape → ℂ) = 0 := ft_isLinear.map_zero
  rw [hz] at h3
  have hk : ¬ ∀ a, kOf demoGrid a nyquist = 0 := by
    rw [← kOf_origin demoGrid demo_step]
    intro h
    exact absurd (h 0) one_ne_zero
  simp only [Finset.univ_unique, Finset.sum_singleton, Pi.zero_apply] at h3
  refine hk fun a => ?_
  rw [Fin.fin_one_eq_zero a]
  have h4 : ((kOf demoGrid default nyquist : ℝ) : ℂ) ^ 2 = 0 := by
    have hn : ((nyquist (0 : Fin 1)) : ℕ) = 1 := rfl
    rw [if_pos hn, mul_one] at h3
    exact h3
  exact_mod_cast pow_eq_zero_iff (two_ne_zero) |>.1 h4

/-- Vacuum with permeability `1 + i`. -/
noncomputable def complexMu : Medium 1 demoGrid.shape := ⟨fun _ => 1, fun _ => 0, fun _ => 0, fun _ => (1 + I) • 1⟩

/-- **C32 (uniform complex permeability).** The code does not use the imaginary part of a uniform permeability: there are a source and a field, such that the field
does not change when iterating, but that do not solve the wave equation.  The constants are those of the code, and the bias is arbitrary. -/
theorem C32_complex_permeability_violates {alpha : ℂ} (hα : alpha.im ≠ 0) :
    Chosen complexMu true 0 (fun _ => (0 : Fin 2)) false (1 / 2) ∧ ∃ S F : Field 1 demoGrid.shape,
      Preconditioned .scalar (backendK demoGrid 1) (prepare complexMu false alpha (1 / 2) S F) ∧
      (∀ c x, update .scalar (backendK demoGrid 1) (prepare complexMu false alpha (1 / 2) S F) c x = 0) ∧
      ¬ ScalarWaveEquation (kOf demoGrid) 1 (fun x => complexMu.epsilon x 0 0) (1 + I) (S 0)
        (getE 1 (prepare complexMu false alpha (1 / 2) S F) 0) := by
  have hI : (1 + I : ℂ) ≠ 0 := by intro h; have := congrArg Complex.im h; simp at this
  have hre : ((1 + I : ℂ)⁻¹).re = 1 / 2 := by rw [Complex.inv_re, normSq_apply]; norm_num
  have hc : Chosen complexMu true 0 (fun _ => (0 : Fin 2)) false (1 / 2) := by
    refine ⟨?_, fun _ => ?_, by norm_num⟩
    · simp [Medium.isMagnetic, complexMu]
    · simp only [Medium.betaNonMagnetic, Medium.muInv, complexMu]
      rw [smul_one_inv hI]
      simp [hre]
  refine ⟨hc, fun _ x => ((1 / 2 : ℝ) : ℂ) * negLaplacian (kOf demoGrid) alternating x - alternating x, fun _ => alternating, ?_⟩
  have key : Preconditioned .scalar (backendK demoGrid 1) (prepare complexMu false alpha (1 / 2)
      (fun _ x => ((1 / 2 : ℝ) : ℂ) * negLaplacian (kOf demoGrid) alternating x - alternating x) (fun _ => alternating)) ∧
      ScalarWaveEquation (kOf demoGrid) 1 (fun x => complexMu.epsilon x 0 0) 2
        (fun x => ((1 / 2 : ℝ) : ℂ) * negLaplacian (kOf demoGrid) alternating x - alternating x) alternating := by
    have hg : getE 1 (prepare complexMu false alpha (1 / 2) (fun _ x => ((1 / 2 : ℝ) : ℂ) * negLaplacian (kOf demoGrid) alternating x - alternating x)
        (fun _ => alternating)) 0 = alternating := by
      funext x
      simp [getE, prepare, prepared, updateOperators]
    have hw : ScalarWaveEquation (kOf demoGrid) 1 (fun x => complexMu.epsilon x 0 0) 2
        (fun x => ((1 / 2 : ℝ) : ℂ) * negLaplacian (kOf demoGrid) alternating x - alternating x) alternating := by
      intro x
      simp [complexMu]
    refine ⟨?_, hw⟩
    rw [C32_scalar_uniform_permeability demoGrid demo_step one_ne_zero complexMu hc hα, hg]
    have : (((complexMu.mu (fun _ => (0 : Fin 2)) 0 0)⁻¹).re : ℂ)⁻¹ = 2 := by simp [complexMu, hre]
    rw [this]
    exact hw
  refine ⟨key.1, ?_, fun h => ?_⟩
  · intro c x
    have e : (fun c x => green .scalar (backendK demoGrid 1) alpha (fun c x => chiOp (backendK demoGrid 1) (prepare complexMu false alpha (1 / 2)
        (fun _ x => ((1 / 2 : ℝ) : ℂ) * negLaplacian (kOf demoGrid) alternating x - alternating x) (fun _ => alternating)) (fun _ => alternating) c x +
          (prepare complexMu false alpha (1 / 2)
        (fun _ x => ((1 / 2 : ℝ) : ℂ) * negLaplacian (kOf demoGrid) alternating x - alternating x) (fun _ => alternating)).source c x) c x -
          (fun _ => alternating : Field 1 demoGrid.shape) c x) = (0 : Field 1 demoGrid.shape) := by
      funext c x
      exact sub_eq_zero.2 (key.1 c x)
    show chiOp _ _ _ c x = 0
    rw [show (prepare complexMu false alpha (1 / 2)
        (fun _ x => ((1 / 2 : ℝ) : ℂ) * negLaplacian (kOf demoGrid) alternating x - alternating x) (fun _ => alternating)).field = fun _ => alternating from rfl]
    rw [show (prepare complexMu false alpha (1 / 2)
        (fun _ x => ((1 / 2 : ℝ) : ℂ) * negLaplacian (kOf demoGrid) alternating x - alternating x) (fun _ => alternating)).alpha = alpha from rfl]
    rw [e, (chiOp_isLinear _ _).map_zero]; rfl
  · have hg : getE 1 (prepare complexMu false alpha (1 / 2) (fun _ x => ((1 / 2 : ℝ) : ℂ) * negLaplacian (kOf demoGrid) alternating x - alternating x)
        (fun _ => alternating)) 0 = alternating := by
      funext x
      simp [getE, prepare, prepared, updateOperators]
    rw [hg] at h
    have := scalar_mu_unique negLaplacian_alternating h key.2
    have := congrArg Complex.im this
    simp at this

/-! ### Negative permeability -/

/-- The constant field. -/
def cst : Field 1 N := fun _ _ => 1

/-- Permittivity `-1 + i` and permeability `-1`: what the constructor makes of a refractive index with square `1 - i` and negative real part (solver.py 227–236). -/
noncomputable def negativeIndex (N : Fin d → ℕ) : Medium 1 N := ⟨fun _ => (-1 + I) • 1, fun _ => 0, fun _ => 0, fun _ => (-1 : ℂ) • 1⟩

theorem ft_cst (x : Idx N) (h : ¬ origin x) : ft (fun _ : Idx N => (1 : ℂ)) x = 0 := by
  have hN : ∀ a, 0 < N a := fun a => (Nat.zero_le _).trans_lt (x a).isLt
  have := C23_plane_wave (N := N) (fun a => ⟨0, hN a⟩)
  simp only [Nat.cast_zero, zero_div, mul_zero, zero_mul, exp_zero, Finset.prod_const_one] at this
  rw [this]
  refine if_neg fun e => h fun a => ?_
  rw [e]

theorem curlCurl_scalar_isLinear (k : Fin d → Idx N → ℝ) : IsLinearMap ℂ (curlCurl k (.scalar : Kind d 1) : Field 1 N → Field 1 N) := by
  have hT : IsLinearMap ℂ fun (F : Field 1 N) (c : Fin 1) (x : Idx N) => (k2 k x : ℂ) * F c x :=
    ⟨fun f g => by funext c x; simp only [Pi.add_apply]; ring, fun a f => by funext c x; simp only [Pi.smul_apply, smul_eq_mul]; ring⟩
  have hL := convolve_isLinear hT
  exact ⟨fun f g => by simp only [curlCurl, hL.map_add], fun a f => by simp only [curlCurl, hL.map_smul]⟩

theorem curlCurl_cst {k : Fin d → Idx N → ℝ} (hk : ∀ x, origin x ↔ ∀ a, k a x = 0) : curlCurl k (.scalar : Kind d 1) (cst : Field 1 N) = 0 := by
  unfold curlCurl convolve
  funext c
  have : (fun x => (k2 k x : ℂ) * ft ((cst : Field 1 N) c) x) = 0 := by
    funext x
    by_cases h : origin x
    · have := (hk x).1 h
      simp [k2, this]
    · have := ft_cst x h
      show _ * ft (fun _ => 1) x = 0
      rw [this, mul_zero]
  show ift (fun x => (k2 k x : ℂ) * ft ((cst : Field 1 N) c) x) = 0
  rw [this]
  exact ift_isLinear.map_zero

/-- The relative change of the constant field in an iteration. -/
theorem update_negativeIndex {k : Fin d → Idx N → ℝ} (hk : ∀ x, origin x ↔ ∀ a, k a x = 0) {a : ℝ} (ha : 0 < a) (c : ℂ) :
    update .scalar k (prepare (negativeIndex N) false (1 + a * I) (-1) 0 (c • cst)) =
      (((1 + a) / (a * (1 + a ^ 2)) : ℝ) * (((a - 1 : ℝ) : ℂ) + ((1 + a : ℝ) : ℂ) * I)) • (c • cst) := by
  have him : (1 + a * I : ℂ).im = a := by simp
  have hα : (1 + a * I : ℂ).im ≠ 0 := by rw [him]; exact ha.ne'
  have hcon : Consistent (negativeIndex N) false (-1) := by
    refine .inr ⟨fun _ => rfl, fun _ => rfl, fun x => ?_⟩
    unfold Medium.muInv negativeIndex
    rw [smul_one_inv (by norm_num)]
    norm_num
  rw [prepare_eq _ _ hα, update_prepared hk .scalar _ _ hα (by norm_num) _ _ hcon]
  have hcc : curlCurl k (.scalar : Kind d 1) (c • cst : Field 1 N) = 0 := by
    have hL := curlCurl_scalar_isLinear k
    rw [hL.map_smul, curlCurl_cst hk, smul_zero]
  have heps : (negativeIndex N).epsilonPrime = fun _ => (-1 + I) • 1 := by
    funext x; simp [Medium.epsilonPrime, negativeIndex]
  have hw : waveOp k (-1) .scalar (negativeIndex N) (c • cst) = (1 - I) • (c • cst) := by
    simp only [waveOp, hcc, heps]
    rw [mulField_smul_left, mulField_one]
    module
  have hα0 : (1 + a * I : ℂ) ≠ 0 := fun h => hα (by rw [h]; rfl)
  have hg : green .scalar k (1 + a * I) (c • cst) = (I * a / (1 + a * I)) • (c • cst) := by
    have := green_left_inverse hk hα .scalar (c • cst : Field 1 N)
    rw [hcc, zero_sub, ← neg_smul, (green_isLinear .scalar k _).map_smul, him] at this
    have h2 := congrArg (fun F => (-(1 + a * I : ℂ))⁻¹ • F) this
    simp only [smul_smul] at h2
    rw [inv_mul_cancel₀ (neg_ne_zero.2 hα0), one_smul] at h2
    rw [h2, smul_smul]
    congr 1
    have := neg_ne_zero.2 hα0
    field_simp
  rw [hw, zero_sub, ← neg_smul, (green_isLinear .scalar k _).map_smul, hg]
  rw [chiOp_nonmagnetic _ _ rfl]
  have hchi : (prepared (negativeIndex N) false (1 + a * I) (-1) 0 (c • cst)).chiEE =
      fun _ => (factor (1 + a * I) (-1) * (-1 + I) - (1 + a * I) * I / a) • (1 : Matrix (Fin 1) (Fin 1) ℂ) := by
    funext x
    simp only [prepared, heps, him]
    rw [smul_smul, sub_smul]
  rw [hchi, mulField_smul_left, mulField_one]
  simp only [smul_smul]
  congr 1
  have ha' : (a : ℂ) ≠ 0 := ofReal_ne ha.ne'
  have h1 : (1 + (a : ℂ) ^ 2) ≠ 0 := by
    have : (1 + a ^ 2 : ℝ) ≠ 0 := by positivity
    exact_mod_cast this
  have hI2 : I ^ 2 = -1 := I_sq
  have key : (factor (1 + a * I) (-1) * (-1 + I) - (1 + a * I) * I / a) * (factor (1 + a * I) (-1) * (-(1 - I) * (I * a / (1 + a * I)))) =
      ((1 + a) / (a * (1 + a ^ 2)) : ℝ) * (((a - 1 : ℝ) : ℂ) + ((1 + a : ℝ) : ℂ) * I) := by
    unfold factor
    rw [him]
    push_cast
    rw [show I / (a : ℂ) / -1 = -I / a by ring]
    have e1 : -I / (a : ℂ) * (-1 + I) - (1 + a * I) * I / a = (1 + a) / a := by
      field_simp
      linear_combination (-1 - (a : ℂ)) * hI2
    have e2 : -I / (a : ℂ) * (-(1 - I) * (I * a / (1 + a * I))) = (I - 1) / (1 + a * I) := by
      have e : -I / (a : ℂ) * (-(1 - I) * (I * a / (1 + a * I))) = (-(I * I)) * (-(1 - I)) / (1 + a * I) := by field_simp
      rw [e, I_mul_I]
      congr 1
      ring
    rw [e1, e2]
    have e3 : (I - 1) / (1 + a * I) = ((a : ℂ) - 1 + (1 + a) * I) / (1 + a ^ 2) := by
      rw [div_eq_div_iff hα0 h1]
      linear_combination -((a : ℂ) + a ^ 2) * hI2
    rw [e3]
    field_simp
  linear_combination c * key

/-- The factor by which the constant field changes is larger than 1 for all values of the bias. -/
theorem growth {a : ℝ} (ha : 0 < a) : 1 < ‖1 + ((1 + a) / (a * (1 + a ^ 2)) : ℝ) * (((a - 1 : ℝ) : ℂ) + ((1 + a : ℝ) : ℂ) * I)‖ := by
  rw [← sq_lt_sq₀ zero_le_one (norm_nonneg _), ← Complex.normSq_eq_norm_sq, normSq_apply]
  have e1 : (1 + ((1 + a) / (a * (1 + a ^ 2)) : ℝ) * (((a - 1 : ℝ) : ℂ) + ((1 + a : ℝ) : ℂ) * I)).re = 1 + (1 + a) / (a * (1 + a ^ 2)) * (a - 1) := by
    simp only [add_re, re_ofReal_mul, one_re, ofReal_re, I_re, mul_zero, add_zero]
  have e2 : (1 + ((1 + a) / (a * (1 + a ^ 2)) : ℝ) * (((a - 1 : ℝ) : ℂ) + ((1 + a : ℝ) : ℂ) * I)).im = (1 + a) / (a * (1 + a ^ 2)) * (1 + a) := by
    simp only [add_im, im_ofReal_mul, one_im, ofReal_im, I_im, mul_one, zero_add]
  rw [e1, e2]
  have h : (1 + (1 + a) / (a * (1 + a ^ 2)) * (a - 1)) * (1 + (1 + a) / (a * (1 + a ^ 2)) * (a - 1)) +
      (1 + a) / (a * (1 + a ^ 2)) * (1 + a) * ((1 + a) / (a * (1 + a ^ 2)) * (1 + a)) = 1 + 2 * (1 + a) / a ^ 2 := by
    have : 1 + a ^ 2 ≠ 0 := by positivity
    field_simp
    ring
  rw [h]
  have : 0 < 2 * (1 + a) / a ^ 2 := by positivity
  linarith

/-- The states of the iteration for a constant initial field that is not smaller than `r`. -/
def Growing (r : ℝ) (t : State 1 N) : Prop :=
  ∃ (a : ℝ) (c : ℂ) (p : WithTop ℝ) (i : ℤ) (q : Option (WithTop ℝ)), 0 < a ∧ r ≤ ‖c‖ ∧ p ≠ ((0 : ℝ) : WithTop ℝ) ∧
    t = { prepare (negativeIndex N) false (1 + a * I) (-1) 0 (c • cst) with prevNorm := p, iteration := i, residue := q }

theorem growing_step [Nonempty (Idx N)] {k : Fin d → Idx N → ℝ} (hk : ∀ x, origin x ↔ ∀ a, k a x = 0) {r : ℝ} (hr : 0 < r) {t : State 1 N} (h : Growing r t) :
    ∃ t', step .scalar k t = .ok t' ∧ Growing r t' := by
  obtain ⟨a, c, p, i, q, ha, hc, hp, rfl⟩ := h
  have him : (1 + a * I : ℂ).im = a := by simp
  have hu := update_negativeIndex (N := N) hk ha c
  set w : ℂ := ((1 + a) / (a * (1 + a ^ 2)) : ℝ) * (((a - 1 : ℝ) : ℂ) + ((1 + a : ℝ) : ℂ) * I) with hw
  have hgr : 1 < ‖1 + w‖ := growth ha
  have hw0 : w ≠ 0 := by
    intro h0
    rw [h0] at hgr
    norm_num at hgr
  have hc0 : c ≠ 0 := by
    intro h0
    rw [h0, norm_zero] at hc
    linarith
  have hcst : (cst : Field 1 N) ≠ 0 := by
    intro h0
    have := congrFun (congrFun h0 0) (Classical.arbitrary _)
    simp [cst] at this
  have hd : ∃ rel, divFloat (Backend.norm (w • (c • cst : Field 1 N))) p = .ok rel := by
    match p with
    | none => exact ⟨0, rfl⟩
    | some p' =>
      have : p' ≠ 0 := fun h0 => hp (by rw [h0]; rfl)
      exact ⟨_, if_neg this⟩
  obtain ⟨rel, hrel⟩ := hd
  have hupd : ∀ i q, update .scalar k { prepare (negativeIndex N) false (1 + a * I) (-1) 0 (c • cst) with prevNorm := p, iteration := i, residue := q } =
      w • (c • cst) := fun i q => hu
  unfold step
  simp only
  rw [hupd]
  simp only [hrel]
  by_cases hlt : rel < 1
  · rw [if_pos hlt]
    refine ⟨_, rfl, a, (1 + w) * c, ((Backend.norm (w • (c • cst : Field 1 N)) : ℝ) : WithTop ℝ), i + 1, none, ha, ?_, ?_, ?_⟩
    · rw [norm_mul]
      nlinarith [norm_nonneg c]
    · intro h0
      have h0 : Backend.norm (w • (c • cst : Field 1 N)) = 0 := by exact_mod_cast h0
      rw [norm_eq_zero_iff] at h0
      exact (smul_ne_zero hw0 (smul_ne_zero hc0 hcst)) h0
    · have : (fun (c' : Fin 1) (x : Idx N) => (c • cst : Field 1 N) c' x + (w • (c • cst : Field 1 N)) c' x) = ((1 + w) * c) • cst := by
        funext c' x
        simp only [Pi.smul_apply, smul_eq_mul]
        ring
      rw [← this]
      rfl
  · rw [if_neg hlt]
    refine ⟨_, rfl, 1.5 * a, c, p, i + 1, none, by positivity, hc, hp, ?_⟩
    have e : increased (1 + a * I) = 1 + ((1.5 * a : ℝ) : ℂ) * I := by
      apply Complex.ext
      · rw [increased_re]; simp
      · rw [increased_im]; simp
    have hα' : (1 + ((1.5 * a : ℝ) : ℂ) * I).im ≠ 0 := by
      have : (1 + ((1.5 * a : ℝ) : ℂ) * I).im = 1.5 * a := by simp
      rw [this]; positivity
    have hcb := C33_change_bias (negativeIndex N) false (alpha := 1 + a * I) (alpha' := 1 + ((1.5 * a : ℝ) : ℂ) * I) (by rw [him]; exact ha.ne') hα' (-1) 0 (c • cst)
    rw [← hcb, ← e]
    rfl

/-- **C35 (negative permeability).** The iteration does not converge for lossy media with a negative permeability, on any grid: the permittivity and
permeability have no gain, the solution for a zero source is unique and zero, alpha and beta are those that the code selects (the best real part
is 1), and yet the field never gets smaller than the initial field. -/
theorem C35_negative_permeability_violates (g : Grid.Obj d ℝ) (hs : ∀ a, g.step a ≠ 0) {k0 : ℝ} (hk0 : k0 ≠ 0) (x0 : Idx g.shape) {tol : ℝ} (htol : 0 ≤ tol)
    (thickness : List ℝ) :
    let m := negativeIndex g.shape
    let c := m.constantsNonMagnetic tol k0 thickness 0 x0 1
    NoGain m.epsilon ∧ NoGain m.mu ∧ Chosen m true 0 x0 false c.2 ∧
    (∀ E, ScalarWaveEquation (kOf g) k0 (fun x => m.epsilon x 0 0) (m.mu x0 0 0) 0 E → E = 0) ∧
    ∃ F : Field 1 g.shape, 0 < Backend.norm (getE k0 (prepare m false c.1 c.2 0 F)) ∧ ∀ i,
      ∃ t, run .scalar (backendK g k0) (prepare m false c.1 c.2 0 F) i = .ok t ∧
        Backend.norm (getE k0 (prepare m false c.1 c.2 0 F)) ≤ Backend.norm (getE k0 t) := by
  intro m c
  have hE : NoGain m.epsilon := by
    have := noGain_diagonal (n := 1) (fun (_ : Idx g.shape) _ => -1 + I) (by simp)
    intro x v
    have := this x v
    rw [show (Matrix.diagonal fun _ => -1 + I : Matrix (Fin 1) (Fin 1) ℂ) = (-1 + I) • 1 from (Matrix.smul_one_eq_diagonal _).symm] at this
    exact this
  have hM : NoGain m.mu := by
    have := noGain_diagonal (n := 1) (fun (_ : Idx g.shape) _ => (-1 : ℂ)) (by simp)
    intro x v
    have := this x v
    rw [show (Matrix.diagonal fun _ => (-1 : ℂ) : Matrix (Fin 1) (Fin 1) ℂ) = (-1 : ℂ) • 1 from (Matrix.smul_one_eq_diagonal _).symm] at this
    exact this
  have hbeta : c.2 = -1 := by
    show m.betaNonMagnetic 0 x0 = -1
    simp only [Medium.betaNonMagnetic, Medium.muInv, m, negativeIndex]
    rw [smul_one_inv (by norm_num)]
    norm_num
  have ht := not_transposed m htol hE (fun _ => rfl) (fun _ => rfl) hM
  have hc1 : c.1 = increaseBias k0 thickness (((1 : ℝ) : ℂ) + I * (m.sigmaEE 1 c.2 : ℂ)) := by
    simp only [c, Medium.constantsNonMagnetic, if_neg ht]
  have hre : c.1.re = 1 := by rw [hc1, increaseBias_re]; simp
  have him : 0 < c.1.im := by
    have := C36_increase k0 thickness (((1 : ℝ) : ℂ) + I * (m.sigmaEE 1 c.2 : ℂ))
    rw [← hc1] at this
    have h2 : (((1 : ℝ) : ℂ) + I * (m.sigmaEE 1 c.2 : ℂ)).im = m.sigmaEE 1 c.2 := by simp
    have h3 := sigmaEE_nonneg m 1 c.2
    norm_num at this ⊢
    linarith
  have hα : c.1 = 1 + (c.1.im : ℂ) * I := by
    apply Complex.ext <;> simp [hre]
  have hch : Chosen m true 0 x0 false c.2 := by
    refine ⟨?_, fun _ => rfl, by rw [hbeta]; norm_num⟩
    simp [Medium.isMagnetic, m, negativeIndex]
  refine ⟨hE, hM, hch, ?_, ?_⟩
  · intro E hE
    have h1 : ∀ x, negLaplacian (kOf g) E x + (k0 : ℂ) ^ 2 * ((-1 + I) * E x) = 0 := by
      intro x
      have := hE x
      simp only [m, negativeIndex, Matrix.smul_apply, Matrix.one_apply_eq, smul_eq_mul, mul_one, Pi.zero_apply] at this
      rw [show (-1 : ℂ)⁻¹ = -1 by norm_num] at this
      linear_combination -this
    have h2 : ∀ x, ((∑ a, (kOf g a x : ℂ) ^ 2) + (k0 : ℂ) ^ 2 * (-1 + I)) * ft E x = 0 := by
      have e : (negLaplacian (kOf g) E + ((k0 : ℂ) ^ 2 * (-1 + I)) • E) = 0 := by
        funext x
        have := h1 x
        simp only [Pi.add_apply, Pi.smul_apply, smul_eq_mul, Pi.zero_apply]
        linear_combination this
      have := congrArg ft e
      rw [ft_isLinear.map_add, ft_isLinear.map_smul, ft_isLinear.map_zero, negLaplacian, C23_ft_ift] at this
      intro x
      have := congrFun this x
      simp only [Pi.add_apply, Pi.smul_apply, smul_eq_mul, Pi.zero_apply] at this
      linear_combination this
    have h3 : ft E = 0 := by
      funext x
      refine (mul_eq_zero.1 (h2 x)).resolve_left fun h => ?_
      have := congrArg Complex.im h
      rw [show (∑ a, (kOf g a x : ℂ) ^ 2) = ((∑ a, kOf g a x ^ 2 : ℝ) : ℂ) by push_cast; rfl, ← ofReal_pow] at this
      simp only [add_im, ofReal_im, im_ofReal_mul, neg_im, one_im, I_im, zero_im, neg_zero, zero_add, mul_one] at this
      exact hk0 (pow_eq_zero_iff two_ne_zero |>.1 this)
    rw [← C23_ift_ft E, h3]
    exact ift_isLinear.map_zero
  · have : Nonempty (Idx g.shape) := ⟨x0⟩
    refine ⟨cst, ?_, ?_⟩
    · refine lt_of_le_of_ne (norm_nonneg' _) fun h => ?_
      have := (norm_eq_zero_iff _).1 h.symm
      have := congrFun (congrFun this 0) x0
      rw [getE_prepare] at this
      simp [cst, hk0] at this
    · have hg : ∀ i, ∃ t, run .scalar (backendK g k0) (prepare m false c.1 c.2 0 cst) i = .ok t ∧ Growing 1 t := by
        intro i
        induction i with
        | zero =>
          refine ⟨_, rfl, c.1.im, 1, ⊤, 0, none, him, by simp, WithTop.top_ne_coe, ?_⟩
          rw [one_smul, ← hα, hbeta]
          rfl
        | succ i ih =>
          obtain ⟨t, ht, hgt⟩ := ih
          obtain ⟨t', ht', hgt'⟩ := growing_step (backendK_origin g hs hk0) one_pos hgt
          exact ⟨t', by simp only [run, ht, ht'], hgt'⟩
      intro i
      obtain ⟨t, ht, a, c', p, j, q, -, hc', -, rfl⟩ := hg i
      refine ⟨_, ht, ?_⟩
      have e1 : ∀ s : State 1 g.shape, getE k0 s = ((k0 : ℂ) ^ 2)⁻¹ • s.field := by
        intro s; funext c x; simp only [getE, Pi.smul_apply, smul_eq_mul]; push_cast; rw [div_eq_inv_mul]
      rw [e1, e1, norm_smul', norm_smul']
      refine mul_le_mul_of_nonneg_left ?_ (norm_nonneg _)
      show Backend.norm (cst : Field 1 g.shape) ≤ Backend.norm (c' • (cst : Field 1 g.shape))
      rw [norm_smul']
      have := norm_nonneg' (cst : Field 1 g.shape)
      nlinarith

end Verif.Solver
