import Verif.Props.SolverConv
import Verif.Lemmas.SolverReal

/-!
# C75: conservation of energy

The work of the source is the energy that the material absorbs.  Time-averaged powers of fields with time dependence `exp(-iωt)` are imaginary parts of
`E* · ε E` and of `E* · S`, up to positive factors.
-/

namespace Verif.Solver

open Verif Verif.Fourier Verif.Backend Complex
open Verif.Spec.Physics
open Verif.Spec.Solver (WaveEquation ScalarWaveEquation NoGain)

variable {d n : ℕ} {N : Fin d → ℕ}

theorem overlap_dot (E F : Field n N) : overlap E F = dot E F := by
  unfold overlap dot
  rw [Finset.sum_comm]
  rfl

theorem wave_source {k : Fin d → Idx N → ℝ} {k0 : ℝ} {epsilon mu : Idx N → Matrix (Fin 3) (Fin 3) ℂ} {S E : Fin 3 → Idx N → ℂ}
    (h : WaveEquation k k0 epsilon mu S E) : S = curl 3 k (mulField (fun x => (mu x)⁻¹) (curl 3 k E)) - ((k0 ^ 2 : ℝ) : ℂ) • mulField epsilon E := by
  funext c x
  have := h c x
  rw [spec_curl, spec_curl, spec_act, spec_act] at this
  rw [← this]
  push_cast
  rfl

/-- **C75 (balance).** For all grids, materials, sources and solutions of the wave equation: the work of the source is minus the energy absorbed by the permittivity, minus that absorbed by the
permeability. -/
theorem C75_balance {k : Fin d → Idx N → ℝ} {k0 : ℝ} {epsilon mu : Idx N → Matrix (Fin 3) (Fin 3) ℂ} {S E : Fin 3 → Idx N → ℂ}
    (h : WaveEquation k k0 epsilon mu S E) : (overlap E S).im =
      -(k0 ^ 2 * (overlap E (Spec.Solver.act epsilon E)).im) + (overlap (Spec.Solver.curl k E) (Spec.Solver.act (fun x => (mu x)⁻¹) (Spec.Solver.curl k E))).im := by
  rw [wave_source h, overlap_dot, overlap_dot, overlap_dot, spec_act, spec_act, spec_curl, dot_sub, dot_smul, curl_adjoint, sub_im, im_ofReal_mul]
  ring

theorem overlap_act (A : Idx N → Matrix (Fin n) (Fin n) ℂ) (E : Fin n → Idx N → ℂ) :
    (overlap E (Spec.Solver.act A E)).im = ∑ x, (star (fun j => E j x) ⬝ᵥ (A x).mulVec fun j => E j x).im := by
  rw [overlap_dot, spec_act, dot_mulField, im_sum]

theorem lossless_im {A : Idx N → Matrix (Fin n) (Fin n) ℂ} (hA : Lossless A) (E : Fin n → Idx N → ℂ) : (overlap E (Spec.Solver.act A E)).im = 0 := by
  rw [overlap_act]
  refine Finset.sum_eq_zero fun x _ => ?_
  set v : Fin n → ℂ := fun j => E j x
  have h1 : star (star v ⬝ᵥ (A x).mulVec v) = star v ⬝ᵥ (A x).mulVec v := by
    rw [← Matrix.star_dotProduct, Matrix.star_mulVec, hA x, ← Matrix.dotProduct_mulVec]
  exact conj_eq_iff_im.1 h1

/-- **C75 (lossless).** In all materials with Hermitian permittivity and permeability the source does no work. -/
theorem C75_lossless {k : Fin d → Idx N → ℝ} {k0 : ℝ} {epsilon mu : Idx N → Matrix (Fin 3) (Fin 3) ℂ} (he : Lossless epsilon) (hm : Lossless mu) {S E : Fin 3 → Idx N → ℂ}
    (h : WaveEquation k k0 epsilon mu S E) : (overlap E S).im = 0 := by
  have hmi : Lossless fun x => (mu x)⁻¹ := fun x => by rw [Matrix.conjTranspose_nonsing_inv, hm x]
  rw [C75_balance h, lossless_im he, lossless_im hmi]
  ring

/-- **C75 (passive).** In all materials without gain the source never receives energy. -/
theorem C75_passive {k : Fin d → Idx N → ℝ} {k0 : ℝ} {epsilon mu : Idx N → Matrix (Fin 3) (Fin 3) ℂ} (he : NoGain epsilon) (hm : NoGain mu) (hi : ∀ x, IsUnit (mu x).det)
    {S E : Fin 3 → Idx N → ℂ} (h : WaveEquation k k0 epsilon mu S E) : (overlap E S).im ≤ 0 := by
  have h1 : 0 ≤ (overlap E (Spec.Solver.act epsilon E)).im := by
    rw [overlap_act]
    exact Finset.sum_nonneg fun x _ => he x _
  have h2 : (overlap (Spec.Solver.curl k E) (Spec.Solver.act (fun x => (mu x)⁻¹) (Spec.Solver.curl k E))).im ≤ 0 := by
    rw [overlap_act]
    exact Finset.sum_nonpos fun x _ => im_inv (mu x) (hi x) (hm x) _
  rw [C75_balance h]
  nlinarith [mul_nonneg (sq_nonneg k0) h1]

/-- **C75 (bound).** The energy absorbed by the permittivity of a material without gain is at most the work of the source; the field is bounded by the source where all points absorb. -/
theorem C75_bound {k : Fin d → Idx N → ℝ} {k0 : ℝ} (hk0 : k0 ≠ 0) {epsilon mu : Idx N → Matrix (Fin 3) (Fin 3) ℂ} {δ : ℝ}
    (he : ∀ x (v : Fin 3 → ℂ), δ * ∑ i, ‖v i‖ ^ 2 ≤ (star v ⬝ᵥ (epsilon x).mulVec v).im) (hm : NoGain mu) (hi : ∀ x, IsUnit (mu x).det)
    {S E : Fin 3 → Idx N → ℂ} (h : WaveEquation k k0 epsilon mu S E) : k0 ^ 2 * δ * Backend.norm E ≤ Backend.norm S := by
  have h1 : δ * Backend.norm E ^ 2 ≤ (overlap E (Spec.Solver.act epsilon E)).im := by
    rw [overlap_act, norm_sq, Finset.sum_comm, Finset.mul_sum]
    exact Finset.sum_le_sum fun x _ => he x _
  have h2 : (overlap (Spec.Solver.curl k E) (Spec.Solver.act (fun x => (mu x)⁻¹) (Spec.Solver.curl k E))).im ≤ 0 := by
    rw [overlap_act]
    exact Finset.sum_nonpos fun x _ => im_inv (mu x) (hi x) (hm x) _
  have h3 := C75_balance h
  have h4 : ‖overlap E S‖ ≤ Backend.norm E * Backend.norm S := by
    rw [overlap_dot, dot_eq, ← norm_toE, ← norm_toE]
    exact norm_inner_le_norm _ _
  have h5 := (abs_le.1 ((abs_im_le_norm (overlap E S)).trans h4)).1
  have hk : 0 < k0 ^ 2 := by positivity
  rcases (norm_nonneg' E).eq_or_lt with h0 | h0
  · rw [← h0, mul_zero]; exact norm_nonneg' S
  · have h6 : k0 ^ 2 * (δ * Backend.norm E ^ 2) ≤ Backend.norm E * Backend.norm S := by nlinarith [mul_le_mul_of_nonneg_left h1 hk.le]
    have h7 : Backend.norm E * (k0 ^ 2 * δ * Backend.norm E) ≤ Backend.norm E * Backend.norm S := by nlinarith
    exact le_of_mul_le_mul_left h7 h0

/-- **C75 (scalar).** The same balance for scalar calculations with a real constant permeability. -/
theorem C75_scalar {k : Fin d → Idx N → ℝ} {k0 : ℝ} {epsilon : Idx N → ℂ} {r : ℝ} {S E : Idx N → ℂ} (h : ScalarWaveEquation k k0 epsilon (r : ℂ) S E) :
    (∑ x, (starRingEnd ℂ) (E x) * S x).im = -(k0 ^ 2 * ∑ x, (epsilon x).im * ‖E x‖ ^ 2) := by
  have key : (∑ x, (starRingEnd ℂ) (E x) * Spec.Solver.negLaplacian k E x).im = 0 := by
    rcases isEmpty_or_nonempty (Idx N) with hem | ⟨⟨x0⟩⟩
    · simp
    have hP : (∏ a, (N a : ℝ)) ≠ 0 := by
      have := prod_ne_zero_of_idx x0
      exact_mod_cast this
    have h1 := C23_inner E (Spec.Solver.negLaplacian k E)
    have hL : ft (Spec.Solver.negLaplacian k E) = fun q => (k2 k q : ℂ) * ft E q := by
      unfold Spec.Solver.negLaplacian
      rw [C23_ft_ift]
      funext q
      unfold k2
      push_cast
      rfl
    rw [hL] at h1
    have h2 := congrArg Complex.im h1
    rw [im_sum, show (∏ a, (N a : ℂ)) = ((∏ a, (N a : ℝ) : ℝ) : ℂ) by push_cast; rfl, im_ofReal_mul] at h2
    have h3 : ∑ q, ((starRingEnd ℂ) (ft E q) * ((k2 k q : ℂ) * ft E q)).im = 0 := Finset.sum_eq_zero fun q _ => by
      rw [show (starRingEnd ℂ) (ft E q) * ((k2 k q : ℂ) * ft E q) = (k2 k q : ℂ) * (ft E q * (starRingEnd ℂ) (ft E q)) by ring, im_ofReal_mul, mul_conj, ofReal_im, mul_zero]
    rw [h3] at h2
    exact (mul_eq_zero.1 h2.symm).resolve_left hP
  have e : ∑ x, (starRingEnd ℂ) (E x) * S x = ((r⁻¹ : ℝ) : ℂ) * ∑ x, (starRingEnd ℂ) (E x) * Spec.Solver.negLaplacian k E x -
      ((k0 ^ 2 : ℝ) : ℂ) * ∑ x, epsilon x * ((‖E x‖ ^ 2 : ℝ) : ℂ) := by
    rw [Finset.mul_sum, Finset.mul_sum, ← Finset.sum_sub_distrib]
    refine Finset.sum_congr rfl fun x _ => ?_
    have hn : ((‖E x‖ ^ 2 : ℝ) : ℂ) = E x * (starRingEnd ℂ) (E x) := by rw [mul_conj, normSq_eq_norm_sq]
    rw [← h x, hn]
    push_cast
    ring
  rw [e, sub_im, im_ofReal_mul, im_ofReal_mul, key, im_sum]
  simp only [im_mul_ofReal]
  ring

/-- **C75 (the solver).** For the field of a Solution that has converged to the fixed point of its iteration, and the current density that it reports: the power `½ Re(j* · E)` is the
absorbed power, up to the factor `ω μ₀`.  The current density of the documentation would have `- ½ Re(j* · E)` here, see `C41_documented_violates`. -/
theorem C75_solver (co : Const) (g : Grid.Obj d ℝ) (hs : ∀ a, g.step a ≠ 0) {k0 : ℝ} (hk0 : k0 ≠ 0) (hω : co.omega k0 * co.mu0 ≠ 0) (hd : d ≤ 3) (m : Medium 3 g.shape)
    (hxi : ∀ x, m.xi x = 0) (hzeta : ∀ x, m.zeta x = 0) {muScalar : Bool} {i0 : Fin 3} {x0 : Idx g.shape} {mag : Bool} {beta : ℝ}
    (hc : Chosen m muScalar i0 x0 mag beta) (hr : RealPermeability m mag x0) {alpha : ℂ} (hα : alpha.im ≠ 0) (hm : Lossless m.mu) (S F : Field 3 g.shape)
    (h : Preconditioned (.vectorial hd) (backendK g k0) (prepare m mag alpha beta S F)) :
    co.omega k0 * co.mu0 * (overlap (getE k0 (prepare m mag alpha beta S F)) (getJ co k0 (prepare m mag alpha beta S F))).re =
      k0 ^ 2 * (overlap (getE k0 (prepare m mag alpha beta S F)) (Spec.Solver.act m.epsilon (getE k0 (prepare m mag alpha beta S F)))).im := by
  have hw := (C32_wave_equation g hs hk0 hd m hxi hzeta hc hr hα S F).1 h
  have h1 := C75_balance hw
  have hmi : Lossless fun x => (m.mu x)⁻¹ := fun x => by rw [Matrix.conjTranspose_nonsing_inv, hm x]
  rw [lossless_im hmi, add_zero] at h1
  set E := getE k0 (prepare m mag alpha beta S F)
  have hS : getSource (prepare m mag alpha beta S F) = S := by
    rw [prepare, C33_source _ hα]
    funext c x
    have h2 := ofReal_ne hα
    have h3 := ofReal_ne hc.beta_ne
    simp only [getSource, prepared, factor]
    field_simp
  have hω' : (co.omega k0 : ℂ) * (co.mu0 : ℂ) ≠ 0 := by exact_mod_cast hω
  have hJ : S = (((co.omega k0 * co.mu0 : ℝ) : ℂ) * -I) • getJ co k0 (prepare m mag alpha beta S F) := by
    funext c x
    have hI : -I * (co.omega k0 : ℂ) * (co.mu0 : ℂ) ≠ 0 := by
      rw [mul_assoc]; exact mul_ne_zero (neg_ne_zero.2 I_ne_zero) hω'
    simp only [getJ, hS, Pi.smul_apply, smul_eq_mul]
    rw [mul_div_assoc', eq_div_iff hI]
    push_cast
    ring
  rw [hJ, overlap_dot, dot_smul, ← overlap_dot, mul_assoc, im_ofReal_mul] at h1
  rw [show (-I * overlap E (getJ co k0 (prepare m mag alpha beta S F))).im = -(overlap E (getJ co k0 (prepare m mag alpha beta S F))).re by simp] at h1
  linarith

/-- The hypotheses can be met: every field solves the wave equation for some source, here in an absorbing gyrotropic material. -/
example (k : Fin 2 → Idx ![4, 4] → ℝ) (E : Fin 3 → Idx ![4, 4] → ℂ) : (∃ S, WaveEquation k 1 (fun _ => !![2, I, 0; -I, 2, 0; 0, 0, 1 + I]) (fun _ => 1) S E) ∧
    Lossless (N := ![4, 4]) (fun _ => !![2, I, 0; -I, 2, 0; 0, 0, 1]) ∧ Lossless (N := ![4, 4]) (n := 3) fun _ => 1 := by
  refine ⟨⟨_, fun _ _ => rfl⟩, fun _ => ?_, fun _ => Matrix.conjTranspose_one⟩
  ext i j
  fin_cases i <;> fin_cases j <;> simp

end Verif.Solver
