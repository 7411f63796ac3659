import Verif.Props.SolverCoupled
import Verif.Props.SolverEnergy
import Verif.Props.SolverReciprocity
import Verif.Spec.Reciprocity

/-!
# C74, C75: reciprocity and conservation of energy with magneto-electric coupling
-/

namespace Verif.Solver

open Verif Verif.Fourier Verif.Backend Complex Matrix
open Verif.Spec.Physics
open Verif.Spec.Solver (Coupled CoupledEquation PassiveCoupled AbsorbingCoupled absorbed)

variable {d n : ℕ} {N : Fin d → ℕ}

theorem reaction_add (F G H : Field n N) : reaction F (G + H) = reaction F G + reaction F H := by
  have := reaction_sub F (G + H) H
  rw [add_sub_cancel_right] at this
  rw [this, sub_add_cancel]

theorem reaction_transpose (A : Tensor n N) (F G : Field n N) : reaction F (mulField A G) = reaction G (mulField (fun x => (A x)ᵀ) F) := by
  unfold reaction
  refine Finset.sum_congr rfl fun x _ => ?_
  show (fun c => F c x) ⬝ᵥ (A x) *ᵥ (fun c => G c x) = (fun c => G c x) ⬝ᵥ (A x)ᵀ *ᵥ fun c => F c x
  rw [Matrix.dotProduct_mulVec, ← Matrix.mulVec_transpose, dotProduct_comm]

theorem mulField_neg (A : Tensor n N) (F : Field n N) : mulField (fun x => -A x) F = (-1 : ℂ) • mulField A F := by
  funext c x
  show ((-A x) *ᵥ fun j => F j x) c = -1 * ((A x) *ᵥ fun j => F j x) c
  rw [Matrix.neg_mulVec, Pi.neg_apply, neg_one_mul]

theorem coupled_fields {k : Fin d → Idx N → ℝ} {k0 : ℝ} {epsilon xi zeta mu : Tensor 3 N} {S E H : Field 3 N} (h : Coupled k k0 epsilon xi zeta mu S E H) :
    curl 3 k E = (I * k0) • (mulField zeta E + mulField mu H) ∧ curl 3 k H = (-I * k0) • (mulField epsilon E + mulField xi H) - (I / k0) • S := by
  refine ⟨?_, ?_⟩ <;> funext c x
  · have := h.1 c x
    rw [spec_curl, spec_act, spec_act] at this
    exact this
  · have := h.2 c x
    rw [spec_curl, spec_act, spec_act] at this
    exact this

/-- **C74 (coupling, partial).** For all reciprocal materials with magneto-electric coupling, on all grids with an odd number of samples along each axis, all sources and all solutions of Maxwell's equations.  What is missing:
grids with an even number of samples, see `C74_violates`. -/
theorem C74_coupled_partial (g : Grid.Obj d ℝ) (hs : ∀ a, 1 < g.shape a → g.step a ≠ 0) (hodd : ∀ a, g.shape a % 2 = 1) {k0 : ℝ} (hk0 : k0 ≠ 0) {epsilon xi zeta mu : Idx g.shape → Matrix (Fin 3) (Fin 3) ℂ}
    (hr : ReciprocalCoupled epsilon xi zeta mu) {S S' E E' : Fin 3 → Idx g.shape → ℂ} (h : CoupledEquation (kOf g) k0 epsilon xi zeta mu S E) (h' : CoupledEquation (kOf g) k0 epsilon xi zeta mu S' E') :
    reaction S' E = reaction S E' := by
  have hk := kOf_odd g hs hodd
  have hk' : (k0 : ℂ) ≠ 0 := ofReal_ne hk0
  obtain ⟨H, hH⟩ := h
  obtain ⟨H', hH'⟩ := h'
  have key : ∀ {S E H E' H' : Field 3 g.shape} {S' : Field 3 g.shape}, Coupled (kOf g) k0 epsilon xi zeta mu S E H → Coupled (kOf g) k0 epsilon xi zeta mu S' E' H' →
      reaction E' S = -(k0 : ℂ) ^ 2 * (reaction E' (mulField epsilon E) + reaction H (mulField mu H')) := by
    intro S E H E' H' S' h h'
    have h1 := reaction_curl hk E' H
    rw [(coupled_fields h).2, (coupled_fields h').1, reaction_sub, reaction_smul, reaction_smul, reaction_add, reaction_comm _ H, reaction_smul, reaction_add,
      show zeta = fun x => -(xi x)ᵀ from funext hr.coupling, mulField_neg, reaction_smul, reaction_transpose _ H E'] at h1
    simp only [Matrix.transpose_transpose] at h1
    have h2 : I / (k0 : ℂ) * reaction E' S = -I * k0 * (reaction E' (mulField epsilon E) + reaction H (mulField mu H')) := by linear_combination -h1
    have h3 : (k0 : ℂ) / I * (I / (k0 : ℂ) * reaction E' S) = reaction E' S := by
      field_simp [I_ne_zero]
    rw [← h3, h2]
    field_simp [I_ne_zero]
  rw [reaction_comm S' E, reaction_comm S E', key hH' hH, key hH hH', reaction_mulField hr.epsilon, reaction_mulField hr.mu]

/-- **C74 (exchanged coupling).** The material with the exchanged coupling, which the solver uses, is reciprocal if the one that was given is. -/
theorem C74_exchanged {m : Medium 3 N} (hr : ReciprocalCoupled m.epsilon m.xi m.zeta m.mu) : ReciprocalCoupled m.exchanged.epsilon m.exchanged.xi m.exchanged.zeta m.exchanged.mu := by
  have hi : ∀ x, ((m.mu x)⁻¹)ᵀ = (m.mu x)⁻¹ := fun x => by rw [Matrix.transpose_nonsing_inv, hr.mu x]
  refine ⟨fun x => ?_, hr.mu, fun x => ?_⟩
  · simp only [Medium.exchanged, hr.coupling, Matrix.transpose_add, Matrix.transpose_sub, Matrix.transpose_mul, Matrix.transpose_neg, Matrix.transpose_transpose, hr.epsilon x, hr.mu x, hi,
      Matrix.mul_neg, Matrix.neg_mul, Matrix.mul_assoc]
  · simp only [Medium.exchanged, hr.coupling, Matrix.transpose_mul, Matrix.transpose_transpose, hr.mu x, hi, Matrix.mul_neg, Matrix.neg_mul, Matrix.mul_assoc, neg_neg]

/-- **C74 (solver with coupling, partial).** The fields to which the iterations converge for two sources, with the constants that the code selects, in reciprocal materials with coupling that absorb, on odd grids. -/
theorem C74_coupled_solver_partial (g : Grid.Obj d ℝ) (hs : ∀ a, g.step a ≠ 0) (hodd : ∀ a, g.shape a % 2 = 1) {k0 : ℝ} (hk0 : 0 < k0) (hd : d ≤ 3) {m : Medium 3 g.shape} (hinv : ∀ x, IsUnit (m.mu x).det)
    (thickness : List ℝ) {vec : ℝ × ℝ} (hv : vec.2 ≠ 0) (hr : ReciprocalCoupled m.epsilon m.xi m.zeta m.mu) (hp : AbsorbingCoupled m.exchanged.epsilon m.exchanged.xi m.exchanged.zeta m.exchanged.mu)
    (S S' F F' : Field 3 g.shape) :
    let c := m.constantsMagnetic g.step k0 thickness vec
    ∃ E E', ConvergesExponentially (.vectorial hd) (backendK g k0) k0 (prepare m true c.1 c.2 S F) E ∧ ConvergesExponentially (.vectorial hd) (backendK g k0) k0 (prepare m true c.1 c.2 S' F') E' ∧
      reaction S' E = reaction S E' := by
  intro c
  obtain ⟨E, h1, -, h2⟩ := C89_absorbing hs hk0 hd hinv thickness hv hp S F
  obtain ⟨E', h1', -, h2'⟩ := C89_absorbing hs hk0 hd hinv thickness hv hp S' F'
  exact ⟨E, E', h2, h2', C74_coupled_partial g (fun a _ => hs a) hodd hk0.ne' (C74_exchanged hr) h1 h1'⟩

/-- **C75 (coupling).** For all grids and all materials with magneto-electric coupling: the power that the source delivers is what the material absorbs. -/
theorem C75_coupled {k : Fin d → Idx N → ℝ} {k0 : ℝ} (hk0 : k0 ≠ 0) {epsilon xi zeta mu : Tensor 3 N} {S E H : Field 3 N} (h : Coupled k k0 epsilon xi zeta mu S E H) :
    (overlap E S).im = -(k0 ^ 2 * ∑ x, absorbed (epsilon x) (xi x) (zeta x) (mu x) (fun c => E c x) fun c => H c x) := by
  have hk' : (k0 : ℂ) ≠ 0 := ofReal_ne hk0
  have h1 := curl_adjoint k E H
  rw [← dot_conj H, (coupled_fields h).1, (coupled_fields h).2, dot_sub, dot_smul, dot_smul, dot_smul, dot_add, dot_add, map_mul, map_mul, conj_I, conj_ofReal] at h1
  have h2 : ∑ x, absorbed (epsilon x) (xi x) (zeta x) (mu x) (fun c => E c x) (fun c => H c x) =
      (dot E (mulField epsilon E) + dot E (mulField xi H)).im + (dot H (mulField zeta E) + dot H (mulField mu H)).im := by
    rw [dot_mulField, dot_mulField, dot_mulField, dot_mulField, ← Finset.sum_add_distrib, ← Finset.sum_add_distrib, Complex.im_sum, Complex.im_sum, ← Finset.sum_add_distrib]
    refine Finset.sum_congr rfl fun x _ => ?_
    unfold absorbed
    rw [dotProduct_add, dotProduct_add, add_im]
  have h3 : dot E S = ((k0 ^ 2 : ℝ) : ℂ) * ((starRingEnd ℂ) (dot H (mulField zeta E) + dot H (mulField mu H)) - (dot E (mulField epsilon E) + dot E (mulField xi H))) := by
    have h4 : (k0 : ℂ) / I * (I / (k0 : ℂ) * dot E S) = dot E S := by
      field_simp [I_ne_zero]
    have h5 : I / (k0 : ℂ) * dot E S = I * k0 * ((starRingEnd ℂ) (dot H (mulField zeta E) + dot H (mulField mu H)) - (dot E (mulField epsilon E) + dot E (mulField xi H))) := by
      linear_combination -h1
    rw [← h4, h5]
    push_cast
    field_simp [I_ne_zero]
  rw [overlap_dot, h2, h3, im_ofReal_mul, sub_im, conj_im]
  ring

/-- **C75 (passive, coupling).** In passive materials the source never receives energy. -/
theorem C75_coupled_passive {k : Fin d → Idx N → ℝ} {k0 : ℝ} (hk0 : k0 ≠ 0) {epsilon xi zeta mu : Tensor 3 N} (hp : PassiveCoupled epsilon xi zeta mu) {S E : Field 3 N}
    (h : CoupledEquation k k0 epsilon xi zeta mu S E) : (overlap E S).im ≤ 0 := by
  obtain ⟨H, h⟩ := h
  rw [C75_coupled hk0 h]
  exact neg_nonpos.2 (mul_nonneg (sq_nonneg k0) (Finset.sum_nonneg fun x _ => hp x _ _))

/-- **C75 (bound, coupling).** Where all points absorb electric fields, the field is bounded by the source. -/
theorem C75_coupled_bound {k : Fin d → Idx N → ℝ} {k0 : ℝ} (hk0 : k0 ≠ 0) {epsilon xi zeta mu : Tensor 3 N} {δ : ℝ}
    (hδ : ∀ x e h, δ * ∑ i, ‖e i‖ ^ 2 ≤ absorbed (epsilon x) (xi x) (zeta x) (mu x) e h) {S E : Field 3 N} (h : CoupledEquation k k0 epsilon xi zeta mu S E) :
    k0 ^ 2 * δ * Backend.norm E ≤ Backend.norm S := by
  obtain ⟨H, h⟩ := h
  have h1 : δ * Backend.norm E ^ 2 ≤ ∑ x, absorbed (epsilon x) (xi x) (zeta x) (mu x) (fun c => E c x) fun c => H c x := by
    rw [norm_sq, Finset.sum_comm, Finset.mul_sum]
    exact Finset.sum_le_sum fun x _ => hδ x _ _
  have h3 := C75_coupled hk0 h
  have h4 : ‖overlap E S‖ ≤ Backend.norm E * Backend.norm S := by
    rw [overlap_dot, dot_eq, ← norm_toE, ← norm_toE]
    exact norm_inner_le_norm _ _
  have h5 := (abs_le.1 ((abs_im_le_norm (overlap E S)).trans h4)).1
  have hk : 0 < k0 ^ 2 := by positivity
  rcases (norm_nonneg' E).eq_or_lt with h0 | h0
  · rw [← h0, mul_zero]; exact norm_nonneg' S
  · have h6 : k0 ^ 2 * (δ * Backend.norm E ^ 2) ≤ Backend.norm E * Backend.norm S := by nlinarith [mul_le_mul_of_nonneg_left h1 hk.le]
    have h7 : Backend.norm E * (k0 ^ 2 * δ * Backend.norm E) ≤ Backend.norm E * Backend.norm S := by nlinarith
    exact le_of_mul_le_mul_left h7 h0

/-- **C75 (solver with coupling).** In terms of what the solver returns: the power that the current density delivers to the field that the iteration leaves unchanged is what the material with the
exchanged coupling absorbs. -/
theorem C75_coupled_solver (co : Const) (g : Grid.Obj d ℝ) (hs : ∀ a, g.step a ≠ 0) {k0 : ℝ} (hk0 : 0 < k0) (hω : co.omega k0 * co.mu0 ≠ 0) (hd : d ≤ 3) {m : Medium 3 g.shape}
    (hinv : ∀ x, IsUnit (m.mu x).det) {alpha : ℂ} (hα : alpha.im ≠ 0) {beta : ℝ} (hβ : beta ≠ 0) (S F : Field 3 g.shape)
    (h : Preconditioned (.vectorial hd) (backendK g k0) (prepare m true alpha beta S F)) :
    ∃ H, Coupled (kOf g) k0 m.exchanged.epsilon m.exchanged.xi m.exchanged.zeta m.exchanged.mu S (getE k0 (prepare m true alpha beta S F)) H ∧
      co.omega k0 * co.mu0 * (overlap (getE k0 (prepare m true alpha beta S F)) (getJ co k0 (prepare m true alpha beta S F))).re =
        k0 ^ 2 * ∑ x, absorbed (m.exchanged.epsilon x) (m.exchanged.xi x) (m.exchanged.zeta x) (m.exchanged.mu x) (fun c => getE k0 (prepare m true alpha beta S F) c x) fun c => H c x := by
  obtain ⟨H, hH⟩ := (C89_equation hs hk0 hd hinv hα hβ S F).1 h
  refine ⟨H, hH, ?_⟩
  have h1 := C75_coupled hk0.ne' hH
  set E := getE k0 (prepare m true alpha beta S F)
  have hS : getSource (prepare m true alpha beta S F) = S := by
    rw [prepare, C33_source _ hα]
    funext c x
    have h2 := ofReal_ne hα
    have h3 := ofReal_ne hβ
    simp only [getSource, prepared, factor]
    field_simp
  have hω' : (co.omega k0 : ℂ) * (co.mu0 : ℂ) ≠ 0 := by exact_mod_cast hω
  have hJ : S = (((co.omega k0 * co.mu0 : ℝ) : ℂ) * -I) • getJ co k0 (prepare m true alpha beta S F) := by
    funext c x
    have hI : -I * (co.omega k0 : ℂ) * (co.mu0 : ℂ) ≠ 0 := by
      rw [mul_assoc]; exact mul_ne_zero (neg_ne_zero.2 I_ne_zero) hω'
    simp only [getJ, hS, Pi.smul_apply, smul_eq_mul]
    rw [mul_div_assoc', eq_div_iff hI]
    push_cast
    ring
  have h2 : (overlap E S).im = -(co.omega k0 * co.mu0 * (overlap E (getJ co k0 (prepare m true alpha beta S F))).re) := by
    conv_lhs => rw [hJ]
    rw [overlap_dot, dot_smul, ← overlap_dot, mul_assoc, im_ofReal_mul]
    simp
  linarith

/-- A chiral material with absorption, on any grid. -/
noncomputable def handed (N : Fin d → ℕ) : Medium 3 N := ⟨fun _ => (2 + I) • 1, fun _ => (I / 2) • 1, fun _ => (-(I / 2)) • 1, fun _ => 1⟩

theorem handed_reciprocal : ReciprocalCoupled (handed N).epsilon (handed N).xi (handed N).zeta (handed N).mu :=
  ⟨fun _ => by simp [handed], fun _ => by simp [handed], fun _ => by simp [handed]⟩

theorem handed_exchanged : (handed N).exchanged = handed N := by
  unfold Medium.exchanged handed
  simp

theorem handed_absorbs (x : Idx N) (e h : Fin 3 → ℂ) : 1 * ∑ i, ‖e i‖ ^ 2 ≤ absorbed ((handed N).epsilon x) ((handed N).xi x) ((handed N).zeta x) ((handed N).mu x) e h := by
  refine le_of_eq ?_
  unfold absorbed handed
  simp only [Matrix.smul_mulVec, Matrix.one_mulVec, dotProduct, Fin.sum_univ_three, Pi.add_apply, Pi.smul_apply, Pi.star_apply, smul_eq_mul, RCLike.star_def, ← Complex.normSq_eq_norm_sq, Complex.normSq_apply]
  simp
  ring

theorem handed_absorbing : AbsorbingCoupled (handed N).epsilon (handed N).xi (handed N).zeta (handed N).mu := ⟨1, one_pos, handed_absorbs⟩

/-- `C75_coupled_bound` for the chiral material, with a wavelength of 2 π. -/
example {k : Fin d → Idx N → ℝ} {S E : Field 3 N} := C75_coupled_bound (k := k) (S := S) (E := E) one_ne_zero (handed_absorbs (N := N))

/-- `C74_coupled_solver_partial`, and with it `C74_coupled_partial` and `C74_exchanged`, for a chiral material. -/
example (g : Grid.Obj d ℝ) (hs : ∀ a, g.step a ≠ 0) (hodd : ∀ a, g.shape a = 65) (hd : d ≤ 3) (S S' F F' : Field 3 g.shape) :=
  C74_coupled_solver_partial g hs (fun a => by rw [hodd a]) one_pos hd (m := handed g.shape) (fun _ => by simp [handed]) [] (vec := (1, 1)) one_ne_zero handed_reciprocal
    (by rw [handed_exchanged]; exact handed_absorbing) S S' F F'

/-- `C75_coupled_passive`, and with it `C75_coupled`, for the chiral material and a field that it has. -/
example (g : Grid.Obj d ℝ) (hs : ∀ a, g.step a ≠ 0) (hd : d ≤ 3) (S : Field 3 g.shape) : ∃ E, CoupledEquation (kOf g) 1 (handed g.shape).epsilon (handed g.shape).xi (handed g.shape).zeta (handed g.shape).mu S E ∧
    (overlap E S).im ≤ 0 := by
  obtain ⟨E, h, -⟩ := C89_absorbing hs one_pos hd (m := handed g.shape) (fun _ => by simp [handed]) [] (vec := (1, 1)) one_ne_zero (by rw [handed_exchanged]; exact handed_absorbing) S 0
  rw [handed_exchanged] at h
  exact ⟨E, h, C75_coupled_passive one_ne_zero (fun x e f => (mul_nonneg zero_le_one (Finset.sum_nonneg fun _ _ => sq_nonneg _)).trans (handed_absorbs x e f)) h⟩

/-- `C75_coupled_solver` for the chiral material: the solver has a field that the iteration leaves unchanged. -/
example (co : Const) (hω : co.omega 1 * co.mu0 ≠ 0) (g : Grid.Obj d ℝ) (hs : ∀ a, g.step a ≠ 0) (hd : d ≤ 3) (S : Field 3 g.shape) :
    ∃ F, Preconditioned (.vectorial hd) (backendK g 1) (prepare (handed g.shape) true I 1 S F) ∧
      0 ≤ co.omega 1 * co.mu0 * (overlap (getE 1 (prepare (handed g.shape) true I 1 S F)) (getJ co 1 (prepare (handed g.shape) true I 1 S F))).re := by
  have hinv : ∀ x, IsUnit ((handed g.shape).mu x).det := fun _ => by simp [handed]
  obtain ⟨E, h, -⟩ := C89_absorbing hs one_pos hd (m := handed g.shape) hinv [] (vec := (1, 1)) one_ne_zero (by rw [handed_exchanged]; exact handed_absorbing) S 0
  have hE : getE 1 (prepare (handed g.shape) true I 1 S E) = E := by
    funext c x
    simp [getE, prepare, updateOperators, prepared]
  have hP := (C89_equation hs one_pos hd hinv (alpha := I) (by simp) (beta := 1) one_ne_zero S E).2 (by rw [hE]; exact h)
  obtain ⟨H, -, hb⟩ := C75_coupled_solver co g hs one_pos hω hd hinv (by simp) one_ne_zero S E hP
  refine ⟨E, hP, ?_⟩
  rw [hb, handed_exchanged]
  exact mul_nonneg (sq_nonneg _) (Finset.sum_nonneg fun x _ => (mul_nonneg zero_le_one (Finset.sum_nonneg fun _ _ => sq_nonneg _)).trans (handed_absorbs x _ _))

end Verif.Solver
