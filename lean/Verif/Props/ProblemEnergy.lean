import Verif.Props.ProblemCoupledRate
import Verif.Props.SolverReciprocityCoupled

/-!
# C75: conservation of energy, from the arguments of the call to the solution
-/

namespace Verif.Problem

open Verif Verif.Fourier Verif.Backend Verif.Solver Verif.Construct Complex Matrix
open Verif.Assign (toMatrixField)
open Verif.Spec.Solver (NoGain absorbed)
open Verif.Spec.Physics (overlap)

variable {d : ℕ} {co : Const} {p : Args d} {m : Medium 3 p.grid.shape} {S E0 : Solver.Field 3 p.grid.shape} (h : Describes co 3 p m S E0)
  (hvec : p.source.isVectorial (List.ofFn p.grid.shape) (p.currentFactor co) = true) (hs : ∀ a, p.grid.step a ≠ 0) (hk0 : 0 < p.frequency.k0 co.c)
  (hd : d ≤ 3) (o : Optimum) (tol : ℝ) {δ : ℝ} (hδ : 0 < δ)
include h hvec hs hk0 hδ

/-- **C75 (as called).** For all arguments that describe a vectorial problem with a uniform permeability in which all points absorb: the constructor succeeds, and the field to which the iteration converges is bounded by
the source, which delivers energy to it, whatever the optimizer returns and whatever the initial field. -/
theorem C75_called (hxi : ∀ x, m.xi x = 0) (hzeta : ∀ x, m.zeta x = 0) (htol : 0 ≤ tol) (form : ScalarForm d p.mu) {r : ℝ} (hr : 0 < r) (hmu : ∀ x, m.mu x = (r : ℂ) • 1)
    (habs : ∀ x (v : Fin 3 → ℂ), δ * ∑ i, ‖v i‖ ^ 2 ≤ (star v ⬝ᵥ (m.epsilon x).mulVec v).im) :
    ∃ s E, p.start co tol o = .ok ⟨3, s⟩ ∧ ConvergesExponentially (.vectorial hd) (backendK p.grid (p.frequency.k0 co.c)) (p.frequency.k0 co.c) s E ∧
      p.frequency.k0 co.c ^ 2 * δ * Backend.norm E ≤ Backend.norm S ∧ (overlap E S).im ≤ 0 := by
  have hgain : NoGain m.epsilon := fun x v => (mul_nonneg hδ.le (Finset.sum_nonneg fun _ _ => sq_nonneg _)).trans (habs x v)
  have hgainM : NoGain m.mu := fun x v => by
    rw [hmu, Matrix.smul_mulVec, Matrix.one_mulVec, dotProduct_smul, smul_eq_mul, star_dot_self, ← ofReal_mul, ofReal_im]
  have hinv : ∀ x, IsUnit (m.mu x).det := fun x => by
    rw [hmu, Matrix.det_smul, Matrix.det_one, mul_one]
    exact (pow_ne_zero _ (ofReal_ne hr.ne')).isUnit
  obtain ⟨s, E, h1, -, h2, h3⟩ := C86_uniform h hvec hd hs hk0 hxi hzeta hgain hgainM o tol htol form hr hmu ⟨δ, hδ, habs⟩
  exact ⟨s, E, h1, h3, C75_bound hk0.ne' habs hgainM hinv h2, C75_passive hgain hgainM hinv h2⟩

/-- **C75 (as called, coupled).** The same for any permeability and magneto-electric coupling, if the material with the exchanged coupling absorbs. -/
theorem C75_called_coupled (hmag : foundMagnetic (toMatrixField d p.xi) (toMatrixField d p.zeta) (toMatrixField d p.mu) = true) (hinv : ∀ x, IsUnit (m.mu x).det) (hv : o.vec.2 ≠ 0)
    (habs : ∀ x e h, δ * ∑ i, ‖e i‖ ^ 2 ≤ absorbed (m.exchanged.epsilon x) (m.exchanged.xi x) (m.exchanged.zeta x) (m.exchanged.mu x) e h) :
    ∃ s E, p.start co tol o = .ok ⟨3, s⟩ ∧ ConvergesExponentially (.vectorial hd) (backendK p.grid (p.frequency.k0 co.c)) (p.frequency.k0 co.c) s E ∧
      p.frequency.k0 co.c ^ 2 * δ * Backend.norm E ≤ Backend.norm S ∧ (overlap E S).im ≤ 0 := by
  obtain ⟨s, E, h1, -, h2, -, h3⟩ := C86_coupled h hvec hs hk0 hd o tol hmag hinv hv ⟨δ, hδ, habs⟩
  exact ⟨s, E, h1, h3, C75_coupled_bound hk0.ne' habs h2,
    C75_coupled_passive hk0.ne' (fun x e f => (mul_nonneg hδ.le (Finset.sum_nonneg fun _ _ => sq_nonneg _)).trans (habs x e f)) h2⟩

omit h hvec hs hk0 hδ

/-- **C75 (as called, scalar).** For all arguments that describe a scalar problem in which all points absorb, with a nearly uniform permeability: the field to which the iteration converges takes from the source the power that is
absorbed at the points, and it is bounded by the source. -/
theorem C75_called_scalar {m : Medium 1 p.grid.shape} {S E0 : Solver.Field 1 p.grid.shape} (h : Describes co 1 p m S E0) (hvec : p.source.isVectorial (List.ofFn p.grid.shape) (p.currentFactor co) = false)
    (hs : ∀ a, p.grid.step a ≠ 0) (hk0 : 0 < p.frequency.k0 co.c) (o : Optimum) (tol : ℝ) {δ : ℝ} (hδ : 0 < δ) (hxi : ∀ x, m.xi x = 0) (hzeta : ∀ x, m.zeta x = 0)
    (habs : ∀ x, δ ≤ (m.epsilon x 0 0).im) (hgainM : ∀ x, 0 ≤ (m.mu x 0 0).im) (htol : 0 ≤ tol)
    (hmu : ∀ x, ‖m.mu x 0 0 - m.mu (first h.nonempty) 0 0‖ ≤ 1e-8 + 1e-5 * ‖m.mu (first h.nonempty) 0 0‖) (hβ : 0 < ((m.mu (first h.nonempty) 0 0)⁻¹).re) :
    ∃ s E, p.start co tol o = .ok ⟨1, s⟩ ∧ ConvergesExponentially .scalar (backendK p.grid (p.frequency.k0 co.c)) (p.frequency.k0 co.c) s E ∧
      (overlap E S).im = -(p.frequency.k0 co.c ^ 2 * ∑ x, (m.epsilon x 0 0).im * ‖E 0 x‖ ^ 2) ∧ p.frequency.k0 co.c ^ 2 * δ * Backend.norm E ≤ Backend.norm S := by
  obtain ⟨s, E, h1, -, h2, h3⟩ := C86_scalar h hvec hs hk0 hxi hzeta (fun x => hδ.trans_le (habs x)) o tol hgainM htol hmu hβ
  rw [← ofReal_inv] at h2
  have hb : (overlap E S).im = -(p.frequency.k0 co.c ^ 2 * ∑ x, (m.epsilon x 0 0).im * ‖E 0 x‖ ^ 2) := by
    have := C75_scalar h2
    rw [← this]
    simp only [overlap, dotProduct, Fin.sum_univ_one]
    rfl
  refine ⟨s, E, h1, h3, hb, ?_⟩
  have h4 : ‖overlap E S‖ ≤ Backend.norm E * Backend.norm S := by
    rw [overlap_dot, dot_eq, ← norm_toE, ← norm_toE]
    exact norm_inner_le_norm _ _
  have h5 := (abs_le.1 ((abs_im_le_norm (overlap E S)).trans h4)).1
  have h6 : δ * Backend.norm E ^ 2 ≤ ∑ x, (m.epsilon x 0 0).im * ‖E 0 x‖ ^ 2 := by
    rw [norm_sq, Finset.sum_comm, Finset.mul_sum]
    refine Finset.sum_le_sum fun x _ => ?_
    rw [Fin.sum_univ_one]
    exact mul_le_mul_of_nonneg_right (habs x) (sq_nonneg _)
  have hk : 0 < p.frequency.k0 co.c ^ 2 := by positivity
  rcases (norm_nonneg' E).eq_or_lt with h0 | h0
  · rw [← h0, mul_zero]; exact norm_nonneg' S
  · have h7 : p.frequency.k0 co.c ^ 2 * (δ * Backend.norm E ^ 2) ≤ Backend.norm E * Backend.norm S := by nlinarith [mul_le_mul_of_nonneg_left h6 hk.le]
    have h8 : Backend.norm E * (p.frequency.k0 co.c ^ 2 * δ * Backend.norm E) ≤ Backend.norm E * Backend.norm S := by nlinarith
    exact le_of_mul_le_mul_left h8 h0

/-- The hypotheses of `C75_called_scalar` are met. -/
example (co : Const) (o : Optimum) := by
  refine C75_called_scalar (demo_describes false 1 co) rfl demo_step one_pos o 1e-8 one_pos (fun _ => rfl) (fun _ => rfl) (fun x => ?_) (fun x => ?_) (by norm_num) (fun x => ?_) ?_
  · change 1 ≤ (((if (x 0).val = 0 then 1 + I else 2 + I : ℂ) • (1 : Matrix (Fin 1) (Fin 1) ℂ) + (if (x 0).val = 0 then 0 else I : ℂ) • 1) 0 0).im
    split_ifs <;> simp
  · change 0 ≤ (((2 : ℂ) • (1 : Matrix (Fin 1) (Fin 1) ℂ)) 0 0).im
    simp
  · change ‖((2 : ℂ) • (1 : Matrix (Fin 1) (Fin 1) ℂ)) 0 0 - ((2 : ℂ) • (1 : Matrix (Fin 1) (Fin 1) ℂ)) 0 0‖ ≤ (1e-8 : ℝ) + 1e-5 * ‖((2 : ℂ) • (1 : Matrix (Fin 1) (Fin 1) ℂ)) 0 0‖
    rw [sub_self, norm_zero]
    positivity
  · change 0 < ((((2 : ℂ) • (1 : Matrix (Fin 1) (Fin 1) ℂ)) 0 0)⁻¹).re
    simp

/-- The hypotheses of `C75_called` are met. -/
example (co : Const) (o : Optimum) :=
  C75_called (demo_describes true 3 co) rfl demo_step one_pos (by decide) o 1e-8 one_pos (fun _ => rfl) (fun _ => rfl) (by norm_num) ⟨by simp [demoArgs], by simp [demoArgs]⟩ (r := 2) (by norm_num)
    (fun _ => by push_cast; rfl) (demo_absorbs_one 3)

/-- The hypotheses of `C75_called_coupled` are met by a chiral material. -/
example (co : Const) (o : Optimum) (ho : o.vec.2 ≠ 0) :=
  C75_called_coupled (chiral_describes co) rfl demo_step one_pos (by decide) o 1e-8 one_pos chiral_found chiral_invertible ho chiral_absorbs_exchanged

end Verif.Problem
