import Verif.Lemmas.SolverTurn
import Verif.Props.SolverFields

/-!
# The arrays that are calculated from the fields, with other axes
-/

namespace Verif.Solver

open Verif Verif.Fourier Verif.Backend Complex Matrix

variable {d n : ℕ} {N N' : Fin d → ℕ} {k : Fin d → Idx N → ℝ} {k' : Fin d → Idx N' → ℝ} (t : Turn n k k')

/-- A material with the new axes.  The tensors that couple electric and magnetic fields change sign with the orientation. -/
noncomputable def Medium.turn (m : Medium n N) : Medium n N' where
  epsilon := t.tensor m.epsilon
  xi := t.orientation • t.tensor m.xi
  zeta := t.orientation • t.tensor m.zeta
  mu := t.tensor m.mu

theorem Turn.conj_mul (A B : Matrix (Fin n) (Fin n) ℂ) : (t.cmatrix * A * t.cmatrixᵀ) * (t.cmatrix * B * t.cmatrixᵀ) = t.cmatrix * (A * B) * t.cmatrixᵀ := by
  calc _ = t.cmatrix * A * (t.cmatrixᵀ * t.cmatrix) * B * t.cmatrixᵀ := by simp only [Matrix.mul_assoc]
    _ = _ := by rw [t.corthogonal']; simp only [Matrix.mul_assoc, Matrix.one_mul]

theorem Turn.conj_inv (A : Matrix (Fin n) (Fin n) ℂ) : (t.cmatrix * A * t.cmatrixᵀ)⁻¹ = t.cmatrix * A⁻¹ * t.cmatrixᵀ := by
  rw [Matrix.mul_inv_rev, Matrix.mul_inv_rev, t.cinv, ← Matrix.transpose_nonsing_inv, t.cinv, Matrix.transpose_transpose, Matrix.mul_assoc]

theorem muInv_turn (m : Medium n N) : (m.turn t).muInv = t.tensor m.muInv := by
  funext x'
  exact t.conj_inv _

theorem chiEHBeta_turn (m : Medium n N) : (m.turn t).chiEHBeta = t.orientation • t.tensor m.chiEHBeta := by
  funext x'
  show (-I) • ((t.orientation • t.tensor m.xi x') * (m.turn t).muInv x') = _
  rw [muInv_turn, Matrix.smul_mul]
  show (-I) • t.orientation • (t.cmatrix * m.xi _ * t.cmatrixᵀ * (t.cmatrix * m.muInv _ * t.cmatrixᵀ)) = t.orientation • (t.cmatrix * ((-I) • (m.xi _ * m.muInv _)) * t.cmatrixᵀ)
  rw [t.conj_mul, Matrix.mul_smul, Matrix.smul_mul, smul_comm]

theorem chiHEBeta_turn (m : Medium n N) : (m.turn t).chiHEBeta = t.orientation • t.tensor m.chiHEBeta := by
  funext x'
  show I • ((m.turn t).muInv x' * (t.orientation • t.tensor m.zeta x')) = _
  rw [muInv_turn, Matrix.mul_smul]
  show I • t.orientation • (t.cmatrix * m.muInv _ * t.cmatrixᵀ * (t.cmatrix * m.zeta _ * t.cmatrixᵀ)) = t.orientation • (t.cmatrix * (I • (m.muInv _ * m.zeta _)) * t.cmatrixᵀ)
  rw [t.conj_mul, Matrix.mul_smul, Matrix.smul_mul, smul_comm]

theorem epsilonPrime_turn (m : Medium n N) : (m.turn t).epsilonPrime = t.tensor m.epsilonPrime := by
  funext x'
  unfold Medium.epsilonPrime
  rw [chiHEBeta_turn]
  show t.cmatrix * m.epsilon _ * t.cmatrixᵀ - (t.orientation • (t.cmatrix * m.xi _ * t.cmatrixᵀ)) * ((-I) • t.orientation • (t.cmatrix * m.chiHEBeta _ * t.cmatrixᵀ)) =
    t.cmatrix * (m.epsilon _ - m.xi _ * ((-I) • m.chiHEBeta _)) * t.cmatrixᵀ
  rw [smul_comm (-I), Matrix.smul_mul, Matrix.mul_smul, smul_smul, t.orientation_sq, one_smul, Matrix.mul_smul, t.conj_mul, Matrix.mul_sub, Matrix.sub_mul,
    Matrix.mul_smul, Matrix.mul_smul, Matrix.smul_mul]

theorem prepared_turn (m : Medium n N) (mag : Bool) (alpha : ℂ) (beta : ℝ) (S F : Field n N) :
    prepared (m.turn t) mag alpha beta (t.field S) (t.field F) = t.state (prepared m mag alpha beta S F) := by
  have h1 : ∀ (z : ℂ) (F : Field n N), (fun c x => t.field F c x * z) = t.field fun c x => F c x * z := by
    intro z F
    funext c x'
    simp only [Turn.field, Finset.sum_mul]
    exact Finset.sum_congr rfl fun j _ => by ring
  have h2 : ∀ (z : ℂ) (A : Tensor n N), (fun x => z • (t.orientation • t.tensor A) x) = t.orientation • t.tensor fun x => z • A x := by
    intro z A
    rw [tensor_smul]
    funext x'
    simp only [Pi.smul_apply]
    rw [smul_comm]
  have h3 : ∀ (z w : ℂ) (A : Tensor n N), (fun x => z • ((1 : Matrix (Fin n) (Fin n) ℂ) - w • t.tensor A x)) = t.tensor fun x => z • ((1 : Matrix (Fin n) (Fin n) ℂ) - w • A x) := by
    intro z w A
    rw [tensor_smul]
    funext x'
    congr 1
    simp only [Turn.tensor, Matrix.mul_sub, Matrix.sub_mul, Matrix.mul_smul, Matrix.smul_mul, Matrix.mul_one, t.corthogonal]
  have h4 : ∀ (z w : ℂ) (A : Tensor n N), (fun x => z • t.tensor A x - w • (1 : Matrix (Fin n) (Fin n) ℂ)) = t.tensor fun x => z • A x - w • (1 : Matrix (Fin n) (Fin n) ℂ) := by
    intro z w A
    funext x'
    simp only [Turn.tensor, Matrix.mul_sub, Matrix.sub_mul, Matrix.mul_smul, Matrix.smul_mul, Matrix.mul_one, t.corthogonal]
  unfold prepared Turn.state
  simp only [muInv_turn, chiEHBeta_turn, chiHEBeta_turn, epsilonPrime_turn, h1, h2, h3, h4]

theorem prepare_turn (m : Medium n N) (mag : Bool) (alpha : ℂ) (beta : ℝ) (S F : Field n N) :
    prepare (m.turn t) mag alpha beta (t.field S) (t.field F) = t.state (prepare m mag alpha beta S F) := by
  unfold prepare
  rw [prepared_turn, updateOperators_turn]

/-! ### Fields -/

theorem field_mul (z : ℂ) (F : Field n N) : t.field (fun c x => F c x * z) = fun c x => t.field F c x * z := by
  funext c x'
  simp only [Turn.field, Finset.sum_mul]
  exact Finset.sum_congr rfl fun j _ => by ring

theorem field_div (z : ℂ) (F : Field n N) : t.field (fun c x => F c x / z) = fun c x => t.field F c x / z := by
  simp only [div_eq_mul_inv]
  exact field_mul t _ F

theorem getE_turn (k0 : ℝ) (s : State n N) : getE k0 (t.state s) = t.field (getE k0 s) := (field_div t _ _).symm

theorem getSource_turn (s : State n N) : getSource (t.state s) = t.field (getSource s) := (field_mul t _ _).symm

theorem getB_turn (kind : Kind d n) (co : Const) (k0 : ℝ) (s : State n N) : getB co k0 k' (t.state s) = t.orientation • t.field (getB co k0 k s) := by
  unfold getB
  rw [getE_turn, curl_turn kind t, field_div]
  funext c x'
  simp only [Pi.smul_apply, smul_eq_mul]
  ring

theorem getH_turn (kind : Kind d n) (co : Const) (k0 : ℝ) (i0 : Fin n) (x0 : Idx N) (x0' : Idx N') (s : State n N)
    (hu : s.magnetic = false → ∃ z : ℂ, ∀ x, s.chiHH x = z • (1 : Matrix (Fin n) (Fin n) ℂ)) :
    getH co k0 k' i0 x0' (t.state s) = t.orientation • t.field (getH co k0 k i0 x0 s) := by
  cases hm : s.magnetic with
  | true =>
    have e : ∀ {N : Fin d → ℕ} (k : Fin d → Idx N → ℝ) (x0 : Idx N) (s : State n N), s.magnetic = true → getH co k0 k i0 x0 s =
        (I / ((co.mu0 : ℂ) * (co.c : ℂ))) • (((-s.beta : ℝ) : ℂ) • (curl n k (getE k0 s) + (I * (s.alpha.im : ℂ)) • mulField s.chiHH (curl n k (getE k0 s))) +
          ((s.beta : ℂ) * (-I * (s.alpha.im : ℂ))) • mulField s.chiHE (getE k0 s)) := by
      intro N k x0 s hm
      unfold getH
      rw [if_pos hm]
      funext c x
      have h1 : mulField (fun x => (s.beta : ℂ) • (1 - (-I * (s.alpha.im : ℂ)) • s.chiHH x)) (curl n k (getE k0 s)) c x =
          (s.beta : ℂ) * (curl n k (getE k0 s) c x - (-I * (s.alpha.im : ℂ)) * mulField s.chiHH (curl n k (getE k0 s)) c x) := by
        simp only [mulField, Matrix.smul_apply, Matrix.sub_apply, smul_eq_mul]
        simp only [mul_assoc, ← Finset.mul_sum, sub_mul, Finset.sum_sub_distrib]
        simp [Matrix.one_apply]
      have h2 : mulField (fun x => (-I * (s.alpha.im : ℂ)) • s.chiHE x) (getE k0 s) c x = (-I * (s.alpha.im : ℂ)) * mulField s.chiHE (getE k0 s) c x := by
        simp only [mulField, Matrix.smul_apply, smul_eq_mul, mul_assoc, ← Finset.mul_sum]
      simp only [h1, h2, Pi.smul_apply, Pi.add_apply, smul_eq_mul]
      push_cast
      ring
    rw [e k' x0' (t.state s) hm, e k x0 s hm, getE_turn, curl_turn kind t]
    rw [show (t.state s).chiHH = t.tensor s.chiHH from rfl, show (t.state s).chiHE = t.orientation • t.tensor s.chiHE from rfl,
      show (t.state s).beta = s.beta from rfl, show (t.state s).alpha = s.alpha from rfl]
    simp only [mulField_smul_tensor, mulField_smul_field, t.mulField, t.field_smul, t.field_add]
    module
  | false =>
    obtain ⟨z, hz⟩ := hu hm
    have e : ∀ {N : Fin d → ℕ} (k : Fin d → Idx N → ℝ) (x0 : Idx N) (s : State n N), s.magnetic = false → getH co k0 k i0 x0 s =
        ((1 - s.chiHH x0 i0 i0 * (-I * (s.alpha.im : ℂ))) * (s.beta : ℂ) * (-I / ((co.mu0 : ℂ) * (co.c : ℂ)))) • curl n k (getE k0 s) := by
      intro N k x0 s hm
      unfold getH
      rw [if_neg (by rw [hm]; exact Bool.false_ne_true)]
      funext c x
      simp only [Pi.smul_apply, smul_eq_mul]
      ring
    rw [e k' x0' (t.state s) hm, e k x0 s hm, getE_turn, curl_turn kind t, t.field_smul]
    have hx : (t.state s).chiHH x0' = s.chiHH x0 := by
      show t.cmatrix * s.chiHH _ * t.cmatrixᵀ = _
      rw [hz, hz, Matrix.mul_smul, Matrix.smul_mul, Matrix.mul_one, t.corthogonal]
    rw [hx, show (t.state s).beta = s.beta from rfl, show (t.state s).alpha = s.alpha from rfl, smul_comm]

theorem getD_turn (kind : Kind d n) (co : Const) (k0 : ℝ) (i0 : Fin n) (x0 : Idx N) (x0' : Idx N') (s : State n N)
    (hu : s.magnetic = false → ∃ z : ℂ, ∀ x, s.chiHH x = z • (1 : Matrix (Fin n) (Fin n) ℂ)) :
    getD co k0 k' i0 x0' (t.state s) = t.field (getD co k0 k i0 x0 s) := by
  have e : ∀ {N : Fin d → ℕ} (k : Fin d → Idx N → ℝ) (x0 : Idx N) (s : State n N), getD co k0 k i0 x0 s =
      ((k0 : ℂ) * (I / (co.omega k0 : ℂ))) • curl n k (getH co k0 k i0 x0 s) -
        (((s.beta : ℂ) / (I * (co.omega k0 : ℂ) * (co.mu0 : ℂ))) * ((s.alpha.im : ℂ) / I) * (I / (co.omega k0 : ℂ))) • s.source := by
    intro N k x0 s
    unfold getD
    funext c x
    simp only [Pi.sub_apply, Pi.smul_apply, smul_eq_mul]
    ring
  rw [e, e, getH_turn t kind co k0 i0 x0 x0' s hu, t.field_sub, t.field_smul, t.field_smul]
  have hl := (curl_isLinear (n := n) k').map_smul t.orientation (t.field (getH co k0 k i0 x0 s))
  rw [hl, curl_turn kind t, smul_smul t.orientation, t.orientation_sq, one_smul]
  rfl

theorem Turn.orientation_conj : (starRingEnd ℂ) t.orientation = t.orientation := by
  unfold Turn.orientation Turn.cmatrix
  have h : (t.matrix.map fun x : ℝ => (x : ℂ)).det = ((t.matrix.det : ℝ) : ℂ) := (RingHom.map_det (algebraMap ℝ ℂ) t.matrix).symm
  rw [h, conj_ofReal]

theorem Turn.orientation_re : ((t.matrix.det : ℝ) : ℂ) = t.orientation := RingHom.map_det (algebraMap ℝ ℂ) t.matrix

theorem field_conj (F : Field n N) (c : Fin n) (x' : Idx N') : (starRingEnd ℂ) (t.field F c x') = t.field (fun c x => (starRingEnd ℂ) (F c x)) c x' := by
  simp only [Turn.field, map_sum, map_mul]
  refine Finset.sum_congr rfl fun j _ => ?_
  simp [Turn.cmatrix]

theorem sum_field (F G : Field n N) (x' : Idx N') : ∑ c, t.field F c x' * (starRingEnd ℂ) (t.field G c x') = ∑ c, F c (t.point.symm x') * (starRingEnd ℂ) (G c (t.point.symm x')) := by
  simp only [field_conj]
  have h : (t.cmatrix *ᵥ fun j => F j (t.point.symm x')) ⬝ᵥ (t.cmatrix *ᵥ fun j => (starRingEnd ℂ) (G j (t.point.symm x'))) =
      (fun j => F j (t.point.symm x')) ⬝ᵥ fun j => (starRingEnd ℂ) (G j (t.point.symm x')) := by
    rw [Matrix.dotProduct_mulVec, Matrix.vecMul_mulVec, t.corthogonal', Matrix.vecMul_one]
  exact h

theorem sum_norm_field (F : Field n N) (x' : Idx N') : ∑ c, ‖t.field F c x'‖ ^ 2 = ∑ c, ‖F c (t.point.symm x')‖ ^ 2 := by
  have h := sum_field t F F x'
  have e : ∀ z : ℂ, z * (starRingEnd ℂ) z = ((‖z‖ ^ 2 : ℝ) : ℂ) := fun z => by rw [Complex.mul_conj']; push_cast; rfl
  simp only [e] at h
  exact_mod_cast h

end Verif.Solver
