import Verif.Lemmas.SolverWave
import Verif.Lemmas.Contraction
import Mathlib.Analysis.InnerProductSpace.PiL2
import Mathlib.Analysis.InnerProductSpace.Adjoint

/-!
# The iteration of the solver as a map of an inner-product space
-/

namespace Verif.Solver

open Verif Verif.Fourier Verif.Backend Complex

variable {d n : ℕ} {N : Fin d → ℕ}

/-- The Hilbert space of fields. -/
abbrev Hil (n : ℕ) (N : Fin d → ℕ) : Type := EuclideanSpace ℂ (Fin n × Idx N)

/-- Fields as vectors of the Hilbert space. -/
noncomputable def toE : Field n N ≃ₗ[ℂ] Hil n N where
  toFun F := WithLp.toLp 2 fun p => F p.1 p.2
  invFun v := fun c x => v (c, x)
  map_add' _ _ := rfl
  map_smul' _ _ := rfl
  left_inv _ := rfl
  right_inv _ := rfl

theorem norm_toE (F : Field n N) : ‖toE F‖ = Backend.norm F := by
  rw [EuclideanSpace.norm_eq, Backend.norm, Fintype.sum_prod_type]
  rfl

theorem inner_toE (F G : Field n N) : inner ℂ (toE F) (toE G) = ∑ c, ∑ x, (starRingEnd ℂ) (F c x) * G c x := by
  rw [PiLp.inner_apply, Fintype.sum_prod_type]
  simp only [RCLike.inner_apply]
  exact Finset.sum_congr rfl fun c _ => Finset.sum_congr rfl fun x _ => mul_comm _ _

theorem norm_sq (F : Field n N) : Backend.norm F ^ 2 = ∑ c, ∑ x, ‖F c x‖ ^ 2 := by
  unfold Backend.norm
  rw [Real.sq_sqrt (Finset.sum_nonneg fun c _ => Finset.sum_nonneg fun x _ => sq_nonneg _)]

theorem norm_eq_zero_iff (F : Field n N) : Backend.norm F = 0 ↔ F = 0 := by
  rw [← norm_toE, norm_eq_zero, LinearEquiv.map_eq_zero_iff]

theorem norm_nonneg' (F : Field n N) : 0 ≤ Backend.norm F := Real.sqrt_nonneg _

/-! ### The reflection `2 G - 1` preserves norms -/

theorem conj_eq (z : ℂ) : (starRingEnd ℂ) z = z.re - z.im * I := by
  apply Complex.ext <;> simp

theorem norm_conj_div {z : ℂ} (h : z ≠ 0) : ‖(starRingEnd ℂ) z / z‖ = 1 := by
  rw [norm_div, RCLike.norm_conj, div_self (norm_ne_zero_iff.2 h)]

theorem reflection_scalar {alpha : ℂ} (hα : alpha.im ≠ 0) (r : ℝ) : ‖2 * (-I * (alpha.im : ℂ) / ((r : ℂ) - alpha)) - 1‖ = 1 := by
  have h := alpha_ne hα r
  have : 2 * (-I * (alpha.im : ℂ) / ((r : ℂ) - alpha)) - 1 = -((starRingEnd ℂ) ((r : ℂ) - alpha) / ((r : ℂ) - alpha)) := by
    rw [eq_neg_iff_add_eq_zero]
    field_simp
    have e1 : alpha = alpha.re + alpha.im * I := (re_add_im alpha).symm
    have e2 : (starRingEnd ℂ) ((r : ℂ) - alpha) = r - alpha.re + alpha.im * I := by
      rw [map_sub, conj_ofReal, conj_eq]
      ring
    rw [e2]
    linear_combination e1
  rw [this, norm_neg, norm_conj_div h]

theorem reflection_longitudinal {alpha : ℂ} (hα : alpha.im ≠ 0) : ‖2 * (I * (alpha.im : ℂ) / alpha) - 1‖ = 1 := by
  have h : alpha ≠ 0 := fun e => hα (by rw [e]; rfl)
  have : 2 * (I * (alpha.im : ℂ) / alpha) - 1 = -((starRingEnd ℂ) alpha / alpha) := by
    rw [eq_neg_iff_add_eq_zero]
    field_simp
    have e1 : alpha = alpha.re + alpha.im * I := (re_add_im alpha).symm
    have e2 : (starRingEnd ℂ) alpha = alpha.re - alpha.im * I := by
      exact conj_eq alpha
    rw [e2]
    linear_combination - e1
  rw [this, norm_neg, norm_conj_div h]

theorem sum_norm_unitary {ι : Type*} [Fintype ι] {u v : ℂ} (hu : ‖u‖ = 1) (hv : ‖v‖ = 1) (L T : ι → ℂ)
    (h : ∑ c, (starRingEnd ℂ) (L c) * T c = 0) : ∑ c, ‖u * T c + v * L c‖ ^ 2 = ∑ c, ‖T c + L c‖ ^ 2 := by
  have key : ∀ a b : ℂ, ∑ c, ‖a * T c + b * L c‖ ^ 2 = ‖a‖ ^ 2 * ∑ c, ‖T c‖ ^ 2 + ‖b‖ ^ 2 * ∑ c, ‖L c‖ ^ 2 := by
    intro a b
    have e : ∀ c, ‖a * T c + b * L c‖ ^ 2 = ‖a‖ ^ 2 * ‖T c‖ ^ 2 + ‖b‖ ^ 2 * ‖L c‖ ^ 2 + 2 * (((starRingEnd ℂ) b * a) * ((starRingEnd ℂ) (L c) * T c)).re := by
      intro c
      rw [← Complex.normSq_eq_norm_sq, Complex.normSq_add, map_mul, map_mul, Complex.normSq_eq_norm_sq, Complex.normSq_eq_norm_sq,
        Complex.normSq_eq_norm_sq, Complex.normSq_eq_norm_sq, map_mul]
      congr 3
      ring
    simp_rw [e]
    rw [Finset.sum_add_distrib, Finset.sum_add_distrib, ← Finset.mul_sum, ← Finset.mul_sum, ← Finset.mul_sum, ← Complex.re_sum, ← Finset.mul_sum, h]
    simp
  have h1 := key 1 1
  simp only [one_mul] at h1
  rw [key, h1, hu, hv]
  simp

section
variable {k : Fin d → Idx N → ℝ} (hk : ∀ x, origin x ↔ ∀ a, k a x = 0) {alpha : ℂ} (hα : alpha.im ≠ 0)
include hk hα

theorem greenFt_reflection (kind : Kind d n) (F : Fin n → Idx N → ℂ) (x : Idx N) :
    ∑ c, ‖2 * greenFt k alpha kind F c x - F c x‖ ^ 2 = ∑ c, ‖F c x‖ ^ 2 := by
  cases kind with
  | scalar =>
    refine Finset.sum_congr rfl fun c _ => ?_
    simp only [greenFt, gScalar]
    rw [show 2 * (F c x * (-I * (alpha.im : ℂ) / ((k2 k x : ℂ) - alpha))) - F c x =
      (2 * (-I * (alpha.im : ℂ) / ((k2 k x : ℂ) - alpha)) - 1) * F c x by ring, norm_mul, reflection_scalar hα, one_mul]
  | vectorial hd =>
    have := sum_norm_unitary (reflection_scalar hα (k2 k x)) (reflection_longitudinal hα) (fun c => longitudinalFt k origin hd F c x)
      (fun c => transversalFt k origin hd F c x) (C25_orthogonal_ft hk hd F F x)
    simp only [transversalFt, sub_add_cancel] at this
    rw [← this]
    refine Finset.sum_congr rfl fun c _ => ?_
    congr 2
    simp only [greenFt, gScalar]
    ring

theorem green_reflection (kind : Kind d n) (F : Field n N) :
    Backend.norm (fun c x => 2 * green kind k alpha F c x - F c x) = Backend.norm F := by
  rcases isEmpty_or_nonempty (Idx N) with he | ⟨⟨x0⟩⟩
  · unfold Backend.norm; simp
  have hP : (∏ a, (N a : ℝ)) ≠ 0 := by
    have := prod_ne_zero_of_idx x0
    exact_mod_cast this
  have h1 : Backend.norm (fun c x => 2 * green kind k alpha F c x - F c x) ^ 2 = Backend.norm F ^ 2 := by
    rw [norm_sq, norm_sq]
    apply mul_left_cancel₀ hP
    rw [Finset.mul_sum, Finset.mul_sum]
    simp_rw [← C23_energy]
    rw [Finset.sum_comm]
    conv_rhs => rw [Finset.sum_comm]
    refine Finset.sum_congr rfl fun y _ => ?_
    rw [← greenFt_reflection hk hα kind (fun c => ft (F c)) y]
    refine Finset.sum_congr rfl fun c _ => ?_
    congr 2
    have h3 := C23_ft_linear 2 (-1) (green kind k alpha F c) (F c)
    have h4 : ft (green kind k alpha F c) = greenFt k alpha kind (fun c => ft (F c)) c := by
      unfold green convolve
      rw [C23_ft_ift]
    rw [h4] at h3
    have h5 := congrFun h3 y
    simp only [neg_mul, one_mul, ← sub_eq_add_neg] at h5
    exact h5
  have h2 := norm_nonneg' (fun c x => 2 * green kind k alpha F c x - F c x)
  have h3 := norm_nonneg' F
  exact (pow_left_inj₀ h2 h3 two_ne_zero).1 h1

end

/-! ### The linear part of an iteration -/

/-- What an iteration does to the field, without source. -/
noncomputable def homogeneous (kind : Kind d n) (k : Fin d → Idx N → ℝ) (s : State n N) (F : Field n N) : Field n N :=
  F + chiOp k s (green kind k s.alpha (chiOp k s F) - F)

theorem homogeneous_isLinear (kind : Kind d n) (k : Fin d → Idx N → ℝ) (s : State n N) : IsLinearMap ℂ (homogeneous kind k s) := by
  have hX := chiOp_isLinear k s
  have hG := green_isLinear kind k s.alpha
  refine ⟨fun f g => ?_, fun a f => ?_⟩
  · simp only [homogeneous, hX.map_add, hG.map_add, hX.map_sub]; abel
  · simp only [homogeneous, hX.map_smul, hG.map_smul, hX.map_sub, smul_add, smul_sub]

/-- The same as a linear map of the Hilbert space. -/
noncomputable def homogeneousE (kind : Kind d n) (k : Fin d → Idx N → ℝ) (s : State n N) : Hil n N →ₗ[ℂ] Hil n N :=
  toE.toLinearMap ∘ₗ ((homogeneous_isLinear kind k s).mk' _) ∘ₗ toE.symm.toLinearMap

theorem homogeneousE_toE (kind : Kind d n) (k : Fin d → Idx N → ℝ) (s : State n N) (F : Field n N) :
    homogeneousE kind k s (toE F) = toE (homogeneous kind k s F) := by
  simp [homogeneousE]

/-- The operator `χ` deviates from 1 by at most `ρ`. -/
def Bounded (k : Fin d → Idx N → ℝ) (s : State n N) (ρ : ℝ) : Prop := ∀ F, Backend.norm (chiOp k s F - F) ≤ ρ * Backend.norm F

/-- The medium does not amplify. -/
def Passive (k : Fin d → Idx N → ℝ) (s : State n N) : Prop := ∀ F, (∑ c, ∑ x, (starRingEnd ℂ) (F c x) * (chiOp k s F c x - F c x)).re ≤ 0

/-- The medium absorbs: `χ` reduces the field by at least a fraction `δ`. -/
def Absorptive (k : Fin d → Idx N → ℝ) (s : State n N) (δ : ℝ) : Prop :=
  ∀ F, (∑ c, ∑ x, (starRingEnd ℂ) (F c x) * (chiOp k s F c x - F c x)).re ≤ -(δ * Backend.norm F ^ 2)

/-- The change of the error in the form for which contraction is proved. -/
theorem homogeneous_form {k : Fin d → Idx N → ℝ} (hk : ∀ x, origin x ↔ ∀ a, k a x = 0) (kind : Kind d n) {s : State n N}
    (hα : s.alpha.im ≠ 0) {ρ : ℝ} (hB : Bounded k s ρ) :
    ∃ D : Hil n N →ₗ[ℂ] Hil n N, (∀ x, ‖D x‖ ≤ ρ * ‖x‖) ∧
      (∀ F, (inner ℂ (toE F) (D (toE F))).im = - (∑ c, ∑ x, (starRingEnd ℂ) (F c x) * (chiOp k s F c x - F c x)).re) ∧
      ∀ F : Field n N, ∃ u : Hil n N, ‖u‖ ≤ ‖toE F + I • D (toE F)‖ ∧ (2 : ℂ) • toE (homogeneous kind k s F) = toE F - D (D (toE F)) + (u + I • D u) := by
  have hX := chiOp_isLinear k s
  let D0 : Field n N →ₗ[ℂ] Field n N := (-I) • (hX.mk' (chiOp k s) - LinearMap.id)
  have hD0 : ∀ F, D0 F = (-I) • (chiOp k s F - F) := fun F => rfl
  have hchi : ∀ F, F + I • D0 F = chiOp k s F := by
    intro F
    rw [hD0, smul_smul]
    have : I * (-I) = 1 := by rw [mul_neg, I_mul_I, neg_neg]
    rw [this, one_smul]; abel
  let D : Hil n N →ₗ[ℂ] Hil n N := toE.toLinearMap ∘ₗ D0 ∘ₗ toE.symm.toLinearMap
  have hD : ∀ F, D (toE F) = toE (D0 F) := fun F => by simp [D]
  refine ⟨D, fun x => ?_, fun F => ?_, fun F => ?_⟩
  · obtain ⟨F, rfl⟩ := toE.surjective x
    rw [hD, hD0, map_smul, norm_smul, norm_neg, norm_I, one_mul, norm_toE, norm_toE]
    exact hB F
  · rw [hD, hD0, map_smul, inner_smul_right, inner_toE]
    simp only [Complex.mul_im, Complex.neg_re, Complex.I_re, Complex.neg_im, Complex.I_im, neg_zero, zero_mul, zero_add]
    simp only [Pi.sub_apply]
    ring
  · set u : Field n N := fun c x => 2 * green kind k s.alpha (chiOp k s F) c x - chiOp k s F c x with hu
    refine ⟨toE u, ?_, ?_⟩
    · rw [hD, ← map_smul, ← map_add, hchi, norm_toE, norm_toE, green_reflection hk hα]
    · rw [hD, hD, hD, ← map_smul, ← map_smul, ← map_add, ← map_sub, ← map_add, hchi]
      congr 1
      have e1 : u = (2 : ℂ) • green kind k s.alpha (chiOp k s F) - chiOp k s F := rfl
      have e2 : D0 (D0 F) = - (chiOp k s (chiOp k s F) - (2 : ℂ) • chiOp k s F + F) := by
        rw [hD0 (D0 F), hD0 F, hX.map_smul, hX.map_sub, ← smul_sub, smul_smul]
        have : (-I) * (-I) = -1 := by rw [neg_mul_neg, I_mul_I]
        rw [this]
        module
      rw [e2, e1, hX.map_sub, hX.map_smul, homogeneous, hX.map_sub]
      module

/-- The core inequality. -/
theorem homogeneous_norm_sq {k : Fin d → Idx N → ℝ} (hk : ∀ x, origin x ↔ ∀ a, k a x = 0) (kind : Kind d n) {s : State n N}
    (hα : s.alpha.im ≠ 0) {ρ : ℝ} (hρ1 : ρ ≤ 1) (hB : Bounded k s ρ) (hP : Passive k s) (F : Field n N) :
    Backend.norm (homogeneous kind k s F) ^ 2 ≤ Backend.norm F ^ 2 - (1 - ρ) / 2 * Backend.norm (F - homogeneous kind k s F) ^ 2 := by
  obtain ⟨D, hbound, him, hform⟩ := homogeneous_form hk kind hα hB
  obtain ⟨u, hu, h2⟩ := hform F
  have key := Contraction.norm_sq_le D (LinearMap.adjoint D) (fun x y => LinearMap.adjoint_inner_left D y x) hρ1 hbound (fun x => by
    obtain ⟨F, rfl⟩ := toE.surjective x
    rw [him]
    linarith [hP F]) (toE F) u _ hu h2
  rw [norm_toE, norm_toE, ← map_sub, norm_toE] at key
  exact key

/-- With absorption the error decreases by a factor that only depends on the bounds. -/
theorem homogeneous_absorptive {k : Fin d → Idx N → ℝ} (hk : ∀ x, origin x ↔ ∀ a, k a x = 0) (kind : Kind d n) {s : State n N}
    (hα : s.alpha.im ≠ 0) {ρ δ : ℝ} (hρ1 : ρ < 1) (hδ : 0 < δ) (hB : Bounded k s ρ) (hP : Absorptive k s δ) (F : Field n N) :
    Backend.norm (homogeneous kind k s F) ^ 2 ≤ (1 - 2 * δ * (1 - ρ) ^ 3 / (1 - ρ + 4 * δ)) * Backend.norm F ^ 2 := by
  obtain ⟨D, hbound, him, hform⟩ := homogeneous_form hk kind hα hB
  obtain ⟨u, hu, h2⟩ := hform F
  have key := Contraction.norm_sq_absorbing D (LinearMap.adjoint D) (fun x y => LinearMap.adjoint_inner_left D y x) hρ1 hδ hbound (fun x => by
    obtain ⟨F, rfl⟩ := toE.surjective x
    rw [him, norm_toE]
    linarith [hP F]) (toE F) u _ hu h2
  rw [norm_toE, norm_toE] at key
  exact key

theorem update_eq (kind : Kind d n) (k : Fin d → Idx N → ℝ) (s : State n N) :
    update kind k s = homogeneous kind k s s.field - s.field + chiOp k s (green kind k s.alpha s.source) := by
  have hX := chiOp_isLinear k s
  have hG := green_isLinear kind k s.alpha
  have : update kind k s = chiOp k s (green kind k s.alpha (chiOp k s s.field + s.source) - s.field) := rfl
  rw [this, hG.map_add, homogeneous, hX.map_sub, hX.map_add, hX.map_sub]
  abel

end Verif.Solver
