import Verif.Model.Solver
import Verif.Props.Backend
import Verif.Spec.Solver
import Mathlib.Algebra.Module.LinearMap.Basic

/-!
# Linearity of the operators of the solver, and the Green operator as an inverse
-/

namespace Verif.Solver

open Verif Verif.Fourier Verif.Backend Complex

variable {d n m : ℕ} {N : Fin d → ℕ}

theorem ft_isLinear : IsLinearMap ℂ (ft (N := N)) where
  map_add f g := by
    have := C23_ft_linear 1 1 f g
    simp only [one_mul] at this
    exact this
  map_smul a f := by
    have := C23_ft_linear a 0 f f
    simp only [zero_mul, add_zero] at this
    exact this

theorem ift_isLinear : IsLinearMap ℂ (ift (N := N)) where
  map_add f g := by
    have := C23_ift_linear 1 1 f g
    simp only [one_mul] at this
    exact this
  map_smul a f := by
    have := C23_ift_linear a 0 f f
    simp only [zero_mul, add_zero] at this
    exact this

theorem convolve_isLinear {T : (Fin n → Idx N → ℂ) → (Fin m → Idx N → ℂ)} (hT : IsLinearMap ℂ T) : IsLinearMap ℂ (convolve T) where
  map_add f g := by
    funext c
    have : (fun c' => ft ((f + g) c')) = (fun c' => ft (f c')) + fun c' => ft (g c') := by
      funext c'; exact ft_isLinear.map_add _ _
    simp only [convolve, this, hT.map_add]
    exact ift_isLinear.map_add _ _
  map_smul a f := by
    funext c
    have : (fun c' => ft ((a • f) c')) = a • fun c' => ft (f c') := by
      funext c'; exact ft_isLinear.map_smul _ _
    simp only [convolve, this, hT.map_smul]
    exact ift_isLinear.map_smul _ _

theorem convolve_comp {l : ℕ} (S : (Fin m → Idx N → ℂ) → (Fin l → Idx N → ℂ)) (T : (Fin n → Idx N → ℂ) → (Fin m → Idx N → ℂ))
    (F : Fin n → Idx N → ℂ) : convolve S (convolve T F) = convolve (fun F => S (T F)) F := by
  unfold convolve
  simp only [C23_ft_ift]

theorem convolve_id (F : Fin n → Idx N → ℂ) : convolve (fun F => F) F = F := by
  funext c
  exact C23_ift_ft _

theorem convolve_smul (a : ℂ) (F : Fin n → Idx N → ℂ) : convolve (fun F => a • F) F = a • F := by
  funext c
  have : ift (a • ft (F c)) = a • ift (ft (F c)) := ift_isLinear.map_smul _ _
  show ift (a • ft (F c)) = _
  rw [this, C23_ift_ft]; rfl

theorem convolve_add (S T : (Fin n → Idx N → ℂ) → (Fin m → Idx N → ℂ)) (F : Fin n → Idx N → ℂ) :
    convolve (fun F => S F + T F) F = convolve S F + convolve T F := by
  funext c
  exact ift_isLinear.map_add _ _

theorem convolve_sub (S T : (Fin n → Idx N → ℂ) → (Fin m → Idx N → ℂ)) (F : Fin n → Idx N → ℂ) :
    convolve (fun F => S F - T F) F = convolve S F - convolve T F := by
  funext c
  exact ift_isLinear.map_sub _ _

section Linear
variable {X : Type} (k : Fin d → X → ℝ)

theorem curlFt_isLinear : IsLinearMap ℂ (curlFt n k : (Fin m → X → ℂ) → (Fin n → X → ℂ)) where
  map_add f g := by
    funext c x
    simp only [curlFt, Pi.add_apply]
    split_ifs <;> ring
  map_smul a f := by
    funext c x
    simp only [curlFt, Pi.smul_apply, smul_eq_mul]
    split_ifs <;> ring

theorem longitudinalFt_isLinear (o : X → Prop) [DecidablePred o] (h : d ≤ m) :
    IsLinearMap ℂ (longitudinalFt k o h : (Fin m → X → ℂ) → (Fin m → X → ℂ)) where
  map_add f g := by
    funext c x
    simp only [longitudinalFt, Pi.add_apply, mul_add, Finset.sum_add_distrib]
    split_ifs <;> ring
  map_smul a f := by
    funext c x
    have : ∀ b : Fin d, (k b x : ℂ) * (a * f (Fin.castLE h b) x) = a * ((k b x : ℂ) * f (Fin.castLE h b) x) := fun b => by ring
    simp only [longitudinalFt, Pi.smul_apply, smul_eq_mul, this, ← Finset.mul_sum]
    split_ifs <;> ring

end Linear

theorem greenFt_isLinear (kind : Kind d n) (k : Fin d → Idx N → ℝ) (alpha : ℂ) : IsLinearMap ℂ (greenFt k alpha kind) := by
  cases kind with
  | scalar => exact ⟨fun f g => by funext c x; simp only [greenFt, Pi.add_apply]; ring,
      fun a f => by funext c x; simp only [greenFt, Pi.smul_apply, smul_eq_mul]; ring⟩
  | vectorial hd =>
    refine ⟨fun f g => ?_, fun a f => ?_⟩
    · funext c x
      simp only [greenFt, (longitudinalFt_isLinear k origin hd).map_add, Pi.add_apply]; ring
    · funext c x
      simp only [greenFt, (longitudinalFt_isLinear k origin hd).map_smul, Pi.smul_apply, smul_eq_mul]; ring

theorem curl_isLinear (k : Fin d → Idx N → ℝ) : IsLinearMap ℂ (curl n k : Field m N → Field n N) := convolve_isLinear (curlFt_isLinear k)

theorem green_isLinear (kind : Kind d n) (k : Fin d → Idx N → ℝ) (alpha : ℂ) : IsLinearMap ℂ (green kind k alpha) :=
  convolve_isLinear (greenFt_isLinear kind k alpha)

theorem mulField_eq (A : Tensor n N) (E : Field n N) (x : Idx N) : (fun c => mulField A E c x) = (A x).mulVec fun j => E j x := rfl

theorem mulField_isLinear (A : Tensor n N) : IsLinearMap ℂ (mulField A) where
  map_add f g := by
    funext c x
    simp only [mulField, Pi.add_apply, mul_add, Finset.sum_add_distrib]
  map_smul a f := by
    funext c x
    simp only [mulField, Pi.smul_apply, smul_eq_mul, Finset.mul_sum]
    exact Finset.sum_congr rfl fun j _ => by ring

theorem mulField_add_left (A B : Tensor n N) (F : Field n N) : mulField (fun x => A x + B x) F = mulField A F + mulField B F := by
  funext c x
  simp only [mulField, Pi.add_apply, Matrix.add_apply, add_mul, Finset.sum_add_distrib]

theorem mulField_sub_left (A B : Tensor n N) (F : Field n N) : mulField (fun x => A x - B x) F = mulField A F - mulField B F := by
  funext c x
  simp only [mulField, Pi.sub_apply, Matrix.sub_apply, sub_mul, Finset.sum_sub_distrib]

theorem mulField_smul_left (a : ℂ) (A : Tensor n N) (F : Field n N) : mulField (fun x => a • A x) F = a • mulField A F := by
  funext c x
  simp only [mulField, Pi.smul_apply, Matrix.smul_apply, smul_eq_mul, Finset.mul_sum]
  exact Finset.sum_congr rfl fun j _ => by ring

theorem mulField_one (F : Field n N) : mulField (fun _ => (1 : Matrix (Fin n) (Fin n) ℂ)) F = F := by
  funext c x
  simp [mulField, Matrix.one_apply]

theorem mulField_zero (F : Field n N) : mulField (fun _ => (0 : Matrix (Fin n) (Fin n) ℂ)) F = 0 := by
  funext c x
  simp [mulField]

theorem mulField_mul (A B : Tensor n N) (F : Field n N) : mulField (fun x => A x * B x) F = mulField A (mulField B F) := by
  funext c x
  have := congrFun (Matrix.mulVec_mulVec (fun j => F j x) (A x) (B x)) c
  exact this.symm

theorem chiOp_magnetic (k : Fin d → Idx N → ℝ) (s : State n N) (h : s.magnetic = true) (E : Field n N) :
    chiOp k s E = mulField s.chiEE E + mulField s.chiHE (curl n k E) + curl n k (mulField s.chiEH E + mulField s.chiHH (curl n k E)) := by
  unfold chiOp
  rw [if_pos h]; rfl

theorem chiOp_nonmagnetic (k : Fin d → Idx N → ℝ) (s : State n N) (h : s.magnetic = false) (E : Field n N) :
    chiOp k s E = mulField s.chiEE E := by
  unfold chiOp
  rw [h]; rfl

theorem chiOp_isLinear (k : Fin d → Idx N → ℝ) (s : State n N) : IsLinearMap ℂ (chiOp k s) := by
  cases h : s.magnetic with
  | false =>
    rw [show chiOp k s = mulField s.chiEE from funext fun E => chiOp_nonmagnetic k s h E]
    exact mulField_isLinear _
  | true =>
    rw [show chiOp k s = fun E => mulField s.chiEE E + mulField s.chiHE (curl n k E) + curl n k (mulField s.chiEH E + mulField s.chiHH (curl n k E))
      from funext fun E => chiOp_magnetic k s h E]
    refine ⟨fun f g => ?_, fun a f => ?_⟩
    · simp only [(mulField_isLinear _).map_add, (curl_isLinear (n := n) (m := n) k).map_add]
      abel
    · simp only [(mulField_isLinear _).map_smul, (curl_isLinear (n := n) (m := n) k).map_smul, ← smul_add]

/-- The double curl of a vector field and minus the Laplacian of a scalar field. -/
noncomputable def curlCurl (k : Fin d → Idx N → ℝ) : {n : ℕ} → Kind d n → Field n N → Field n N
  | _, .vectorial _, F => curl 3 k (curl 3 k F)
  | _, .scalar, F => convolve (fun F c x => (k2 k x : ℂ) * F c x) F

theorem kVector_k2 {X : Type} (k : Fin d → X → ℝ) (hd : d ≤ 3) (x : X) : ∑ c, Spec.Backend.kVector k x c ^ 2 = (k2 k x : ℂ) := by
  rw [sum_comp hd _ (fun c hc => by simp [Spec.Backend.kVector, hc])]
  rw [← k2_sum]
  refine Finset.sum_congr rfl fun a _ => ?_
  have : Spec.Backend.kVector k x (Fin.castLE hd a) = (k a x : ℂ) := by
    unfold Spec.Backend.kVector
    rw [dif_pos (by exact a.isLt)]; rfl
  rw [this]; ring

/-- In Fourier space, the double curl is `k²` times the transversal projection. -/
theorem curlFt_curlFt {X : Type} {o : X → Prop} [DecidablePred o] {k : Fin d → X → ℝ} (hk : ∀ x, o x ↔ ∀ a, k a x = 0) (hd : d ≤ 3)
    (F : Fin 3 → X → ℂ) (c : Fin 3) (x : X) : curlFt 3 k (curlFt 3 k F) c x = (k2 k x : ℂ) * (F c x - longitudinalFt k o hd F c x) := by
  have e1 : ∀ G : Fin 3 → X → ℂ, Spec.Backend.vector G x = fun c => G c x := by
    intro G; funext c; unfold Spec.Backend.vector; rw [dif_pos c.isLt]
  have h1 := congrFun (C24_curl_ft k (curlFt 3 k F) x) c
  rw [e1, C24_curl_ft k F x, e1] at h1
  rw [h1]
  have hS := kVector_k2 k hd x
  have hdot : ∑ a : Fin d, (k a x : ℂ) * F (Fin.castLE hd a) x = ∑ c, Spec.Backend.kVector k x c * F c x := by
    rw [sum_comp hd _ (fun c hc => by simp [Spec.Backend.kVector, hc])]
    refine Finset.sum_congr rfl fun a _ => ?_
    have : Spec.Backend.kVector k x (Fin.castLE hd a) = (k a x : ℂ) := by
      unfold Spec.Backend.kVector
      rw [dif_pos (by exact a.isLt)]; rfl
    rw [this]
  have hlong : (k2 k x : ℂ) * longitudinalFt k o hd F c x = Spec.Backend.kVector k x c * ∑ c, Spec.Backend.kVector k x c * F c x := by
    rw [← hdot]
    by_cases ho : o x
    · have hz := (hk x).1 ho
      have hk2 : k2 k x = 0 := by unfold k2; exact Finset.sum_eq_zero fun a _ => by rw [hz a]; ring
      have hv : Spec.Backend.kVector k x c = 0 := by unfold Spec.Backend.kVector; split_ifs <;> simp [hz]
      rw [hk2, hv]; simp
    · have hne : (k2 k x : ℂ) ≠ 0 := k2_ne_zero (by rw [hk] at ho; push Not at ho; exact ho)
      rcases castLE_cases hd c with ⟨a, rfl⟩ | hc
      · rw [longitudinalFt_lt, if_neg ho]
        have : Spec.Backend.kVector k x (Fin.castLE hd a) = (k a x : ℂ) := by
          unfold Spec.Backend.kVector
          rw [dif_pos (by exact a.isLt)]; rfl
        rw [this]; field_simp
      · rw [longitudinalFt_ge hd _ hc]
        have : Spec.Backend.kVector k x c = 0 := by unfold Spec.Backend.kVector; rw [dif_neg hc]
        rw [this]; ring
  rw [mul_sub, hlong, ← hS]
  simp only [cross_apply, Fin.sum_univ_three]
  match c with
  | 0 => simp; ring_nf; simp [Complex.I_sq]; ring
  | 1 => simp; ring_nf; simp [Complex.I_sq]; ring
  | 2 => simp; ring_nf; simp [Complex.I_sq]; ring

theorem alpha_ne {alpha : ℂ} (h : alpha.im ≠ 0) (r : ℝ) : (r : ℂ) - alpha ≠ 0 := by
  intro e
  apply h
  have := congrArg Complex.im e
  simpa using this

section Green
variable {k : Fin d → Idx N → ℝ} (hk : ∀ x, origin x ↔ ∀ a, k a x = 0) {alpha : ℂ} (hα : alpha.im ≠ 0)
include hk hα

/-- The Green operator is, but for a constant, the inverse of the double curl minus alpha. -/
theorem green_left_inverse (kind : Kind d n) (F : Field n N) :
    green kind k alpha (curlCurl k kind F - alpha • F) = (-I * (alpha.im : ℂ)) • F := by
  have hα0 : alpha ≠ 0 := fun e => hα (by rw [e]; rfl)
  cases kind with
  | scalar =>
    have : curlCurl k (.scalar : Kind d 1) F - alpha • F = convolve (fun F => (fun c x => (k2 k x : ℂ) * F c x) - alpha • F) F := by
      rw [convolve_sub (fun F c x => (k2 k x : ℂ) * F c x) (fun F => alpha • F), convolve_smul]; rfl
    rw [this, green, convolve_comp, ← convolve_smul]
    congr 1
    funext F c x
    have h1 := alpha_ne hα (k2 k x)
    simp only [greenFt, gScalar, Pi.sub_apply, Pi.smul_apply, smul_eq_mul]
    field_simp
  | vectorial hd =>
    have : curlCurl k (.vectorial hd : Kind d 3) F - alpha • F = convolve (fun F => curlFt 3 k (curlFt 3 k F) - alpha • F) F := by
      rw [convolve_sub (fun F => curlFt 3 k (curlFt 3 k F)) (fun F => alpha • F), convolve_smul]
      show curl 3 k (curl 3 k F) - _ = _
      unfold curl
      rw [convolve_comp]
    rw [this, green, convolve_comp, ← convolve_smul]
    congr 1
    funext F c x
    have h1 := alpha_ne hα (k2 k x)
    have hL : longitudinalFt k origin hd (curlFt 3 k (curlFt 3 k F) - alpha • F) = - (alpha • longitudinalFt k origin hd F) := by
      rw [(longitudinalFt_isLinear k origin hd).map_sub, (longitudinalFt_isLinear k origin hd).map_smul]
      have : curlFt 3 k (curlFt 3 k F) = transversalFt k origin hd (fun c x => (k2 k x : ℂ) * F c x) := by
        funext c x
        rw [curlFt_curlFt hk hd, transversalFt]
        have : longitudinalFt k origin hd (fun c x => (k2 k x : ℂ) * F c x) c x = (k2 k x : ℂ) * longitudinalFt k origin hd F c x := by
          have e : ∀ b : Fin d, (k b x : ℂ) * ((k2 k x : ℂ) * F (Fin.castLE hd b) x) = (k2 k x : ℂ) * ((k b x : ℂ) * F (Fin.castLE hd b) x) :=
            fun b => by ring
          simp only [longitudinalFt, e, ← Finset.mul_sum]
          split_ifs <;> ring
        rw [this]; ring
      rw [this, C25_longitudinal_ft_transversal hk]
      funext c x
      simp
    simp only [greenFt, gScalar, hL, Pi.neg_apply, Pi.smul_apply, Pi.sub_apply, smul_eq_mul, curlFt_curlFt hk hd]
    field_simp
    ring

end Green

end Verif.Solver
