import Verif.Lemmas.SolverOps
import Mathlib.LinearAlgebra.FiniteDimensional.Basic
import Mathlib.Tactic.FieldSimp
import Mathlib.Tactic.Module

/-!
# The residual of the preconditioned equation
-/

namespace Verif.Solver

open Verif Verif.Fourier Verif.Backend Complex

variable {d n : ℕ} {N : Fin d → ℕ}

theorem ofReal_ne {r : ℝ} (h : r ≠ 0) : (r : ℂ) ≠ 0 := by exact_mod_cast h

theorem factor_ne {alpha : ℂ} {beta : ℝ} (hα : alpha.im ≠ 0) (hβ : beta ≠ 0) : factor alpha beta ≠ 0 := by
  unfold factor
  exact div_ne_zero (div_ne_zero I_ne_zero (ofReal_ne hα)) (ofReal_ne hβ)

/-- Replacing the bias of a prepared state gives the state that would have been prepared with the new bias. -/
theorem updateOperators_prepared (m : Medium n N) (mag : Bool) {alpha : ℂ} (hα : alpha.im ≠ 0) (alpha' : ℂ) (beta : ℝ) (S F : Field n N) :
    updateOperators (prepared m mag alpha beta S F) alpha' = prepared m mag alpha' beta S F := by
  have h0 := ofReal_ne hα
  have hr : ∀ z : ℂ, (alpha.im : ℂ) / (alpha'.im : ℂ) * (I / (alpha.im : ℂ) / z) = I / (alpha'.im : ℂ) / z := by
    intro z
    by_cases h1 : (alpha'.im : ℂ) = 0
    · rw [h1]; simp
    · by_cases hz : z = 0
      · rw [hz]; simp
      · field_simp
  have hf : (alpha.im : ℂ) / (alpha'.im : ℂ) * factor alpha beta = factor alpha' beta := hr _
  unfold updateOperators
  simp only [prepared, State.mk.injEq, true_and, and_true]
  refine ⟨?_, ?_, ?_, ?_, ?_⟩
  · funext c x
    rw [← hf]; ring
  · funext x
    have h2 : I / (alpha'.im : ℂ) * (I / (alpha.im : ℂ))⁻¹ = (alpha.im : ℂ) / (alpha'.im : ℂ) := by
      have := I_ne_zero
      field_simp
    have h3 : (I / (alpha.im : ℂ))⁻¹ * (alpha * I / (alpha.im : ℂ)) = alpha := by
      have := I_ne_zero
      field_simp
    rw [smul_add, smul_smul, h2, smul_sub, smul_smul, hf, smul_smul, smul_smul, sub_add, ← sub_smul]
    congr 2
    rw [mul_sub, ← h2, mul_assoc, h3]
    ring
  · funext x
    rw [smul_smul, hf]
  · funext x
    rw [smul_smul, hf]
  · funext x
    rw [smul_smul]
    congr 1
    have := hr 1
    simpa using this

theorem prepare_eq (m : Medium n N) (mag : Bool) {alpha : ℂ} (hα : alpha.im ≠ 0) (beta : ℝ) (S F : Field n N) :
    prepare m mag alpha beta S F = prepared m mag alpha beta S F := updateOperators_prepared m mag hα alpha beta S F

/-- The wave operator of the medium in the units of the back end, as the code composes it. -/
noncomputable def waveOp (k : Fin d → Idx N → ℝ) (beta : ℝ) : {n : ℕ} → Kind d n → Medium n N → Field n N → Field n N
  | _, .vectorial _, m, F => curl 3 k (mulField m.muInv (curl 3 k F)) - curl 3 k (mulField m.chiEHBeta F) - mulField m.chiHEBeta (curl 3 k F)
      - mulField m.epsilonPrime F
  | _, .scalar, m, F => (beta : ℂ) • curlCurl k (.scalar : Kind d 1) F - mulField m.epsilonPrime F

/-- Either all properties are used, or there is no coupling and the permeability is that of the reference medium. -/
def Consistent (m : Medium n N) (mag : Bool) (beta : ℝ) : Prop :=
  mag = true ∨ ((∀ x, m.xi x = 0) ∧ (∀ x, m.zeta x = 0) ∧ ∀ x, m.muInv x = (beta : ℂ) • (1 : Matrix (Fin n) (Fin n) ℂ))

theorem curl_one (k : Fin d → Idx N → ℝ) (F : Field 1 N) : curl 1 k F = 0 := by
  funext c
  unfold curl convolve
  rw [C24_curl_ft_scalar]
  exact ift_zero

theorem chiOp_prepared (k : Fin d → Idx N → ℝ) (kind : Kind d n) (m : Medium n N) (mag : Bool) {alpha : ℂ} (hα : alpha.im ≠ 0) {beta : ℝ}
    (hβ : beta ≠ 0) (S F0 F : Field n N) (hc : Consistent m mag beta) :
    chiOp k (prepared m mag alpha beta S F0) F =
      (I / (alpha.im : ℂ)) • (curlCurl k kind F - alpha • F) - factor alpha beta • waveOp k beta kind m F := by
  have hb := ofReal_ne hβ
  have hfac : factor alpha beta = (I / (alpha.im : ℂ)) * (1 / (beta : ℂ)) := by unfold factor; ring
  have hEE : mulField (prepared m mag alpha beta S F0).chiEE F =
      factor alpha beta • mulField m.epsilonPrime F - (alpha * I / (alpha.im : ℂ)) • F := by
    simp only [prepared]
    rw [mulField_sub_left (fun x => factor alpha beta • m.epsilonPrime x) (fun _ => (alpha * I / (alpha.im : ℂ)) • 1),
      mulField_smul_left, mulField_smul_left _ (fun _ => 1), mulField_one]
  cases kind with
  | scalar =>
    have hdrop : chiOp k (prepared m mag alpha beta S F0) F = mulField (prepared m mag alpha beta S F0).chiEE F := by
      cases mag with
      | false => exact chiOp_nonmagnetic k _ rfl F
      | true =>
        rw [chiOp_magnetic k _ rfl, curl_one, curl_one, (mulField_isLinear _).map_zero]
        simp
    rw [hdrop, hEE]
    simp only [waveOp]
    rw [hfac]
    have : (I / (alpha.im : ℂ) * (1 / (beta : ℂ))) * (beta : ℂ) = I / (alpha.im : ℂ) := by field_simp
    rw [smul_sub, smul_smul, smul_sub, smul_smul, this]
    rw [show alpha * I / (alpha.im : ℂ) = I / (alpha.im : ℂ) * alpha by ring]
    abel
  | vectorial hd =>
    have hHH : ∀ G : Field 3 N, mulField (prepared m mag alpha beta S F0).chiHH G =
        (I / (alpha.im : ℂ)) • G - factor alpha beta • mulField m.muInv G := by
      intro G
      simp only [prepared]
      rw [mulField_smul_left _ (fun x => 1 - (1 / (beta : ℂ)) • m.muInv x), mulField_sub_left (fun _ => 1) (fun x => (1 / (beta : ℂ)) • m.muInv x),
        mulField_one, mulField_smul_left, smul_sub, smul_smul, hfac]
    have hEH : ∀ G : Field 3 N, mulField (prepared m mag alpha beta S F0).chiEH G = factor alpha beta • mulField m.chiEHBeta G :=
      fun G => mulField_smul_left _ _ G
    have hHE : ∀ G : Field 3 N, mulField (prepared m mag alpha beta S F0).chiHE G = factor alpha beta • mulField m.chiHEBeta G :=
      fun G => mulField_smul_left _ _ G
    have hL := curl_isLinear (n := 3) (m := 3) k
    have full : mulField (prepared m mag alpha beta S F0).chiEE F + mulField (prepared m mag alpha beta S F0).chiHE (curl 3 k F) +
        curl 3 k (mulField (prepared m mag alpha beta S F0).chiEH F + mulField (prepared m mag alpha beta S F0).chiHH (curl 3 k F)) =
        (I / (alpha.im : ℂ)) • (curlCurl k (.vectorial hd) F - alpha • F) - factor alpha beta • waveOp k beta (.vectorial hd) m F := by
      rw [hEE, hHE, hEH, hHH, hL.map_add, hL.map_sub, hL.map_smul, hL.map_smul, hL.map_smul]
      simp only [waveOp, curlCurl]
      rw [show alpha * I / (alpha.im : ℂ) = I / (alpha.im : ℂ) * alpha by ring]
      module
    cases hm : mag with
    | true => subst hm; rw [chiOp_magnetic k _ rfl]; exact full
    | false =>
      rcases hc with h | ⟨hxi, hzeta, hmu⟩
      · rw [hm] at h; exact absurd h (by decide)
      rw [← hm, ← full, chiOp_nonmagnetic k _ hm]
      have z1 : mulField (prepared m mag alpha beta S F0).chiHE (curl 3 k F) = 0 := by
        rw [hHE]
        have : m.chiHEBeta = fun _ => 0 := by funext x; simp [Medium.chiHEBeta, hzeta]
        rw [this, mulField_zero, smul_zero]
      have z2 : mulField (prepared m mag alpha beta S F0).chiEH F = 0 := by
        rw [hEH]
        have : m.chiEHBeta = fun _ => 0 := by funext x; simp [Medium.chiEHBeta, hxi]
        rw [this, mulField_zero, smul_zero]
      have z3 : mulField (prepared m mag alpha beta S F0).chiHH (curl 3 k F) = 0 := by
        rw [hHH]
        have : m.muInv = fun _ => (beta : ℂ) • (1 : Matrix (Fin 3) (Fin 3) ℂ) := funext hmu
        rw [this, mulField_smul_left _ (fun _ => 1), mulField_one, smul_smul, hfac]
        have : (I / (alpha.im : ℂ) * (1 / (beta : ℂ))) * (beta : ℂ) = I / (alpha.im : ℂ) := by field_simp
        rw [this, sub_self]
      rw [z1, z2, z3, add_zero, add_zero, hL.map_zero, add_zero]

section
variable {k : Fin d → Idx N → ℝ} (hk : ∀ x, origin x ↔ ∀ a, k a x = 0)
include hk

/-- **The residual.** What an iteration adds, before the last multiplication, is the Green operator applied to the residual of the wave equation. -/
theorem residual (kind : Kind d n) (m : Medium n N) (mag : Bool) {alpha : ℂ} (hα : alpha.im ≠ 0) {beta : ℝ}
    (hβ : beta ≠ 0) (S F0 F : Field n N) (hc : Consistent m mag beta) :
    green kind k alpha (chiOp k (prepared m mag alpha beta S F0) F + (prepared m mag alpha beta S F0).source) - F =
      factor alpha beta • green kind k alpha (S - waveOp k beta kind m F) := by
  have hG := green_isLinear kind k alpha
  have hsrc : (prepared m mag alpha beta S F0).source = factor alpha beta • S := by
    funext c x; simp only [prepared, Pi.smul_apply, smul_eq_mul]; ring
  rw [chiOp_prepared k kind m mag hα hβ S F0 F hc, hsrc, hG.map_add, hG.map_sub, hG.map_smul, hG.map_smul, hG.map_smul,
    green_left_inverse hk hα, hG.map_sub]
  have : I / (alpha.im : ℂ) * (-I * (alpha.im : ℂ)) = 1 := by
    have := ofReal_ne hα
    field_simp
    simp [I_sq]
  rw [smul_smul, this, one_smul, smul_sub]
  abel

/-- The Green operator is injective. -/
theorem green_injective (kind : Kind d n) {alpha : ℂ} (hα : alpha.im ≠ 0) (F : Field n N) (h : green kind k alpha F = 0) : F = 0 := by
  let T : Field n N →ₗ[ℂ] Field n N := (green_isLinear kind k alpha).mk' _
  have hs : Function.Surjective T := by
    intro F
    have h0 : -I * (alpha.im : ℂ) ≠ 0 := mul_ne_zero (neg_ne_zero.2 I_ne_zero) (ofReal_ne hα)
    refine ⟨(-I * (alpha.im : ℂ))⁻¹ • (curlCurl k kind F - alpha • F), ?_⟩
    rw [map_smul]
    show _ • green kind k alpha _ = F
    rw [green_left_inverse hk hα, smul_smul, inv_mul_cancel₀ h0, one_smul]
  have hi : Function.Injective T := LinearMap.injective_iff_surjective.2 hs
  exact hi (h.trans (map_zero T).symm)

theorem update_prepared (kind : Kind d n) (m : Medium n N) (mag : Bool) {alpha : ℂ} (hα : alpha.im ≠ 0) {beta : ℝ}
    (hβ : beta ≠ 0) (S F : Field n N) (hc : Consistent m mag beta) :
    update kind k (prepared m mag alpha beta S F) =
      chiOp k (prepared m mag alpha beta S F) (factor alpha beta • green kind k alpha (S - waveOp k beta kind m F)) := by
  rw [← residual hk kind m mag hα hβ S F F hc]
  rfl

end

end Verif.Solver
