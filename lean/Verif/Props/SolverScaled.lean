import Verif.Props.SolverSymmetry
import Verif.Props.SolverState

/-!
# C78: how all derived fields depend on the amplitude of the source
-/

namespace Verif.Solver

open Verif Verif.Fourier Verif.Backend Complex

variable {d n : ℕ} {N : Fin d → ℕ}

/-- The fields of the state `s'` are those of the state `s` multiplied by `z`, the powers, energies, and forces by `|z|²`. -/
structure AllScaled (co : Const) (k0 : ℝ) (k : Fin d → Idx N → ℝ) (i0 : Fin n) (x0 : Idx N) (z : ℂ) (s s' : State n N) : Prop where
  E : ∀ c x, getE k0 s' c x = z * getE k0 s c x
  source : ∀ c x, getSource s' c x = z * getSource s c x
  J : ∀ c x, getJ co k0 s' c x = z * getJ co k0 s c x
  B : ∀ c x, getB co k0 k s' c x = z * getB co k0 k s c x
  H : ∀ c x, getH co k0 k i0 x0 s' c x = z * getH co k0 k i0 x0 s c x
  D : ∀ c x, getD co k0 k i0 x0 s' c x = z * getD co k0 k i0 x0 s c x
  S : ∀ c x, getS co k0 k i0 x0 s' c x = ‖z‖ ^ 2 * getS co k0 k i0 x0 s c x
  divS : getDivS co k0 k i0 x0 s' = (getDivS co k0 k i0 x0 s).map fun f x => ((‖z‖ ^ 2 : ℝ) : ℂ) * f x
  energy : ∀ x, getEnergy co k0 k i0 x0 s' x = ‖z‖ ^ 2 * getEnergy co k0 k i0 x0 s x
  stress : ∀ a b x, getStress co k0 k i0 x0 s' a b x = ‖z‖ ^ 2 * getStress co k0 k i0 x0 s a b x
  force : getForce co k0 k i0 x0 s' = (getForce co k0 k i0 x0 s).map fun f c x => ‖z‖ ^ 2 * f c x
  residue : (relativeResidue s').1 = (relativeResidue s).1

theorem ft_mul_const (r : ℂ) (f : Idx N → ℂ) : ft (fun x => r * f x) = fun x => r * ft f x := by
  funext q
  unfold ft
  rw [Finset.mul_sum]
  exact Finset.sum_congr rfl fun _ _ => by ring

theorem ift_mul_const (r : ℂ) (f : Idx N → ℂ) : ift (fun x => r * f x) = fun x => r * ift f x := by
  apply ft_inj
  rw [ft_mul_const, C23_ft_ift, C23_ft_ift]

theorem divTensor_scale (k : Fin d → Idx N → ℝ) {p : ℕ} (F : Fin n → Fin p → Idx N → ℂ) (r : ℂ) :
    divTensor k (fun c b x => r * F c b x) = (divTensor k F).map fun f b x => r * f b x := by
  unfold divTensor divFt
  split_ifs with hd
  · show Except.ok _ = Except.ok _
    congr 1
    funext b
    dsimp only
    rw [← ift_mul_const]
    congr 1
    funext x
    simp only [ft_mul_const, Finset.mul_sum]
    exact Finset.sum_congr rfl fun _ _ => by ring
  · rfl

theorem conj_scaled (z a b : ℂ) : (z * a) * (starRingEnd ℂ) (z * b) = ((‖z‖ ^ 2 : ℝ) : ℂ) * (a * (starRingEnd ℂ) b) := by
  rw [map_mul, ← Complex.normSq_eq_norm_sq, ← Complex.mul_conj]
  ring

/-- **C78 (all fields).** When source and field have been multiplied by a number, then all fields that can be read are multiplied by that number, except powers, energies, stresses, and forces, which are multiplied by the square of its
absolute value. -/
theorem C78_derived {z : ℂ} (hz : z ≠ 0) (co : Const) (k0 : ℝ) (k : Fin d → Idx N → ℝ) (i0 : Fin n) (x0 : Idx N) (s : State n N) : AllScaled co k0 k i0 x0 z s (scaleState z s) := by
  obtain ⟨hE, hB, hS, hJ, hr⟩ := C78_fields hz co k0 k s
  have hc : ∀ F : Field n N, curl n k (z • F) = z • curl n k F := fun F => (curl_isLinear (n := n) (m := n) k).map_smul z F
  have hM : ∀ (A : Tensor n N) (F : Field n N), mulField A (z • F) = z • mulField A F := fun A F => (mulField_isLinear A).map_smul z F
  have hH : getH co k0 k i0 x0 (scaleState z s) = z • getH co k0 k i0 x0 s := by
    unfold getH
    dsimp only
    rw [hE, hc, show (scaleState z s).magnetic = s.magnetic from rfl]
    split_ifs with hm
    · funext c x
      rw [hM, hM]
      simp only [Pi.smul_apply, smul_eq_mul]
      show I / _ * (-(z * mulField _ _ c x) + _ * (z * mulField _ _ c x)) = z * (I / _ * (-mulField _ _ c x + _ * mulField _ _ c x))
      simp only [scaleState]
      ring
    · funext c x
      simp only [Pi.smul_apply, smul_eq_mul, scaleState]
      ring
  have hD : getD co k0 k i0 x0 (scaleState z s) = z • getD co k0 k i0 x0 s := by
    unfold getD
    rw [hH, hc]
    funext c x
    simp only [Pi.smul_apply, smul_eq_mul, scaleState]
    ring
  have hP : ∀ c x, getS co k0 k i0 x0 (scaleState z s) c x = ‖z‖ ^ 2 * getS co k0 k i0 x0 s c x := fun c x => by
    unfold getS
    rw [hE, hH]
    unfold cross
    simp only [Pi.smul_apply, smul_eq_mul, conj_scaled]
    rw [← mul_sub, re_ofReal_mul]
    ring
  have hT : ∀ a b x, getStress co k0 k i0 x0 (scaleState z s) a b x = ‖z‖ ^ 2 * getStress co k0 k i0 x0 s a b x := fun a b x => by
    unfold getStress outer
    dsimp only
    rw [hE, hH]
    simp only [Pi.smul_apply, smul_eq_mul, conj_scaled, norm_mul, mul_pow, ← Finset.mul_sum]
    rw [← re_ofReal_mul]
    congr 1
    push_cast
    ring
  refine ⟨fun c x => congrFun (congrFun hE c) x, fun c x => congrFun (congrFun hS c) x, fun c x => congrFun (congrFun hJ c) x, fun c x => congrFun (congrFun hB c) x, fun c x => congrFun (congrFun hH c) x,
    fun c x => congrFun (congrFun hD c) x, hP, ?_, fun x => ?_, hT, ?_, hr⟩
  · have h := divTensor_scale k (p := 1) (fun c _ x => (getS co k0 k i0 x0 s c x : ℂ)) ((‖z‖ ^ 2 : ℝ) : ℂ)
    have h1 : ∀ F : Fin n → Idx N → ℂ, div k F = (divTensor (p := 1) k fun c _ => F c).map fun f => f 0 := fun F => by
      unfold div divTensor
      cases divFt k fun c (_ : Fin 1) => ft (F c) <;> rfl
    unfold getDivS
    rw [h1, h1]
    have h2 : (fun (c : Fin n) (_ : Fin 1) (x : Idx N) => (getS co k0 k i0 x0 (scaleState z s) c x : ℂ)) = fun c _ x => ((‖z‖ ^ 2 : ℝ) : ℂ) * (getS co k0 k i0 x0 s c x : ℂ) := by
      funext c _ x
      rw [hP]
      push_cast
      rfl
    rw [h2, h]
    cases divTensor (p := 1) k fun c _ x => (getS co k0 k i0 x0 s c x : ℂ) <;> rfl
  · unfold getEnergy
    rw [hE, hD, hB, hH]
    simp only [Pi.smul_apply, smul_eq_mul, conj_scaled, re_ofReal_mul, ← Finset.mul_sum]
    ring
  · have h := divTensor_scale k (fun a b x => (getStress co k0 k i0 x0 s a b x : ℂ)) ((‖z‖ ^ 2 : ℝ) : ℂ)
    have h2 : (fun (a b : Fin n) (x : Idx N) => (getStress co k0 k i0 x0 (scaleState z s) a b x : ℂ)) = fun a b x => ((‖z‖ ^ 2 : ℝ) : ℂ) * (getStress co k0 k i0 x0 s a b x : ℂ) := by
      funext a b x
      rw [hT]
      push_cast
      rfl
    unfold getForce
    rw [h2, h]
    cases divTensor k fun a b x => (getStress co k0 k i0 x0 s a b x : ℂ) with
    | error e => rfl
    | ok f =>
      show Except.ok _ = Except.ok _
      congr 1
      funext c x
      dsimp only
      rw [re_ofReal_mul]
      ring

/-- **C78 (torque).** -/
theorem C78_torque {co : Const} {k0 : ℝ} {k : Fin d → Idx N → ℝ} {x0 : Idx N} {z : ℂ} {s s' : State 3 N} (h : AllScaled co k0 k 0 x0 z s s') (c : Fin 3) (x : Idx N) :
    getTorque co k0 k x0 s' c x = ‖z‖ ^ 2 * getTorque co k0 k x0 s c x := by
  match c with
  | 0 => exact h.stress 1 2 x
  | 1 => exact h.stress 0 2 x
  | 2 => exact h.stress 0 1 x

/-- **C78 (executions, all fields).** Multiplying source and initial field by a number has this effect after any number of iterations; when the one raises an exception then so does the other. -/
theorem C78_solution {z : ℂ} (hz : z ≠ 0) (co : Const) (k0 : ℝ) (kind : Kind d n) (k : Fin d → Idx N → ℝ) (i0 : Fin n) (x0 : Idx N) (m : Medium n N) (mag : Bool) {alpha : ℂ} (hα : alpha.im ≠ 0) (beta : ℝ) (S F : Field n N) (i : ℕ) :
    (∀ t, run kind k (prepare m mag alpha beta S F) i = .ok t →
      ∃ t', run kind k (prepare m mag alpha beta (z • S) (z • F)) i = .ok t' ∧ AllScaled co k0 k i0 x0 z t t' ∧ t'.alpha = t.alpha ∧ t'.iteration = t.iteration) ∧
    ∀ e, run kind k (prepare m mag alpha beta S F) i = .error e → run kind k (prepare m mag alpha beta (z • S) (z • F)) i = .error e := by
  have h := C78_run hz kind k m mag hα beta S F i
  exact ⟨fun t ht => ⟨scaleState z t, by rw [h, ht]; rfl, C78_derived hz co k0 k i0 x0 t, rfl, rfl⟩, fun e he => by rw [h, he]; rfl⟩

/-- `C78_solution`, and with it `C78_derived` and `C78_torque`, for a concrete magnetic material after the first iteration, which is accepted: twice the source gives four times the torque. -/
example (co : Const) (x0 : Idx demoGrid.shape) (S F : Field 3 demoGrid.shape) : ∃ t t', run (.vectorial (by norm_num)) (backendK demoGrid 1) (prepare demoMedium true (1 + 19 * I) 1 S F) 1 = .ok t ∧
    run (.vectorial (by norm_num)) (backendK demoGrid 1) (prepare demoMedium true (1 + 19 * I) 1 ((2 : ℂ) • S) ((2 : ℂ) • F)) 1 = .ok t' ∧
    ∀ c x, getTorque co 1 (backendK demoGrid 1) x0 t' c x = 4 * getTorque co 1 (backendK demoGrid 1) x0 t c x := by
  obtain ⟨t, ht⟩ := (C37_progress (.vectorial (by norm_num)) (backendK demoGrid 1) (le_top : _ ≤ (⊤ : WithTop ℝ)) (i := 0) (t := prepare demoMedium true (1 + 19 * I) 1 S F) rfl).2 (by exact WithTop.top_ne_coe)
  obtain ⟨t', h1, h2, -⟩ := (C78_solution (z := 2) two_ne_zero co 1 (.vectorial (by norm_num)) (backendK demoGrid 1) 0 x0 demoMedium true (alpha := 1 + 19 * I) (by norm_num) 1 S F 1).1 t ht
  refine ⟨t, t', ht, h1, fun c x => (C78_torque h2 c x).trans ?_⟩
  norm_num

end Verif.Solver
