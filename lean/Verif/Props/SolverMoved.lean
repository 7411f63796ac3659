import Verif.Props.SolverSymmetry
import Verif.Props.SolverAxes

/-!
# C76: all derived fields move with the problem
-/

namespace Verif.Solver

open Verif Verif.Fourier Verif.Backend Complex
open Verif.Spec.Subpixel (circular)

variable {d n : ℕ} {N : Fin d → ℕ}

/-- All properties of the object in the state `s'` are those of the object in the state `s`, moved circularly by `j` samples. -/
structure AllMoved (co : Const) (k0 : ℝ) (k : Fin d → Idx N → ℝ) (i0 : Fin n) (x0 : Idx N) (j : Fin d → ℤ) (s s' : State n N) : Prop where
  E : ∀ c, getE k0 s' c = circular (getE k0 s c) j
  source : ∀ c, getSource s' c = circular (getSource s c) j
  J : ∀ c, getJ co k0 s' c = circular (getJ co k0 s c) j
  B : ∀ c, getB co k0 k s' c = circular (getB co k0 k s c) j
  H : ∀ c, getH co k0 k i0 x0 s' c = circular (getH co k0 k i0 x0 s c) j
  D : ∀ c, getD co k0 k i0 x0 s' c = circular (getD co k0 k i0 x0 s c) j
  S : ∀ c, getS co k0 k i0 x0 s' c = circular (getS co k0 k i0 x0 s c) j
  divS : getDivS co k0 k i0 x0 s' = (getDivS co k0 k i0 x0 s).map fun f => circular f j
  energy : getEnergy co k0 k i0 x0 s' = circular (getEnergy co k0 k i0 x0 s) j
  stress : ∀ a b, getStress co k0 k i0 x0 s' a b = circular (getStress co k0 k i0 x0 s a b) j
  force : getForce co k0 k i0 x0 s' = (getForce co k0 k i0 x0 s).map fun f c => circular (f c) j
  residue : (relativeResidue s').1 = (relativeResidue s).1

theorem divFt_move (hN : ∀ a, 0 < N a) (k : Fin d → Idx N → ℝ) {p : ℕ} (F : Fin n → Fin p → Idx N → ℂ) (j : Fin d → ℤ) :
    divTensor k (fun c b => circular (F c b) j) = (divTensor k F).map fun f b => circular (f b) j := by
  unfold divTensor divFt
  split_ifs with hd
  · have h : ∀ b : Fin p, (convolve (fun G (_ : Fin 1) x => ∑ a : Fin d, I * (k a x : ℂ) * G (Fin.castLE hd a) x) (moveField (fun c => F c b) j)) 0 =
        circular (convolve (fun G (_ : Fin 1) x => ∑ a : Fin d, I * (k a x : ℂ) * G (Fin.castLE hd a) x) (fun c => F c b) 0) j := fun b => by
      rw [convolve_move hN]
      · rfl
      · intro G z
        funext _ x
        rw [Finset.sum_mul]
        exact Finset.sum_congr rfl fun a _ => by ring
    show Except.ok _ = Except.ok _
    congr 1
    funext b
    exact h b
  · rfl

/-- **C76 (all fields).** In a problem that has been moved, all fields that can be read have been moved, and the residue is the same. -/
theorem C76_derived (hN : ∀ a, 0 < N a) (co : Const) (k0 : ℝ) (k : Fin d → Idx N → ℝ) (i0 : Fin n) (x0 : Idx N) (j : Fin d → ℤ) {s : State n N}
    (hs : s.magnetic = false → ∃ z : ℂ, ∀ x, s.chiHH x = z • (1 : Matrix (Fin n) (Fin n) ℂ)) : AllMoved co k0 k i0 x0 j s (moveState j s) := by
  have hc : ∀ F : Field n N, curl n k (moveField F j) = moveField (curl n k F) j := fun F => convolve_move hN (curlFt_mul k) F j
  have hE : getE k0 (moveState j s) = moveField (getE k0 s) j := rfl
  have hH : getH co k0 k i0 x0 (moveState j s) = moveField (getH co k0 k i0 x0 s) j := by
    unfold getH
    dsimp only
    rw [hE, hc, show (moveState j s).magnetic = s.magnetic from rfl]
    split_ifs with hm
    · rfl
    · obtain ⟨z, hz⟩ := hs (by simpa using hm)
      have h1 : (moveState j s).chiHH x0 = s.chiHH x0 := (hz _).trans (hz x0).symm
      rw [h1]
      rfl
  have hB : getB co k0 k (moveState j s) = moveField (getB co k0 k s) j := by
    unfold getB
    rw [hE, hc]
    rfl
  have hD : getD co k0 k i0 x0 (moveState j s) = moveField (getD co k0 k i0 x0 s) j := by
    unfold getD
    rw [hH, hc]
    rfl
  have hS : ∀ c, getS co k0 k i0 x0 (moveState j s) c = circular (getS co k0 k i0 x0 s c) j := fun c => by
    unfold getS
    rw [hE, hH]
    rfl
  have hT : ∀ a b, getStress co k0 k i0 x0 (moveState j s) a b = circular (getStress co k0 k i0 x0 s a b) j := fun a b => by
    unfold getStress
    dsimp only
    rw [hE, hH]
    rfl
  refine ⟨fun c => congrFun hE c, fun _ => rfl, fun _ => rfl, fun c => congrFun hB c, fun c => congrFun hH c, fun c => congrFun hD c, hS, ?_, ?_, hT, ?_, (C76_fields hN co k0 k s j i0).2.2.2⟩
  · have h := divFt_move hN k (p := 1) (fun c _ x => (getS co k0 k i0 x0 s c x : ℂ)) j
    have h1 : ∀ F : Fin n → Idx N → ℂ, div k F = (divTensor (p := 1) k fun c _ => F c).map fun f => f 0 := fun F => by
      unfold div divTensor
      cases divFt k fun c (_ : Fin 1) => ft (F c) <;> rfl
    unfold getDivS
    rw [h1, h1]
    have h2 : (fun (c : Fin n) (_ : Fin 1) (x : Idx N) => (getS co k0 k i0 x0 (moveState j s) c x : ℂ)) = fun c _ => circular (fun x => (getS co k0 k i0 x0 s c x : ℂ)) j := by
      funext c _ x
      rw [hS]
      rfl
    rw [h2, h]
    cases divTensor (p := 1) k fun c _ x => (getS co k0 k i0 x0 s c x : ℂ) <;> rfl
  · unfold getEnergy
    rw [hE, hD, hB, hH]
    rfl
  · have h := divFt_move hN k (fun a b x => (getStress co k0 k i0 x0 s a b x : ℂ)) j
    have h2 : (fun (a b : Fin n) (x : Idx N) => (getStress co k0 k i0 x0 (moveState j s) a b x : ℂ)) = fun a b => circular (fun x => (getStress co k0 k i0 x0 s a b x : ℂ)) j := by
      funext a b x
      rw [hT]
      rfl
    unfold getForce
    rw [h2, h]
    cases divTensor k fun a b x => (getStress co k0 k i0 x0 s a b x : ℂ) <;> rfl

/-- **C76 (torque).** -/
theorem C76_torque {co : Const} {k0 : ℝ} {k : Fin d → Idx N → ℝ} {x0 : Idx N} {j : Fin d → ℤ} {s s' : State 3 N} (h : AllMoved co k0 k 0 x0 j s s') (c : Fin 3) :
    getTorque co k0 k x0 s' c = circular (getTorque co k0 k x0 s c) j := by
  match c with
  | 0 => exact h.stress 1 2
  | 1 => exact h.stress 0 2
  | 2 => exact h.stress 0 1

/-- **C76 (executions, all fields).** Moving material, source and initial field circularly moves all fields that can be read after any number of iterations; when the one raises an exception then so does the other. -/
theorem C76_solution (hN : ∀ a, 0 < N a) (co : Const) (k0 : ℝ) (kind : Kind d n) (k : Fin d → Idx N → ℝ) (i0 : Fin n) (x0 : Idx N) {m : Medium n N} {mag : Bool} (hm : m.Plain mag) (alpha : ℂ) (beta : ℝ) (S F : Field n N)
    (j : Fin d → ℤ) (i : ℕ) :
    (∀ t, run kind k (prepare m mag alpha beta S F) i = .ok t →
      ∃ t', run kind k (prepare (m.move j) mag alpha beta (fun c => circular (S c) j) fun c => circular (F c) j) i = .ok t' ∧ AllMoved co k0 k i0 x0 j t t' ∧ t'.alpha = t.alpha ∧ t'.iteration = t.iteration) ∧
    ∀ e, run kind k (prepare m mag alpha beta S F) i = .error e → run kind k (prepare (m.move j) mag alpha beta (fun c => circular (S c) j) fun c => circular (F c) j) i = .error e := by
  have h := C76_run hN kind k m mag alpha beta S F j i
  refine ⟨fun t ht => ⟨moveState j t, by rw [h, ht]; rfl, C76_derived hN co k0 k i0 x0 j (plain_run hm ht), rfl, rfl⟩, fun e he => by rw [h, he]; rfl⟩

/-- `C76_solution`, and with it `C76_derived` and `C76_torque`, for a concrete magnetic material after the first iteration, which is accepted. -/
example (co : Const) (x0 : Idx demoGrid.shape) (S F : Field 3 demoGrid.shape) (j : Fin 1 → ℤ) : ∃ t t', run (.vectorial (by norm_num)) (backendK demoGrid 1) (prepare demoMedium true (1 + 19 * I) 1 S F) 1 = .ok t ∧
    run (.vectorial (by norm_num)) (backendK demoGrid 1) (prepare (demoMedium.move j) true (1 + 19 * I) 1 (fun c => circular (S c) j) fun c => circular (F c) j) 1 = .ok t' ∧
    ∀ c, getTorque co 1 (backendK demoGrid 1) x0 t' c = circular (getTorque co 1 (backendK demoGrid 1) x0 t c) j := by
  obtain ⟨t, ht⟩ := (C37_progress (.vectorial (by norm_num)) (backendK demoGrid 1) (le_top : _ ≤ (⊤ : WithTop ℝ)) (i := 0) (t := prepare demoMedium true (1 + 19 * I) 1 S F) rfl).2 (by exact WithTop.top_ne_coe)
  obtain ⟨t', h1, h2, -⟩ := (C76_solution (fun _ => two_pos) co 1 (.vectorial (by norm_num)) (backendK demoGrid 1) 0 x0 (m := demoMedium) (mag := true) (fun h => nomatch h) (1 + 19 * I) 1 S F j 1).1 t ht
  exact ⟨t, t', ht, h1, C76_torque h2⟩

end Verif.Solver
