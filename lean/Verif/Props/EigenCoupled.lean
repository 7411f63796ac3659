import Verif.Props.EigenProblem
import Verif.Props.ProblemCoupledRate

/-!
# C135: materials with magneto-electric coupling, and what `solve` returns, with the eigenvalues as they are calculated
-/

namespace Verif.Solver

open Verif Verif.Fourier Verif.Backend Complex Matrix
open Verif.Spec.Solver (CoupledEquation absorbed Within rateOf Close)

variable {d : ℕ}

/-- **C135 (convergence, coupled).** For all media that are found to be magnetic, with any coupling and permeability, that absorb at least `δ` of the electric field at every point with the coupling exchanged: the contrast that
follows from the calculated values is less than the bias, and the iteration converges at the rate of C117 for it. -/
theorem C135_coupled {g : Grid.Obj d ℝ} (hs : ∀ a, g.step a ≠ 0) {k0 : ℝ} (hk0 : 0 < k0) (hd : d ≤ 3) {m : Medium 3 g.shape} (hinv : ∀ x, IsUnit (m.mu x).det) (thickness : List ℝ)
    {r : ℝ} {ev : Matrix (Fin 3) (Fin 3) ℂ → List ℂ} (hr : 0 ≤ r) (hev : Close r ev) {vec : ℝ × ℝ} (hv : (1 + sigmaD g.step k0) ^ 2 * √r < 0.05 * vec.2 ^ 2) {δ : ℝ} (hδ : 0 < δ)
    (habs : ∀ x e h, δ * ∑ i, ‖e i‖ ^ 2 ≤ absorbed (m.exchanged.epsilon x) (m.exchanged.xi x) (m.exchanged.zeta x) (m.exchanged.mu x) e h) :
    ∃ σ, 0 ≤ σ ∧ σ < (m.magneticWith ev g.step k0 thickness vec).1.im * vec.2 ^ 2 ∧ ∀ S F : Field 3 g.shape,
      ∃ E, CoupledEquation (kOf g) k0 m.exchanged.epsilon m.exchanged.xi m.exchanged.zeta m.exchanged.mu S E ∧
        ConvergesAtRate (.vectorial hd) (backendK g k0) k0 (prepare m true (m.magneticWith ev g.step k0 thickness vec).1 (m.magneticWith ev g.step k0 thickness vec).2 S F) E
          (rateOf ((m.magneticWith ev g.step k0 thickness vec).1.im * vec.2 ^ 2) σ δ) := by
  obtain ⟨sE, sM, sEH, sHE, h1, h2, h3, h4, w1, w2, w3, w4, hlt⟩ := C135_bias_magnetic hr hev m g.step hk0 thickness vec hv
  have hD := sigmaD_nonneg g.step hk0
  have hb : (m.magneticWith ev g.step k0 thickness vec).2 = vec.2 ^ 2 := rfl
  rw [← hb]
  set c := m.magneticWith ev g.step k0 thickness vec with hc
  have hbp : 0 < c.2 := by
    have : 0 ≤ (1 + sigmaD g.step k0) ^ 2 * √r := by positivity
    rw [hb]
    by_contra hn
    push Not at hn
    linarith
  set σ := sE + sigmaD g.step k0 ^ 2 * sM + sigmaD g.step k0 * (sEH + sHE) with hσe
  have hσ0 : 0 ≤ σ := by positivity
  have him : 0 < c.1.im := pos_of_mul_pos_left (hσ0.trans_lt hlt) hbp.le
  have hk2 : ((k0 : ℂ) ^ 2) ≠ 0 := pow_ne_zero 2 (ofReal_ne hk0.ne')
  refine ⟨σ, hσ0, hlt, fun S F => ?_⟩
  have hn : ∀ F, Backend.norm (deviation (backendK g k0) c.1.re c.2 (.vectorial hd) m F) ≤ σ * Backend.norm F := by
    refine deviation_norm_vectorial hd (backendK g k0) hD (fun x => ?_) m h1 h2 h3 h4 w1 w2 w3 w4
    have := kOf_le g hs hk0 x
    simp only [C31_backend g hs hk0.ne', mul_pow, ← Finset.mul_sum] at this
    exact le_of_mul_le_mul_left this (by positivity)
  have hw : ∀ S E, CoupledEquation (kOf g) k0 m.exchanged.epsilon m.exchanged.xi m.exchanged.zeta m.exchanged.mu S E ↔
      waveOp (backendK g k0) c.2 (.vectorial hd) m (((k0 : ℂ) ^ 2) • E) = S := fun S E => by
    rw [coupled_iff hk0.ne' (C31_backend g hs hk0.ne') (m := m.exchanged) hinv, waveOp_eq_coupled _ _ _ hinv]
  have him' : ∀ F, δ * Backend.norm F ^ 2 ≤ (dot F (deviation (backendK g k0) c.1.re c.2 (.vectorial hd) m F)).im := fun F => by
    rw [coupled_im hd _ hinv, norm_sq, Finset.sum_comm, Finset.mul_sum]
    exact Finset.sum_le_sum fun x _ => habs x _ _
  obtain ⟨P, hP, hq⟩ := converges_absorbing (mag := true) (backendK_origin g hs hk0.ne') (.vectorial hd) him hbp (.inl rfl) hn hlt hδ him' S F
  have hPE : P = ((k0 : ℂ) ^ 2) • (((k0 : ℂ) ^ 2)⁻¹ • P) := by rw [smul_smul, mul_inv_cancel₀ hk2, one_smul]
  exact ⟨((k0 : ℂ) ^ 2)⁻¹ • P, (hw S _).2 (by rw [← hPE]; exact hP), ((congrArg (ContractsAtRate (.vectorial hd) (backendK g k0) (prepare m true c.1 c.2 S F) ·
    (rateOf (c.1.im * c.2) σ δ)) hPE).mp hq).electric hk0.ne'⟩

end Verif.Solver

namespace Verif.Problem

open Verif Verif.Fourier Verif.Backend Verif.Solver Verif.Construct Complex Matrix
open Verif.Assign (toMatrixField)
open Verif.Spec.Solver (NoGain CoupledEquation WaveEquation ScalarWaveEquation absorbed Within)

variable {d n : ℕ} {eps : ℝ}

/-- A new object has not iterated yet. -/
theorem unused_computed [NeZero n] {co : Const} {p : Args d} {m : Medium n p.grid.shape} {S E : Solver.Field n p.grid.shape} (h : Describes co n p m S E) {torch : Bool} {o : Optimum}
    {s : State n p.grid.shape} (hst : p.constructComputed co n eps torch o = .ok s) : s.prevNorm = ⊤ := by
  rw [C135_construct h] at hst
  cases hst
  split_ifs <;> rfl

theorem startComputed_vectorial {co : Const} {p : Args d} (hvec : p.source.isVectorial (List.ofFn p.grid.shape) (p.currentFactor co) = true) {torch : Bool} {o : Optimum} :
    p.startComputed co eps torch o = (p.constructComputed co 3 eps torch o).map fun s => ⟨3, s⟩ := if_pos hvec

theorem startComputed_scalar {co : Const} {p : Args d} (hvec : p.source.isVectorial (List.ofFn p.grid.shape) (p.currentFactor co) = false) {torch : Bool} {o : Optimum} :
    p.startComputed co eps torch o = (p.constructComputed co 1 eps torch o).map fun s => ⟨1, s⟩ := by
  unfold Args.startComputed Args.vectorial
  rw [if_neg (by rw [hvec]; decide)]

theorem unused_computed_vectorial {co : Const} {p : Args d} {m : Medium 3 p.grid.shape} {S E : Solver.Field 3 p.grid.shape} (h : Describes co 3 p m S E)
    (hvec : p.source.isVectorial (List.ofFn p.grid.shape) (p.currentFactor co) = true) {torch : Bool} {o : Optimum} {s : State 3 p.grid.shape}
    (hst : p.startComputed co eps torch o = .ok ⟨3, s⟩) : s.prevNorm = ⊤ := by
  rw [startComputed_vectorial hvec] at hst
  cases hc : p.constructComputed co 3 eps torch o with
  | error e =>
    rw [hc] at hst
    exact (nomatch hst)
  | ok s' =>
    rw [hc] at hst
    cases hst
    exact unused_computed h hc

section Vectorial
variable {co : Const} {p : Args d} {m : Medium 3 p.grid.shape} {S E0 : Solver.Field 3 p.grid.shape}
  (hvec : p.source.isVectorial (List.ofFn p.grid.shape) (p.currentFactor co) = true) (hd : d ≤ 3) (hs : ∀ a, p.grid.step a ≠ 0) (hk0 : 0 < p.frequency.k0 co.c)
  (heps : 2 * eps ≤ 1) (torch : Bool) (o : Optimum)
include hvec hs hk0 heps

/-- **C135 (coupled, as called).** The same for materials with any coupling and permeability that are found to be magnetic, and absorb with the coupling exchanged. -/
theorem C135_called_coupled (h : Describes co 3 p m S E0) (hmag : foundMagnetic (toMatrixField d p.xi) (toMatrixField d p.zeta) (toMatrixField d p.mu) = true) (hinv : ∀ x, IsUnit (m.mu x).det)
    (hprec : (1 + sigmaD p.grid.step (p.frequency.k0 co.c)) ^ 2 * √(4 * √eps) < 0.05 * o.vec.2 ^ 2) {δ : ℝ} (hδ : 0 < δ)
    (habs : ∀ x e h, δ * ∑ i, ‖e i‖ ^ 2 ≤ absorbed (m.exchanged.epsilon x) (m.exchanged.xi x) (m.exchanged.zeta x) (m.exchanged.mu x) e h) :
    ∃ s E, p.startComputed co eps torch o = .ok ⟨3, s⟩ ∧ getE (p.frequency.k0 co.c) s = E0 ∧
      CoupledEquation (kOf p.grid) (p.frequency.k0 co.c) m.exchanged.epsilon m.exchanged.xi m.exchanged.zeta m.exchanged.mu S E ∧
      ConvergesExponentially (.vectorial hd) (backendK p.grid (p.frequency.k0 co.c)) (p.frequency.k0 co.c) s E := by
  have hc := C135_construct h eps torch o
  rw [hmag, if_pos rfl] at hc
  obtain ⟨σ, -, -, hq⟩ := C135_coupled hs hk0 hd hinv p.thickness (by positivity) (C135_accuracy heps torch) hprec hδ habs
  obtain ⟨E, hE, hconv⟩ := hq S (fun c x => E0 c x * ((p.frequency.k0 co.c ^ 2 : ℝ) : ℂ))
  refine ⟨_, E, ?_, getE_initial hk0.ne' _ _ _ _ _ _, hE, _, hconv⟩
  rw [startComputed_vectorial hvec, hc]
  rfl

variable (h : Describes co 3 p m S 0) (hS : S ≠ 0)
include h hS

/-- **C135 (solve).** For every tolerance `solve` returns after a finite number of iterations, with a field of which the relative distance to the solution is at most a constant times the tolerance: for media that are not magnetic. -/
theorem C135_solves (hxi : ∀ x, m.xi x = 0) (hzeta : ∀ x, m.zeta x = 0) (hgainM : NoGain m.mu) (form : ScalarForm d p.mu)
    (hmu : ∀ x, ‖m.mu x 0 0 - m.mu (first h.nonempty) 0 0‖ ≤ 1e-8 + 1e-5 * ‖m.mu (first h.nonempty) 0 0‖)
    (hβ : 0 < ((m.mu (first h.nonempty))⁻¹ 0 0).re) (hprec : 4 * √eps < (0.05 * ((m.mu (first h.nonempty))⁻¹ 0 0).re) ^ 2) (habs : Absorbs m.epsilon) :
    ∃ s E, p.startComputed co eps torch o = .ok ⟨3, s⟩ ∧
      WaveEquation (kOf p.grid) (p.frequency.k0 co.c) m.epsilon (fun _ => (((m.mu (first h.nonempty))⁻¹ 0 0).re : ℂ)⁻¹ • 1) S E ∧
      SolvesFor (.vectorial hd) (backendK p.grid (p.frequency.k0 co.c)) (p.frequency.k0 co.c) s E := by
  obtain ⟨s, E, h1, h2, h3, -, h4⟩ := C135_called h hvec hd hs hk0 hxi hzeta hgainM heps torch o form hmu hβ hprec habs
  refine ⟨s, E, h1, h3, solvesFor hk0.ne' h4 (unused_computed_vectorial h hvec h1) h2 fun h0 => hS ?_⟩
  rw [h0] at h3
  exact zero_of_equation h3

/-- **C135 (solve, magnetic).** For magnetic media with any coupling. -/
theorem C135_solves_coupled (hmag : foundMagnetic (toMatrixField d p.xi) (toMatrixField d p.zeta) (toMatrixField d p.mu) = true) (hinv : ∀ x, IsUnit (m.mu x).det)
    (hprec : (1 + sigmaD p.grid.step (p.frequency.k0 co.c)) ^ 2 * √(4 * √eps) < 0.05 * o.vec.2 ^ 2) {δ : ℝ} (hδ : 0 < δ)
    (habs : ∀ x e h, δ * ∑ i, ‖e i‖ ^ 2 ≤ absorbed (m.exchanged.epsilon x) (m.exchanged.xi x) (m.exchanged.zeta x) (m.exchanged.mu x) e h) :
    ∃ s E, p.startComputed co eps torch o = .ok ⟨3, s⟩ ∧
      CoupledEquation (kOf p.grid) (p.frequency.k0 co.c) m.exchanged.epsilon m.exchanged.xi m.exchanged.zeta m.exchanged.mu S E ∧
      SolvesFor (.vectorial hd) (backendK p.grid (p.frequency.k0 co.c)) (p.frequency.k0 co.c) s E := by
  obtain ⟨s, E, h1, h2, h3, h4⟩ := C135_called_coupled hvec hd hs hk0 heps torch o h hmag hinv hprec hδ habs
  refine ⟨s, E, h1, h3, solvesFor hk0.ne' h4 (unused_computed_vectorial h hvec h1) h2 fun h0 => hS ?_⟩
  rw [h0] at h3
  exact zero_of_coupled hs hk0.ne' (m := m.exchanged) hinv h3

end Vectorial

/-- **C135 (solve, scalar).** For scalar calculations, with any precision. -/
theorem C135_solves_scalar {co : Const} {p : Args d} {m : Medium 1 p.grid.shape} {S : Solver.Field 1 p.grid.shape} (h : Describes co 1 p m S 0)
    (hvec : p.source.isVectorial (List.ofFn p.grid.shape) (p.currentFactor co) = false) (hs : ∀ a, p.grid.step a ≠ 0) (hk0 : 0 < p.frequency.k0 co.c)
    (hxi : ∀ x, m.xi x = 0) (hzeta : ∀ x, m.zeta x = 0) (hgainM : ∀ x, 0 ≤ (m.mu x 0 0).im) (eps : ℝ) (torch : Bool) (o : Optimum)
    (hmag : foundMagnetic (toMatrixField d p.xi) (toMatrixField d p.zeta) (toMatrixField d p.mu) = false)
    (hβ : 0 < ((m.mu (first h.nonempty))⁻¹ 0 0).re) (habs : ∀ x, 0 < (m.epsilon x 0 0).im) (hS : S ≠ 0) :
    ∃ s E, p.startComputed co eps torch o = .ok ⟨1, s⟩ ∧
      ScalarWaveEquation (kOf p.grid) (p.frequency.k0 co.c) (fun x => m.epsilon x 0 0) (((m.mu (first h.nonempty))⁻¹ 0 0).re : ℂ)⁻¹ (S 0) (E 0) ∧
      SolvesFor .scalar (backendK p.grid (p.frequency.k0 co.c)) (p.frequency.k0 co.c) s E := by
  obtain ⟨s, E, h1, h2, h3, h4⟩ := C135_called_scalar h hvec hs hk0 hxi hzeta hgainM eps torch o hmag hβ habs
  refine ⟨s, E, h1, h3, solvesFor hk0.ne' h4 ?_ h2 fun h0 => hS ?_⟩
  · have h5 := C135_construct h eps torch o
    rw [startComputed_scalar hvec, h5] at h1
    cases h1
    exact unused_computed h h5
  · funext c
    rw [h0] at h3
    rw [Subsingleton.elim c 0, zero_of_scalar_equation h3]
    rfl

/-- The hypotheses of `C135_solves_coupled` are met, and with it those of `C135_called_coupled` and `C135_coupled`: a chiral material, with double precision. -/
example (co : Const) (torch : Bool) (o : Optimum) (ho : o.vec.2 = 1) := C135_solves_coupled (m := chiralMedium) (p := quietChiral) (co := co) rfl (show 1 ≤ 3 by decide) demo_step one_pos
  (eps := 2⁻¹ ^ 52) double_precision.1 torch o (quietChiral_describes co) (fun h => one_ne_zero (congrFun (congrFun h 0) fun _ => (0 : Fin 2))) chiral_found chiral_invertible
  (by rw [ho]; exact demo_margin) one_pos chiral_absorbs_exchanged

/-- `C135_solves` and `C135_solves_scalar` for the arguments of `C90_called`. -/
example (co : Const) (torch : Bool) (o : Optimum) := C135_solves rfl (show 1 ≤ 3 by decide) demo_step one_pos (eps := 2⁻¹ ^ 52) double_precision.1 torch o (quiet_describes true 3 co)
  (fun h => one_ne_zero (congrFun (congrFun h 0) fun _ => (0 : Fin 2))) (fun _ => rfl) (fun _ => rfl) (demo_noGain 3).2 (demo_scalarForm true) (fun _ => demo_uniform 3 _ _) (demo_beta_pos _)
  (demo_condition _) (demo_absorbs 3)
example (co : Const) (eps : ℝ) (torch : Bool) (o : Optimum) := C135_solves_scalar (quiet_describes false 1 co) rfl demo_step one_pos (fun _ => rfl) (fun _ => rfl) demo_mu_im eps torch o
  (demo_not_magnetic co) (demo_beta_one _) demo_loss (fun h => one_ne_zero (congrFun (congrFun h 0) fun _ => (0 : Fin 2)))

end Verif.Problem
