import Verif.Props.SolverStop
import Verif.Props.ProblemExamples

/-!
# C90: `solve`, from the arguments of the constructor
-/

namespace Verif.Problem

open Verif Verif.Fourier Verif.Backend Verif.Solver Verif.Construct Complex Matrix
open Verif.Assign (toMatrixField)
open Verif.Spec.Solver (NoGain Within WaveEquation ScalarWaveEquation)

variable {d n : ℕ}

/-- A Solution object has not been used yet when the constructor returns. -/
theorem unused [NeZero n] {co : Const} {p : Args d} {m : Medium n p.grid.shape} {S E : Solver.Field n p.grid.shape} (h : Describes co n p m S E) {tol : ℝ} {o : Optimum}
    {s : State n p.grid.shape} (hs : p.construct co n tol o = .ok s) : s.prevNorm = ⊤ := by
  rw [C86_construct h tol o] at hs
  have := Except.ok.inj hs
  rw [← this]
  split_ifs <;> rfl

theorem zero_of_equation {g : Grid.Obj d ℝ} {k0 : ℝ} {epsilon mu : Tensor 3 g.shape} {S : Solver.Field 3 g.shape} (h : WaveEquation (kOf g) k0 epsilon mu S 0) : S = 0 := by
  funext c x
  have := h c x
  rw [spec_curl, spec_curl, spec_act, spec_act, (curl_isLinear _).map_zero, (mulField_isLinear _).map_zero, (curl_isLinear _).map_zero, (mulField_isLinear _).map_zero] at this
  rw [← this]
  simp

theorem zero_of_scalar_equation {g : Grid.Obj d ℝ} {k0 : ℝ} {epsilon : Idx g.shape → ℂ} {mu : ℂ} {S : Idx g.shape → ℂ}
    (h : ScalarWaveEquation (kOf g) k0 epsilon mu S 0) : S = 0 := by
  funext x
  rw [← h x]
  simp [Spec.Solver.negLaplacian, ft, ift]

/-- What is proved about `solve`: for every tolerance larger than 0 it returns after a finite number of iterations, and the error is at most a constant times the tolerance. -/
def SolvesFor {N : Fin d → ℕ} (kind : Kind d n) (k : Fin d → Idx N → ℝ) (k0 : ℝ) (s : State n N) (E : Solver.Field n N) : Prop :=
  ∃ C : ℝ, 0 ≤ C ∧ ∀ rtol : ℝ, 0 < rtol → ∃ i t, solve kind k .none rtol ⊤ s i = .done () t ∧ Backend.norm (getE k0 t - E) ≤ C * rtol * Backend.norm (getE k0 t)

theorem solvesFor {N : Fin d → ℕ} {kind : Kind d n} {k : Fin d → Idx N → ℝ} {k0 : ℝ} (hk0 : k0 ≠ 0) {s : State n N} {E : Solver.Field n N}
    (h : ConvergesExponentially kind k k0 s E) (hp : s.prevNorm = ⊤) (hs : getE k0 s = 0) (hE : E ≠ 0) : SolvesFor kind k k0 s E := by
  obtain ⟨C, hC, hacc⟩ := C90_accuracy hk0 h
  refine ⟨C, hC, fun rtol hr => ?_⟩
  obtain ⟨i, t, ht⟩ := C90_returns hk0 h (by rw [hp]; exact WithTop.coe_lt_top _) hE hs hr ⊤
  exact ⟨i, t, ht, (hacc rtol ⊤ i t ht).resolve_left fun h => WithTop.coe_ne_top (top_le_iff.1 h)⟩

section Vectorial
variable {co : Const} {p : Args d} {m : Medium 3 p.grid.shape} {S : Solver.Field 3 p.grid.shape} (h : Describes co 3 p m S 0)
  (hvec : p.source.isVectorial (List.ofFn p.grid.shape) (p.currentFactor co) = true) (hd : d ≤ 3) (hs : ∀ a, p.grid.step a ≠ 0) (hk0 : 0 < p.frequency.k0 co.c)
  (hxi : ∀ x, m.xi x = 0) (hzeta : ∀ x, m.zeta x = 0) (hgain : NoGain m.epsilon) (hgainM : NoGain m.mu) (o : Optimum) (tol : ℝ)
  (habs : Absorbs m.epsilon) (hS : S ≠ 0)
include h hvec hs hk0 hxi hzeta hgain hgainM habs hS

omit hs hk0 hxi hzeta hgain hgainM habs hS in
theorem unused_vectorial {s : State 3 p.grid.shape} (hst : p.start co tol o = .ok ⟨3, s⟩) : s.prevNorm = ⊤ := by
  rw [C86_components, if_pos hvec] at hst
  cases hc : p.construct co 3 tol o with
  | error e =>
    rw [hc] at hst
    exact (nomatch hst)
  | ok s' =>
    rw [hc] at hst
    cases hst
    exact unused h hc

/-- **C90 (as called, not magnetic).** For all arguments that describe an absorbing problem with a uniform permeability, a source, and the default initial field: the constructor succeeds, and for every
tolerance `solve` returns after a finite number of iterations, with a field of which the relative distance to the solution of the wave equation is at most a constant times the tolerance. -/
theorem C90_called (htol : 0 ≤ tol) (form : ScalarForm d p.mu) {r : ℝ} (hr : 0 < r) (hmu : ∀ x, m.mu x = (r : ℂ) • 1) :
    ∃ s E, p.start co tol o = .ok ⟨3, s⟩ ∧ WaveEquation (kOf p.grid) (p.frequency.k0 co.c) m.epsilon m.mu S E ∧
      SolvesFor (.vectorial hd) (backendK p.grid (p.frequency.k0 co.c)) (p.frequency.k0 co.c) s E := by
  obtain ⟨s, E, h1, h2, h3, h4⟩ := C86_uniform h hvec hd hs hk0 hxi hzeta hgain hgainM o tol htol form hr hmu habs
  refine ⟨s, E, h1, h3, solvesFor hk0.ne' h4 (unused_vectorial h hvec o tol h1) h2 fun h0 => hS ?_⟩
  rw [h0] at h3
  exact zero_of_equation h3

/-- **C90 (as called, magnetic).** -/
theorem C90_called_magnetic (hmag : foundMagnetic (toMatrixField d p.xi) (toMatrixField d p.zeta) (toMatrixField d p.mu) = true) (hinv : ∀ x, IsUnit (m.mu x).det)
    (hv : o.vec.2 ≠ 0) :
    ∃ s E, p.start co tol o = .ok ⟨3, s⟩ ∧ WaveEquation (kOf p.grid) (p.frequency.k0 co.c) m.epsilon m.mu S E ∧
      SolvesFor (.vectorial hd) (backendK p.grid (p.frequency.k0 co.c)) (p.frequency.k0 co.c) s E := by
  obtain ⟨s, E, h1, h2, h3, h4⟩ := C86_magnetic h hvec hd hs hk0 hxi hzeta hgain hgainM o tol hmag hinv hv habs
  refine ⟨s, E, h1, h3, solvesFor hk0.ne' h4 (unused_vectorial h hvec o tol h1) h2 fun h0 => hS ?_⟩
  rw [h0] at h3
  exact zero_of_equation h3

end Vectorial

section Scalar
variable {co : Const} {p : Args d} {m : Medium 1 p.grid.shape} {S : Solver.Field 1 p.grid.shape} (h : Describes co 1 p m S 0)
  (hvec : p.source.isVectorial (List.ofFn p.grid.shape) (p.currentFactor co) = false) (hs : ∀ a, p.grid.step a ≠ 0) (hk0 : 0 < p.frequency.k0 co.c)
  (hxi : ∀ x, m.xi x = 0) (hzeta : ∀ x, m.zeta x = 0) (habs : ∀ x, 0 < (m.epsilon x 0 0).im) (o : Optimum) (tol : ℝ) (hS : S ≠ 0)
include h hvec hs hk0 hxi hzeta habs hS

/-- **C90 (as called, scalar).** -/
theorem C90_called_scalar (hgainM : ∀ x, 0 ≤ (m.mu x 0 0).im) (htol : 0 ≤ tol)
    (hmu : ∀ x, ‖m.mu x 0 0 - m.mu (first h.nonempty) 0 0‖ ≤ 1e-8 + 1e-5 * ‖m.mu (first h.nonempty) 0 0‖)
    (hβ : 0 < ((m.mu (first h.nonempty) 0 0)⁻¹).re) :
    ∃ s E, p.start co tol o = .ok ⟨1, s⟩ ∧
      ScalarWaveEquation (kOf p.grid) (p.frequency.k0 co.c) (fun x => m.epsilon x 0 0) (((m.mu (first h.nonempty) 0 0)⁻¹).re : ℂ)⁻¹ (S 0) (E 0) ∧
      SolvesFor .scalar (backendK p.grid (p.frequency.k0 co.c)) (p.frequency.k0 co.c) s E := by
  obtain ⟨s, E, h1, h2, h3, h4⟩ := C86_scalar h hvec hs hk0 hxi hzeta habs o tol hgainM htol hmu hβ
  have hu : s.prevNorm = ⊤ := by
    rw [C86_components, if_neg (by rw [hvec]; decide)] at h1
    cases hc : p.construct co 1 tol o with
    | error e =>
      rw [hc] at h1
      exact (nomatch h1)
    | ok s' =>
      rw [hc] at h1
      cases h1
      exact unused h hc
  refine ⟨s, E, h1, h3, solvesFor hk0.ne' h4 hu h2 fun h0 => hS ?_⟩
  rw [h0] at h3
  funext c
  rw [Fin.fin_one_eq_zero c]
  exact zero_of_scalar_equation h3

end Scalar

/-- A concrete case: the problem of `demoArgs` with the default initial field. -/
noncomputable def quietArgs (v : Bool) : Args 1 := { demoArgs v with initial := ⟨[], fun _ => 0⟩ }

theorem quiet_describes (v : Bool) (n : ℕ) (co : Const) : Describes co n (quietArgs v) (demoMedium n) (fun _ _ => 1) 0 :=
  { demo_describes v n co with
    initial := fun a => .inr ((constant_field 0).1 a)
    initialValue := fun c x => ((constant_field 0).2 _).symm }

/-- The hypotheses of `C90_called`, and with it those of `C90_accuracy` and `C90_returns`, are met. -/
example (co : Const) (o : Optimum) : ∃ s E, (quietArgs true).start co 1e-8 o = .ok ⟨3, s⟩ ∧
    WaveEquation (kOf demoGrid) 1 (demoMedium 3).epsilon (demoMedium 3).mu (fun _ _ => 1) E ∧
    SolvesFor (.vectorial (show 1 ≤ 3 by decide)) (backendK demoGrid 1) 1 s E :=
  C90_called (quiet_describes true 3 co) rfl (by decide) demo_step one_pos (fun _ => rfl) (fun _ => rfl) (demo_noGain 3).1 (demo_noGain 3).2 o 1e-8
    (demo_absorbs 3) (fun h => one_ne_zero (congrFun (congrFun h 0) fun _ => (0 : Fin 2))) (by norm_num)
    ⟨by simp [quietArgs, demoArgs], by simp [quietArgs, demoArgs]⟩ (r := 2) (by norm_num) (fun _ => by push_cast; rfl)

/-- The hypotheses of `C90_no_source_violates` are met for all initial fields other than 0, in the problem of C35 without a source. -/
example (F : Solver.Field 3 demoGrid.shape) (hF : F ≠ 0) :
    ∃ r : ℝ, 0 < r ∧ ∀ rtol, 0 ≤ rtol → rtol < r → ∀ i t,
      solve (.vectorial (show 1 ≤ 3 by decide)) (backendK demoGrid 1) .none rtol ⊤ (prepare Solver.demoMedium true (1 + 19 * I) 1 0 F) i ≠ .done () t := by
  obtain ⟨E, hE, hconv⟩ := C35_absorbing (σ := 18) demo_step one_ne_zero (show 1 ≤ 3 by decide) (alpha := 1 + 19 * I) (by simpa using demo_passivity) demo_chosen
    (fun h => absurd h (by decide)) (by norm_num) one_pos (by norm_num) one_pos demo_absorbing 0 F
  refine C90_no_source_violates one_ne_zero hconv (absorbing (alpha := 1) (by simpa using demo_passivity) one_ne_zero one_pos demo_absorbing E hE) ?_ le_top
  rw [getE_prepare]
  intro h
  apply hF
  funext c x
  have := congrFun (congrFun h c) x
  simpa using this

end Verif.Problem
