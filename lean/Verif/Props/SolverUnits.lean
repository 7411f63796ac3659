import Verif.Props.SolverScaled

/-!
# C77: how all derived fields depend on the unit of length
-/

namespace Verif.Solver

open Verif Verif.Fourier Verif.Backend Complex

variable {d n : ℕ} {N : Fin d → ℕ}

/-- All that can be obtained from the `Solution` in the state `s'`, for lengths that are multiplied by `u`, in terms of the `Solution` in the state `s`: fields, energies, and stresses are the same; quantities per unit of length are
divided by `u`. -/
structure AllResized (co : Const) (k0 : ℝ) (k k' : Fin d → Idx N → ℝ) (i0 : Fin n) (x0 : Idx N) (u : ℝ) (s s' : State n N) : Prop where
  E : getE (k0 / u) s' = getE k0 s
  J : ∀ c x, getJ co (k0 / u) s' c x = getJ co k0 s c x / u
  B : getB co (k0 / u) k' s' = getB co k0 k s
  H : getH co (k0 / u) k' i0 x0 s' = getH co k0 k i0 x0 s
  D : getD co (k0 / u) k' i0 x0 s' = getD co k0 k i0 x0 s
  S : getS co (k0 / u) k' i0 x0 s' = getS co k0 k i0 x0 s
  energy : getEnergy co (k0 / u) k' i0 x0 s' = getEnergy co k0 k i0 x0 s
  stress : getStress co (k0 / u) k' i0 x0 s' = getStress co k0 k i0 x0 s
  force : getForce co (k0 / u) k' i0 x0 s' = (getForce co k0 k i0 x0 s).map fun f c x => f c x / u
  residue : (relativeResidue s').1 = (relativeResidue s).1

/-- **C77 (all fields).** With lengths that are multiplied by `u`, and the source by `u⁻²`, all fields are the same, and forces per unit of volume and currents are divided by `u`. -/
theorem C77_derived {u : ℝ} (hu : u ≠ 0) (co : Const) {k0 : ℝ} (hk0 : k0 ≠ 0) (k : Fin d → Idx N → ℝ) (i0 : Fin n) (x0 : Idx N) (s : State n N) :
    AllResized co k0 k k i0 x0 u s (scaleState ((u⁻¹ ^ 2 : ℝ) : ℂ) s) := by
  have hu' : (u : ℂ) ≠ 0 := ofReal_ne hu
  have hk' : (k0 : ℂ) ≠ 0 := ofReal_ne hk0
  have hz : ((u⁻¹ ^ 2 : ℝ) : ℂ) ≠ 0 := ofReal_ne (pow_ne_zero 2 (inv_ne_zero hu))
  have hω : co.omega (k0 / u) = co.omega k0 / u := by
    unfold Const.omega angularFrequency
    ring
  have hE : getE (k0 / u) (scaleState ((u⁻¹ ^ 2 : ℝ) : ℂ) s) = getE k0 s := by
    funext c x
    unfold getE scaleState
    simp only [Pi.smul_apply, smul_eq_mul]
    push_cast
    field_simp
  have hB : getB co (k0 / u) k (scaleState ((u⁻¹ ^ 2 : ℝ) : ℂ) s) = getB co k0 k s := by
    unfold getB
    rw [hE]
  have hH : getH co (k0 / u) k i0 x0 (scaleState ((u⁻¹ ^ 2 : ℝ) : ℂ) s) = getH co k0 k i0 x0 s := by
    unfold getH
    rw [hE]
    rfl
  have hD : getD co (k0 / u) k i0 x0 (scaleState ((u⁻¹ ^ 2 : ℝ) : ℂ) s) = getD co k0 k i0 x0 s := by
    funext c x
    unfold getD
    rw [hH, hω]
    simp only [scaleState, Pi.smul_apply, smul_eq_mul]
    push_cast
    by_cases h0 : (co.omega k0 : ℂ) = 0
    · simp [h0]
    by_cases h1 : (co.mu0 : ℂ) = 0
    · simp [h1]
      field_simp
    field_simp
  have hS : getS co (k0 / u) k i0 x0 (scaleState ((u⁻¹ ^ 2 : ℝ) : ℂ) s) = getS co k0 k i0 x0 s := by
    unfold getS
    rw [hE, hH]
  have hT : getStress co (k0 / u) k i0 x0 (scaleState ((u⁻¹ ^ 2 : ℝ) : ℂ) s) = getStress co k0 k i0 x0 s := by
    unfold getStress
    rw [hE, hH]
  refine ⟨hE, fun c x => ?_, hB, hH, hD, hS, ?_, hT, ?_, (C78_derived hz co k0 k i0 x0 s).residue⟩
  · unfold getJ
    rw [hω, (C78_derived hz co k0 k i0 x0 s).source]
    push_cast
    by_cases h0 : (co.omega k0 : ℂ) = 0
    · simp [h0]
    by_cases h1 : (co.mu0 : ℂ) = 0
    · simp [h1]
    field_simp
  · funext x
    unfold getEnergy
    rw [hE, hD, hB, hH]
  · unfold getForce
    rw [hT]
    cases divTensor k fun a b x => (getStress co k0 k i0 x0 s a b x : ℂ) with
    | error e => rfl
    | ok f =>
      show Except.ok _ = Except.ok _
      congr 1
      funext c x
      dsimp only
      ring

/-- **C77 (torque).** -/
theorem C77_torque {co : Const} {k0 : ℝ} {k k' : Fin d → Idx N → ℝ} {x0 : Idx N} {u : ℝ} {s s' : State 3 N} (h : AllResized co k0 k k' 0 x0 u s s') : getTorque co (k0 / u) k' x0 s' = getTorque co k0 k x0 s := by
  unfold getTorque
  rw [h.stress]

/-- **C77 (divergence).** The divergence of the Poynting vector is that per radian of the wave, and not per unit of length: it is not divided by `u`. -/
theorem C77_divS {co : Const} {k0 : ℝ} {k k' : Fin d → Idx N → ℝ} (hk : k' = k) {i0 : Fin n} {x0 : Idx N} {u : ℝ} {s s' : State n N} (h : AllResized co k0 k k' i0 x0 u s s') :
    getDivS co (k0 / u) k' i0 x0 s' = getDivS co k0 k i0 x0 s := by
  unfold getDivS
  rw [h.S, hk]

/-- **C77 (currents).** The source of the current density that is divided by `u` is that divided by `u²`. -/
theorem C77_current (co : Const) (k0 u : ℝ) (J : Field n N) : sourceOfCurrent co (k0 / u) (fun c x => J c x / u) = ((u⁻¹ ^ 2 : ℝ) : ℂ) • sourceOfCurrent co k0 J := by
  funext c x
  unfold sourceOfCurrent Const.omega angularFrequency
  simp only [Pi.smul_apply, smul_eq_mul]
  push_cast
  ring

/-- **C77 (executions, all fields).** For all lengths multiplied by `u`, those of the grid and the wavelength, and all currents divided by `u`: after any number of iterations all fields are the same, and when the one raises an
exception so does the other. -/
theorem C77_solution (g : Grid.Obj d ℝ) (hs : ∀ a, g.step a ≠ 0) {k0 u : ℝ} (hk0 : k0 ≠ 0) (hu : u ≠ 0) (co : Const) (kind : Kind d n) (i0 : Fin n) (x0 : Idx g.shape) (m : Medium n g.shape) (mag : Bool) {alpha : ℂ} (hα : alpha.im ≠ 0)
    (beta : ℝ) (J E : Field n g.shape) (i : ℕ) :
    let before := run kind (backendK g k0) (prepare m mag alpha beta (sourceOfCurrent co k0 J) fun c x => E c x * (k0 ^ 2 : ℝ)) i
    let after := run kind (backendK (scaledGrid g u) (k0 / u)) (prepare m mag alpha beta (sourceOfCurrent co (k0 / u) fun c x => J c x / u) fun c x => E c x * ((k0 / u) ^ 2 : ℝ)) i
    (∀ t, before = .ok t → ∃ t', after = .ok t' ∧ AllResized co k0 (backendK g k0) (backendK (scaledGrid g u) (k0 / u)) i0 x0 u t t' ∧ t'.alpha = t.alpha ∧ t'.iteration = t.iteration) ∧ ∀ e, before = .error e → after = .error e := by
  have hz : ((u⁻¹ ^ 2 : ℝ) : ℂ) ≠ 0 := ofReal_ne (pow_ne_zero 2 (inv_ne_zero hu))
  have h := C78_run hz kind (backendK g k0) m mag hα beta (sourceOfCurrent co k0 J) (fun c x => E c x * (k0 ^ 2 : ℝ)) i
  have hF : (fun c x => E c x * (((k0 / u) ^ 2 : ℝ) : ℂ)) = ((u⁻¹ ^ 2 : ℝ) : ℂ) • fun c x => E c x * ((k0 ^ 2 : ℝ) : ℂ) := by
    funext c x
    simp only [Pi.smul_apply, smul_eq_mul]
    push_cast
    ring
  intro before after
  have ha : after = before.map (scaleState ((u⁻¹ ^ 2 : ℝ) : ℂ)) := by
    show run kind (backendK (scaledGrid g u) (k0 / u)) _ i = _
    rw [C77_backend g hs hk0 hu]
    exact (congrArg₂ (fun A B => run kind (backendK g k0) (prepare m mag alpha beta A B) i) (C77_current co k0 u J) hF).trans h
  refine ⟨fun t ht => ⟨scaleState ((u⁻¹ ^ 2 : ℝ) : ℂ) t, by rw [ha, ht]; rfl, by rw [C77_backend g hs hk0 hu]; exact C77_derived hu co hk0 _ i0 x0 t, rfl, rfl⟩, fun e he => by rw [ha, he]; rfl⟩

/-- `C77_solution`, and with it `C77_derived`, `C77_torque`, `C77_divS`, and `C77_current`, for a concrete magnetic material after the first iteration, which is accepted: in nanometers instead of meters. -/
example (co : Const) (x0 : Idx demoGrid.shape) (J E : Field 3 demoGrid.shape) : ∃ t t', run (.vectorial (by norm_num)) (backendK demoGrid 1) (prepare demoMedium true (1 + 19 * I) 1 (sourceOfCurrent co 1 J) fun c x => E c x * (1 ^ 2 : ℝ)) 1 = .ok t ∧
    run (.vectorial (by norm_num)) (backendK (scaledGrid demoGrid 1e9) (1 / 1e9)) (prepare demoMedium true (1 + 19 * I) 1 (sourceOfCurrent co (1 / 1e9) fun c x => J c x / (1e9 : ℝ)) fun c x => E c x * ((1 / 1e9) ^ 2 : ℝ)) 1 = .ok t' ∧
    getTorque co (1 / 1e9) (backendK (scaledGrid demoGrid 1e9) (1 / 1e9)) x0 t' = getTorque co 1 (backendK demoGrid 1) x0 t := by
  obtain ⟨t, ht⟩ := (C37_progress (.vectorial (by norm_num)) (backendK demoGrid 1) (le_top : _ ≤ (⊤ : WithTop ℝ)) (i := 0)
    (t := prepare demoMedium true (1 + 19 * I) 1 (sourceOfCurrent co 1 J) fun c x => E c x * (1 ^ 2 : ℝ)) rfl).2 (by exact WithTop.top_ne_coe)
  obtain ⟨t', h1, h2, -⟩ := (C77_solution demoGrid demo_step one_ne_zero (u := 1e9) (by norm_num) co (.vectorial (by norm_num)) 0 x0 demoMedium true (alpha := 1 + 19 * I) (by norm_num) 1 J E 1).1 t ht
  exact ⟨t, t', ht, h1, C77_torque h2⟩

end Verif.Solver
