import Verif.Props.SolverFunctions
import Verif.Props.ProblemRefinement

/-!
# C134: problems given by functions of the position, up to the exact solution; and concrete cases
-/

namespace Verif.Problem

open Verif Verif.Fourier Verif.Backend Verif.Solver Verif.Construct Verif.Refinement Complex Matrix
open Verif.Spec.Continuous (Point AtSample)
open Verif.Spec.Refinement
open Verif.Assign (Arr)

variable {d n : ℕ}

theorem coordinates_sample (hd : d ≤ 3) {g : Grid.Obj d ℝ} {x : Idx g.shape} {ρ : Point} (h : AtSample g x ρ) : coordinatesAt g x = fun a => ((ρ (a.castLE hd) : ℝ) : ℂ) := by
  funext a
  have := h (a.castLE hd) a.isLt
  unfold coordinatesAt
  rw [List.getD_eq_getElem?_getD]
  change (g.coords a)[(x a : ℕ)]? = _ at this
  rw [this]
  rfl

/-- The arguments are functions of the position: the permittivity `epsilon` and the source `S`, with the uniform permeability `r` and no coupling. -/
structure InSpace (co : Const) (hd : d ≤ 3) (p : FnArgs d) (period : Fin d → ℝ) (k0 : ℝ) (epsilon : Point → Matrix (Fin 3) (Fin 3) ℂ) (r : ℝ) (S : Fin 3 → Point → ℂ) : Prop where
  plaid : Plaid p.grid
  nonempty : ∀ a, 0 < p.grid.shape a
  wavenumber : p.frequency.k0 co.c = k0
  period : ∀ b, p.grid.shape b * p.grid.step b = period b
  epsilon : ∃ F : Matrix (Fin 3) (Fin 3) ((Fin d → ℂ) → ℂ), p.epsilon = some (tensorFn F) ∧ ∀ i j ρ, F i j (fun a => ((ρ (a.castLE hd) : ℝ) : ℂ)) = epsilon ρ i j
  source : ∃ F : Fin 3 → (Fin d → ℂ) → ℂ, p.source = some (vectorFn F) ∧ ∀ c ρ, F c (fun a => ((ρ (a.castLE hd) : ℝ) : ℂ)) = S c ρ
  mu : p.mu = .value ⟨[], fun _ => r⟩
  xi : p.xi = .value ⟨[], fun _ => 0⟩
  zeta : p.zeta = .value ⟨[], fun _ => 0⟩
  vectorial : p.vectorial = none
  electric : p.electric = none
  magnetic : p.magnetic = none
  initial : p.initial = ⟨[], fun _ => 0⟩

theorem number_means (n : ℕ) (N : Fin d → ℕ) (z : ℂ) : Means n N ⟨[], fun _ => z⟩ fun _ => z • 1 := .scalar ⟨by simp, by simp⟩ trivial fun _ => rfl

/-- **C134 (samples).** The functions are sampled at the points of the grid. -/
theorem C134_samples {co : Const} {hd : d ≤ 3} {p : FnArgs d} {period : Fin d → ℝ} {k0 : ℝ} {epsilon : Point → Matrix (Fin 3) (Fin 3) ℂ} {r : ℝ} {S : Fin 3 → Point → ℂ}
    (h : InSpace co hd p period k0 epsilon r S) : ∃ q : Args d, p.values = .ok q ∧ ∃ m s, Samples co q m s 0 period k0 epsilon r S := by
  obtain ⟨Fe, e1, e2⟩ := h.epsilon
  obtain ⟨Fs, s1, s2⟩ := h.source
  have hz : ArgMeans 3 p.grid (.value ⟨[], fun _ => 0⟩) (fun _ => 0) := .value (by
    have := number_means 3 p.grid.shape 0
    simpa only [zero_smul] using this)
  obtain ⟨source, eps, xi, zeta, mu, h1, h2, h3, h4⟩ := C134_called co (n := 3) (by decide) h.plaid h.nonempty e1 h.magnetic
    (m := ⟨fun x => Matrix.of fun i j => Fe i j (coordinatesAt p.grid x), fun _ => 0, fun _ => 0, fun _ => (r : ℂ) • 1⟩) (.tensor Fe) (.inl ⟨h.electric, rfl⟩)
    (by rw [h.xi]; exact hz) (by rw [h.zeta]; exact hz) (by rw [h.mu]; exact .value (number_means 3 _ _)) Fs s1 h.initial
  refine ⟨_, h1, _, _, { describes := h4, vectorial := ?_, form := ?_, wavenumber := h.wavenumber, period := h.period, epsilon := ?_, mu := fun _ => rfl, xi := fun _ => rfl, zeta := fun _ => rfl, source := ?_ }⟩
  · show (match (p.vectorial, source).1 with
      | some v => v
      | none => (List.ofFn p.grid.shape).length < source.shape.length && source.shape.headD 0 == 3) = true
    rw [h.vectorial, h2]
    simp
  · show ScalarForm d mu
    rw [h3 _ h.mu]
    exact ⟨by simp, by simp⟩
  · intro x ρ hρ
    ext i j
    show Fe i j (coordinatesAt p.grid x) = _
    rw [(coordinates_sample hd hρ : coordinatesAt p.grid x = _), e2]
  · intro c x ρ hρ
    show Fs c (coordinatesAt p.grid x) = _
    rw [(coordinates_sample hd hρ : coordinatesAt p.grid x = _), s2]

/-- **C134 (exact solution).** When the permittivity and the source are given as functions of the position, with a little absorption, then the constructor succeeds, and the iteration converges to a field that
differs from the exact field in space by at most the terms that the grid cannot resolve. -/
theorem C134_exact {co : Const} {hd : d ≤ 3} {p : FnArgs d} {period : Fin d → ℝ} {k0 : ℝ} {epsilon : Point → Matrix (Fin 3) (Fin 3) ℂ} {r : ℝ} {S E : Fin 3 → Point → ℂ}
    (h : InSpace co hd p period k0 epsilon r S) (hper : ∀ b, period b ≠ 0) (hk0 : 0 < k0) {δ : ℝ} (hδ : 0 < δ) (habs : AbsorbsInSpace epsilon δ) (hr : 0 < r)
    (hE : WaveEquationInSpace k0 epsilon r S E) {a : Fin 3 → (Fin d → ℤ) → ℂ} (ha : ∀ c, HasSeries period (E c) (a c)) (o : Optimum) {tol : ℝ} (htol : 0 ≤ tol) :
    ∃ q : Args d, p.values = .ok q ∧ ∀ F : Solver.Field 3 q.grid.shape, (∀ c, SampledFrom q.grid (E c) (F c)) →
      ∃ t E', q.start co tol o = .ok ⟨3, t⟩ ∧ ConvergesTo (.vectorial hd) (backendK q.grid k0) k0 t E' ∧
        rms (E' - F) ≤ 2 * Real.sqrt 3 / (r * k0 ^ 2 * δ) * ∑ c, remainder q.grid.shape period (a c) := by
  obtain ⟨q, h1, m, s, h2⟩ := C134_samples h
  exact ⟨q, h1, fun F hF => C128_called hd hper hk0 hδ habs hr hE ha h2 o htol hF⟩

/-! ### Cases -/

/-- Two points, as a tuple of arrays of coordinates. -/
noncomputable def tupleGrid : Grid.Obj 1 ℝ := { demoGrid with multidimensional := true }

/-- The permittivity `(1 + i)`, and the source 1, as functions. -/
noncomputable def functionArgs : FnArgs 1 where
  grid := tupleGrid
  frequency := ⟨1, none, none⟩
  vectorial := none
  current := none
  source := some (vectorFn (d := 1) (n := 3) fun _ _ => 1)
  epsilon := some (tensorFn (d := 1) (n := 3) fun i j _ => if i = j then 1 + I else 0)
  index := none
  xi := .value ⟨[], fun _ => 0⟩
  zeta := .value ⟨[], fun _ => 0⟩
  mu := .value ⟨[], fun _ => ((2 : ℝ) : ℂ)⟩
  electric := none
  magnetic := none
  thickness := []
  initial := ⟨[], fun _ => 0⟩

theorem functionArgs_inSpace (co : Const) : InSpace co (show 1 ≤ 3 by decide) functionArgs (fun _ => 2) 1 (fun _ => (1 + I) • 1) 2 fun _ _ => 1 where
  plaid := ⟨rfl, .inl rfl, fun _ => rfl⟩
  nonempty := fun _ => two_pos
  wavenumber := rfl
  period := fun _ => mul_one _
  epsilon := ⟨_, rfl, fun i j _ => by simp [Matrix.one_apply]⟩
  source := ⟨_, rfl, fun _ _ => rfl⟩
  mu := rfl
  xi := rfl
  zeta := rfl
  vectorial := rfl
  electric := rfl
  magnetic := rfl
  initial := rfl

/-- The hypotheses of `C134_samples` are met. -/
example (co : Const) := C134_samples (functionArgs_inSpace co)

/-- The hypotheses of `C134_exact` are met: the exact solution is `-1 / (1 + i)`. -/
example (co : Const) (o : Optimum) := C134_exact (functionArgs_inSpace co) (E := fun _ _ => -(1 + I)⁻¹) (a := fun _ => Pi.single 0 (-(1 + I)⁻¹)) (fun _ => two_ne_zero) one_pos one_pos
    (fun r v => by
      rw [Matrix.smul_mulVec, Matrix.one_mulVec, dotProduct_smul, star_dot_self, smul_eq_mul, im_mul_ofReal]
      simp) two_pos
    (fun c r => by
      have h1 : (1 + I : ℂ) ≠ 0 := fun h => by simpa using congrArg Complex.im h
      have h0 : ∀ c r z, Spec.Continuous.partialDeriv c (fun _ => z) r = 0 := fun c r z => deriv_const _ _
      rw [curl_curl fun _ c c' r t => by simp only [h0]; exact differentiableAt_const _]
      have h3 : ∀ c, Spec.Continuous.partialDeriv c (fun _ => -(1 + I)⁻¹) = fun _ => 0 := fun c => funext fun r => h0 c r _
      simp only [h3, h0, sub_self, Finset.sum_const_zero, mul_zero, zero_sub]
      rw [Matrix.smul_mulVec, Matrix.one_mulVec, Pi.smul_apply, smul_eq_mul]
      push_cast
      field_simp)
    (fun c => by
      have h2 : ∀ r, Spec.Continuous.wave (harmonic (d := 1) (fun _ => 2) 0) r = 1 := fun r => by
        have : harmonic (d := 1) (fun _ => 2) 0 = 0 := by
          funext c
          unfold harmonic
          split_ifs <;> simp
        rw [this]
        simp [Spec.Continuous.wave]
      have := hasSeries_single (d := 1) (fun _ => 2) 0 (-(1 + I)⁻¹)
      simpa only [h2, mul_one] using this) o (tol := 1e-8) (by norm_num)

/-- `C134_values`, `C134_source` and `C134_materials` for functions that vary: `x²` and `exp x`. -/
example := C134_values (g := tupleGrid) ⟨rfl, .inl rfl, fun _ => rfl⟩ [] fun _ r => r 0 ^ 2
example := C134_source (g := tupleGrid) (n := 3) ⟨rfl, .inl rfl, fun _ => rfl⟩ (by decide) fun c r => if c = 1 then Complex.exp (r 0) else 0
example := C134_materials (g := tupleGrid) (n := 3) ⟨rfl, .inl rfl, fun _ => rfl⟩ (.scalar fun r => 1 + r 0 ^ 2)

/-- The hypotheses of `C134_called` are met. -/
example (co : Const) := C134_called co (n := 3) (p := functionArgs) (by decide) ⟨rfl, .inl rfl, fun _ => rfl⟩ (fun _ => two_pos) rfl rfl
  (m := ⟨_, fun _ => (0 : ℂ) • 1, fun _ => (0 : ℂ) • 1, fun _ => ((2 : ℝ) : ℂ) • 1⟩) (.tensor _) (.inl ⟨rfl, rfl⟩) (.value (number_means _ _ _)) (.value (number_means _ _ _)) (.value (number_means _ _ _)) _ rfl rfl

/-- The hypothesis of `C134_constant` is met: the function that returns 2. -/
example := C134_constant functionArgs (A := .function ⟨1, fun _ => .ok (.number 2)⟩) (v := 2) (by
  change (do Fn.apply _ (← unpacked tupleGrid)) = _
  rw [unpacked_plaid ⟨rfl, .inl rfl, fun _ => rfl⟩]
  rfl)

/-- The hypothesis of `C134_equivalent` is met, and those of `C134_arrays` and `C134_current`. -/
example := C134_equivalent functionArgs (A := functionArgs.mu) rfl
example := C134_arrays (p := { functionArgs with source := none, epsilon := none }) rfl rfl rfl none none none none rfl rfl rfl rfl
example (co : Const) : ∃ q, FnArgs.values { functionArgs with source := none, current := some (vectorFn (d := 1) (n := 3) fun _ r => r 0) } = .ok q ∧
    ∃ s, ∀ tol o, Args.start co { q with source := s } tol o = q.start co tol o := by
  obtain ⟨e, h1, -⟩ := C134_materials (g := tupleGrid) (n := 3) ⟨rfl, .inl rfl, fun _ => rfl⟩ (.tensor fun i j _ => if i = j then 1 + I else 0)
  obtain ⟨j, h2, -⟩ := C134_source (g := tupleGrid) (n := 3) ⟨rfl, .inl rfl, fun _ => rfl⟩ (by decide) fun _ r => r 0
  have h : FnArgs.values { functionArgs with source := none, current := some (vectorFn (d := 1) (n := 3) fun _ r => r 0) } =
      .ok ⟨tupleGrid, ⟨1, none, none⟩, ⟨none, some j, none⟩, some e, none, ⟨[], fun _ => 0⟩, ⟨[], fun _ => 0⟩, ⟨[], fun _ => ((2 : ℝ) : ℂ)⟩, none, none, [], ⟨[], fun _ => 0⟩⟩ := by
    show (do let source ← (do pure ⟨none, some (← func2arr tupleGrid (vectorFn (d := 1) (n := 3) fun _ r => r 0)).asarray, none⟩ : Except PyErr Construct.Args)
             let mu ← (← func2arr tupleGrid functionArgs.mu).astype
             let (epsilon, index) ← (do pure (some (← (← func2arr tupleGrid (tensorFn (d := 1) (n := 3) fun i j _ => if i = j then 1 + I else 0)).astype), none) :
               Except PyErr (Option (Arr ℂ) × Option (Arr ℂ)))
             let xi ← func2arr tupleGrid functionArgs.xi
             let zeta ← func2arr tupleGrid functionArgs.zeta
             pure (⟨tupleGrid, ⟨1, none, none⟩, source, epsilon, index, xi.asarray, zeta.asarray, mu, none, none, [], ⟨[], fun _ => 0⟩⟩ : Args 1)) = _
    rw [h1, h2]
    rfl
  obtain ⟨s, -, hs⟩ := C134_current co (p := { functionArgs with source := none, current := some (vectorFn (d := 1) (n := 3) fun _ r => r 0) }) ⟨rfl, .inl rfl, fun _ => rfl⟩ _ rfl rfl h
  exact ⟨_, h, s, hs⟩

/-- The hypotheses of `C134_number_violates` are met. -/
example := C134_number_violates (g := demoGrid) rfl (by change 2 ≠ 1; decide) ⟨1, fun xs => .ok (.array (xs.getD 0 ⟨[], fun _ => 0⟩))⟩ rfl

/-- The hypotheses of `C134_constant_violates` are met. -/
example := C134_constant_violates (p := { functionArgs with source := none, mu := .function ⟨1, fun _ => .ok (.number 1)⟩ }) ⟨rfl, .inl rfl, fun _ => rfl⟩ rfl rfl 1 rfl

/-- The hypotheses of `C134_flat_violates` are met. -/
example := C134_flat_violates (g := ⟨fun _ => 4, fun _ => 1, fun _ => 0, .float, fun _ => true, fun _ => true, fun _ => true, true, false⟩) rfl rfl (fun _ => rfl) (fun _ => rfl) fun r => r 0 * r 1

end Verif.Problem
