import Verif.Props.Continuous
import Verif.Props.ProblemUniform

/-!
# C123: what the solver converges to, in continuous space
-/

namespace Verif.Problem

open Verif Verif.Fourier Verif.Backend Verif.Solver Verif.Construct Verif.Continuous Complex
open Verif.Spec.Solver (NoGain WaveEquation ScalarWaveEquation)
open Verif.Spec.Continuous (Point BandLimited AtSample Interpolates laplacian)

variable {d n : ℕ}

/-- The field at all points of space converges, uniformly in space; or the iteration stops in an exception after it has reached the limit exactly. -/
def ConvergesInSpace (g : Grid.Obj d ℝ) (kind : Kind d n) (k0 : ℝ) (s : State n g.shape) (F : Fin n → Point → ℂ) : Prop :=
  ∀ δ : ℝ, 0 < δ → ∃ j0, ∀ i ≥ j0,
    (∃ t, run kind (backendK g k0) s i = .ok t ∧ ∀ E : Fin n → Point → ℂ, (∀ c, Interpolates g (E c) (getE k0 t c)) → ∀ c r, ‖E c r - F c r‖ < δ) ∨
    (run kind (backendK g k0) s i = .error .zeroDivision ∧ ∃ j < i, ∃ t, run kind (backendK g k0) s j = .ok t ∧ ∀ c, Interpolates g (F c) (getE k0 t c))

/-- `∇ × μ⁻¹ ∇ × F - k₀² ε F = S` at the positions of the samples, for a field that varies slowly enough. -/
def SolvesAtSamples (g : Grid.Obj d ℝ) (k0 : ℝ) (epsilon : Tensor 3 g.shape) (mu : ℂ) (S : Solver.Field 3 g.shape) (F : Fin 3 → Point → ℂ) : Prop :=
  (∀ c, F c ∈ BandLimited g.shape g.step) ∧
    ∀ c x r, AtSample g x r → mu⁻¹ * Spec.Continuous.curl (Spec.Continuous.curl F) c r - (k0 : ℂ) ^ 2 * (epsilon x).mulVec (fun c => F c r) c = S c x

/-- The same at all points of space, for the source `P`. -/
def SolvesEverywhere (g : Grid.Obj d ℝ) (k0 : ℝ) (epsilon mu : ℂ) (P F : Fin 3 → Point → ℂ) : Prop :=
  (∀ c, F c ∈ BandLimited g.shape g.step) ∧ ∀ c r, mu⁻¹ * Spec.Continuous.curl (Spec.Continuous.curl F) c r - (k0 : ℂ) ^ 2 * (epsilon * F c r) = P c r

/-- `- μ⁻¹ ∇² F - k₀² ε F = S` at the positions of the samples. -/
def ScalarSolvesAtSamples (g : Grid.Obj d ℝ) (k0 : ℝ) (epsilon : Idx g.shape → ℂ) (mu : ℂ) (S : Idx g.shape → ℂ) (F : Point → ℂ) : Prop :=
  F ∈ BandLimited g.shape g.step ∧ ∀ x r, AtSample g x r → -(mu⁻¹ * laplacian F r) - (k0 : ℂ) ^ 2 * (epsilon x * F r) = S x

/-- The same at all points of space. -/
def ScalarSolvesEverywhere (g : Grid.Obj d ℝ) (k0 : ℝ) (epsilon mu : ℂ) (P F : Point → ℂ) : Prop :=
  F ∈ BandLimited g.shape g.step ∧ ∀ r, -(mu⁻¹ * laplacian F r) - (k0 : ℂ) ^ 2 * (epsilon * F r) = P r

section
variable {g : Grid.Obj d ℝ} (hd : d ≤ 3) (hs : ∀ a, g.step a ≠ 0)
include hd hs

theorem bandLimited_interpolates {f : Point → ℂ} (h : f ∈ BandLimited g.shape g.step) : ∃ s, Interpolates g f s := by
  obtain ⟨a, rfl⟩ := (bandLimited_iff hs hd f).1 h
  exact ⟨_, h, fun x r hr => series_sample hd hs a hr⟩

/-- **C123 (convergence).** Where the samples converge, the field in space does. -/
theorem C123_converges {kind : Kind d n} {k0 : ℝ} {s : State n g.shape} {E : Solver.Field n g.shape} {F : Fin n → Point → ℂ} (hF : ∀ c, Interpolates g (F c) (E c))
    (h : ConvergesTo kind (backendK g k0) k0 s E) : ConvergesInSpace g kind k0 s F := by
  intro δ hδ
  set M : ℝ := ((Fintype.card (Idx g.shape) : ℕ) : ℝ) with hM
  have hM0 : 0 ≤ M := Nat.cast_nonneg _
  obtain ⟨j0, hj⟩ := h (δ / (M + 1)) (by positivity)
  refine ⟨j0, fun i hi => ?_⟩
  rcases hj i hi with ⟨t, h1, h2⟩ | ⟨h1, j, hji, t, h2, h3⟩
  · refine .inl ⟨t, h1, fun E' hE' c r => ?_⟩
    have hb := C123_bound hd hs ((hE' c).sub (hF c)) r
    refine hb.trans_lt ?_
    have hx : ∀ x, ‖getE k0 t c x - E c x‖ ≤ δ / (M + 1) := by
      intro x
      refine le_trans ?_ h2.le
      refine Real.le_sqrt_of_sq_le ?_
      have h4 : ‖(getE k0 t - E) c x‖ ^ 2 ≤ ∑ x, ‖(getE k0 t - E) c x‖ ^ 2 := Finset.single_le_sum (f := fun x => ‖(getE k0 t - E) c x‖ ^ 2) (fun _ _ => sq_nonneg _) (Finset.mem_univ x)
      exact h4.trans (Finset.single_le_sum (f := fun c => ∑ x, ‖(getE k0 t - E) c x‖ ^ 2) (fun _ _ => Finset.sum_nonneg fun _ _ => sq_nonneg _) (Finset.mem_univ c))
    refine (Finset.sum_le_sum fun x _ => hx x).trans_lt ?_
    rw [Finset.sum_const, Finset.card_univ, nsmul_eq_mul, ← hM, mul_div_assoc', div_lt_iff₀ (by positivity)]
    nlinarith
  · exact .inr ⟨h1, j, hji, t, h2, fun c => by rw [h3]; exact hF c⟩

/-- The samples of such a field satisfy the wave equation with spectral derivatives. -/
theorem solves_samples {k0 : ℝ} {epsilon : Tensor 3 g.shape} {mu : ℂ} (hmu : mu ≠ 0) {S : Solver.Field 3 g.shape} {F : Fin 3 → Point → ℂ} (h : SolvesAtSamples g k0 epsilon mu S F) :
    ∃ E : Solver.Field 3 g.shape, (∀ c, Interpolates g (F c) (E c)) ∧ WaveEquation (kOf g) k0 epsilon (fun _ => mu • 1) S E := by
  choose E hE using fun c => bandLimited_interpolates hd hs (h.1 c)
  exact ⟨E, hE, (C123_wave_uniform hd hs k0 epsilon hmu hE).2 h.2⟩

/-- **C123 (unique).** Where the material absorbs a little everywhere, at most one field that varies slowly enough satisfies the equation at the samples. -/
theorem C123_unique {k0 : ℝ} (hk0 : k0 ≠ 0) {epsilon : Tensor 3 g.shape} (habs : Absorbs epsilon) {mu : ℝ} (hmu : mu ≠ 0) {S : Solver.Field 3 g.shape} {F F' : Fin 3 → Point → ℂ}
    (h : SolvesAtSamples g k0 epsilon mu S F) (h' : SolvesAtSamples g k0 epsilon mu S F') : F' = F := by
  obtain ⟨E, hE, hW⟩ := solves_samples hd hs (ofReal_ne hmu) h
  obtain ⟨E', hE', hW'⟩ := solves_samples hd hs (ofReal_ne hmu) h'
  obtain ⟨δ, hδ, habs⟩ := habs
  have hdiff : WaveEquation (kOf g) k0 epsilon (fun _ => (mu : ℂ) • 1) 0 (E' - E) := by
    intro c x
    have h1 := hW c x
    have h2 := hW' c x
    rw [spec_curl, spec_curl, spec_act, spec_act] at h1 h2 ⊢
    rw [(curl_isLinear _).map_sub, (mulField_isLinear _).map_sub, (curl_isLinear _).map_sub, (mulField_isLinear _).map_sub]
    simp only [Pi.sub_apply, Pi.zero_apply] at h1 h2 ⊢
    linear_combination h2 - h1
  have h0 := absorbing_unique (m := ⟨epsilon, fun _ => 0, fun _ => 0, fun _ => (mu : ℂ) • 1⟩) (fun x => by
    change IsUnit ((mu : ℂ) • (1 : Matrix (Fin 3) (Fin 3) ℂ)).det
    rw [Matrix.det_smul, Matrix.det_one, mul_one]
    exact (pow_ne_zero _ (ofReal_ne hmu)).isUnit) (fun x v => by
    change 0 ≤ (star v ⬝ᵥ ((mu : ℂ) • (1 : Matrix (Fin 3) (Fin 3) ℂ)).mulVec v).im
    rw [Matrix.smul_mulVec, Matrix.one_mulVec, dotProduct_smul, star_dot_self, smul_eq_mul, im_mul_ofReal]
    simp) hk0 hδ habs (E' - E) hdiff
  funext c
  refine Interpolates.unique hd hs (hE' c) ?_
  rw [sub_eq_zero.1 h0]
  exact hE c

/-- **C123 (unique, scalar).** -/
theorem C123_scalar_unique {k0 : ℝ} (hk0 : k0 ≠ 0) {epsilon : Idx g.shape → ℂ} (habs : ∀ x, 0 < (epsilon x).im) (mu : ℝ) {S : Idx g.shape → ℂ} {F F' : Point → ℂ}
    (h : ScalarSolvesAtSamples g k0 epsilon mu S F) (h' : ScalarSolvesAtSamples g k0 epsilon mu S F') : F' = F := by
  obtain ⟨E, hE⟩ := bandLimited_interpolates hd hs h.1
  obtain ⟨E', hE'⟩ := bandLimited_interpolates hd hs h'.1
  have hW := (C123_scalar_wave hd hs k0 epsilon mu hE).2 h.2
  have hW' := (C123_scalar_wave hd hs k0 epsilon mu hE').2 h'.2
  have h0 := scalar_absorbing g hk0 epsilon mu⁻¹ habs (E' - E) (by
    intro x
    have h1 := hW x
    have h2 := hW' x
    have h3 : Spec.Solver.negLaplacian (kOf g) (E' - E) x = Spec.Solver.negLaplacian (kOf g) E' x - Spec.Solver.negLaplacian (kOf g) E x := by
      unfold Spec.Solver.negLaplacian
      rw [ft_isLinear.map_sub, show (fun x => (∑ a, (kOf g a x : ℂ) ^ 2) * (ft E' - ft E) x) = (fun x => (∑ a, (kOf g a x : ℂ) ^ 2) * ft E' x) - fun x => (∑ a, (kOf g a x : ℂ) ^ 2) * ft E x from
        funext fun x => mul_sub _ _ _, ift_isLinear.map_sub]
      rfl
    rw [h3]
    simp only [Pi.sub_apply, Pi.zero_apply]
    push_cast
    rw [inv_inv]
    linear_combination h2 - h1)
  refine Interpolates.unique hd hs hE' ?_
  rw [sub_eq_zero.1 h0]
  exact hE

end

/-- **C123 (as called).** For all arguments that describe a material with a uniform and positive permeability and a little absorption everywhere, without coupling: the constructor succeeds, there is exactly one field
that varies slowly enough and satisfies the wave equation with true derivatives at the samples, and the iteration converges to it at all points of space. -/
theorem C123_called {co : Const} {p : Args d} {m : Medium 3 p.grid.shape} {S E0 : Solver.Field 3 p.grid.shape} (h : Describes co 3 p m S E0)
    (hvec : p.source.isVectorial (List.ofFn p.grid.shape) (p.currentFactor co) = true) (hd : d ≤ 3) (hs : ∀ a, p.grid.step a ≠ 0) (hk0 : 0 < p.frequency.k0 co.c)
    (hxi : ∀ x, m.xi x = 0) (hzeta : ∀ x, m.zeta x = 0) (hgain : NoGain m.epsilon) (o : Optimum) {tol : ℝ} (htol : 0 ≤ tol) (form : ScalarForm d p.mu) {r : ℝ} (hr : 0 < r)
    (hmu : ∀ x, m.mu x = (r : ℂ) • 1) (habs : Absorbs m.epsilon) :
    ∃ s F, p.start co tol o = .ok ⟨3, s⟩ ∧ SolvesAtSamples p.grid (p.frequency.k0 co.c) m.epsilon r S F ∧
      (∀ F', SolvesAtSamples p.grid (p.frequency.k0 co.c) m.epsilon r S F' → F' = F) ∧ ConvergesInSpace p.grid (.vectorial hd) (p.frequency.k0 co.c) s F := by
  have hgainM : NoGain m.mu := fun x v => by
    rw [hmu, Matrix.smul_mulVec, Matrix.one_mulVec, dotProduct_smul, star_dot_self, smul_eq_mul, im_mul_ofReal, ofReal_im, zero_mul]
  obtain ⟨s, E, h1, -, h3, h4⟩ := C86_uniform h hvec hd hs hk0 hxi hzeta hgain hgainM o tol htol form hr hmu habs
  rw [show m.mu = fun _ => (r : ℂ) • 1 from funext hmu] at h3
  choose F hF _ using fun c => C123_interpolation hd hs (E c)
  have hS : SolvesAtSamples p.grid (p.frequency.k0 co.c) m.epsilon r S F := ⟨fun c => (hF c).1, (C123_wave_uniform hd hs _ _ (ofReal_ne hr.ne') hF).1 h3⟩
  exact ⟨s, F, h1, hS, fun F' h' => C123_unique hd hs hk0.ne' habs hr.ne' hS h', C123_converges hd hs hF h4.tendsto⟩

/-- **C123 (as called, uniform material).** If also the permittivity is uniform, then the field that is converged to satisfies the equation at all points of space. -/
theorem C123_called_everywhere {co : Const} {p : Args d} {m : Medium 3 p.grid.shape} {S E0 : Solver.Field 3 p.grid.shape} (h : Describes co 3 p m S E0)
    (hvec : p.source.isVectorial (List.ofFn p.grid.shape) (p.currentFactor co) = true) (hd : d ≤ 3) (hs : ∀ a, p.grid.step a ≠ 0) (hk0 : 0 < p.frequency.k0 co.c)
    (hxi : ∀ x, m.xi x = 0) (hzeta : ∀ x, m.zeta x = 0) (o : Optimum) {tol : ℝ} (htol : 0 ≤ tol) (form : ScalarForm d p.mu) {r : ℝ} (hr : 0 < r)
    (hmu : ∀ x, m.mu x = (r : ℂ) • 1) {epsilon : ℂ} (he : 0 < epsilon.im) (hepsilon : ∀ x, m.epsilon x = epsilon • 1) {P : Fin 3 → Point → ℂ} (hP : ∀ c, Interpolates p.grid (P c) (S c)) :
    ∃ s F, p.start co tol o = .ok ⟨3, s⟩ ∧ SolvesEverywhere p.grid (p.frequency.k0 co.c) epsilon r P F ∧
      (∀ F', SolvesEverywhere p.grid (p.frequency.k0 co.c) epsilon r P F' → F' = F) ∧ ConvergesInSpace p.grid (.vectorial hd) (p.frequency.k0 co.c) s F := by
  have hval : ∀ v : Fin 3 → ℂ, (star v ⬝ᵥ (epsilon • (1 : Matrix (Fin 3) (Fin 3) ℂ)).mulVec v).im = epsilon.im * ∑ i, ‖v i‖ ^ 2 := by
    intro v
    rw [Matrix.smul_mulVec, Matrix.one_mulVec, dotProduct_smul, star_dot_self, smul_eq_mul, im_mul_ofReal]
  have habs : Absorbs m.epsilon := ⟨epsilon.im, he, fun x v => by rw [hepsilon, hval]⟩
  have hgain : NoGain m.epsilon := fun x v => by
    rw [hepsilon, hval]
    exact mul_nonneg he.le (Finset.sum_nonneg fun i _ => sq_nonneg _)
  obtain ⟨s, F, h1, h2, h3, h4⟩ := C123_called h hvec hd hs hk0 hxi hzeta hgain o htol form hr hmu habs
  rw [show m.epsilon = fun _ => epsilon • 1 from funext hepsilon] at h2 h3
  have key : ∀ F : Fin 3 → Point → ℂ, SolvesAtSamples p.grid (p.frequency.k0 co.c) (fun _ => epsilon • 1) r S F ↔ SolvesEverywhere p.grid (p.frequency.k0 co.c) epsilon r P F := by
    intro F
    refine and_congr_right fun hb => ?_
    choose E hE using fun c => bandLimited_interpolates hd hs (hb c)
    exact (C123_wave_uniform hd hs _ _ (ofReal_ne hr.ne') hE).symm.trans (C123_wave_everywhere hd hs _ _ (ofReal_ne hr.ne') hE hP)
  exact ⟨s, F, h1, (key F).1 h2, fun F' h' => h3 F' ((key F').2 h'), h4⟩

/-- **C123 (as called, scalar).** For all scalar problems with a uniform and positive permeability and a little absorption everywhere, without coupling. -/
theorem C123_called_scalar {co : Const} {p : Args d} {m : Medium 1 p.grid.shape} {S E0 : Solver.Field 1 p.grid.shape} (h : Describes co 1 p m S E0)
    (hvec : p.source.isVectorial (List.ofFn p.grid.shape) (p.currentFactor co) = false) (hd : d ≤ 3) (hs : ∀ a, p.grid.step a ≠ 0) (hk0 : 0 < p.frequency.k0 co.c)
    (hxi : ∀ x, m.xi x = 0) (hzeta : ∀ x, m.zeta x = 0) (o : Optimum) {tol : ℝ} (htol : 0 ≤ tol) {r : ℝ} (hr : 0 < r)
    (hmu : ∀ x, m.mu x = (r : ℂ) • 1) (habs : ∀ x, 0 < (m.epsilon x 0 0).im) :
    ∃ s F, p.start co tol o = .ok ⟨1, s⟩ ∧ ScalarSolvesAtSamples p.grid (p.frequency.k0 co.c) (fun x => m.epsilon x 0 0) r (S 0) F ∧
      (∀ F', ScalarSolvesAtSamples p.grid (p.frequency.k0 co.c) (fun x => m.epsilon x 0 0) r (S 0) F' → F' = F) ∧
      ConvergesInSpace p.grid .scalar (p.frequency.k0 co.c) s fun _ => F := by
  have hone : ∀ x, m.mu x 0 0 = r := fun x => by rw [hmu]; simp
  have hre : ((r : ℂ)⁻¹).re = r⁻¹ := by rw [← ofReal_inv, ofReal_re]
  obtain ⟨s, E, h1, -, h3, h4⟩ := C86_scalar h hvec hs hk0 hxi hzeta habs o tol (fun x => by rw [hone, ofReal_im]) htol
    (fun x => by rw [hone, hone, sub_self, norm_zero]; positivity) (by rw [hone, hre]; positivity)
  rw [hone, hre, ofReal_inv, inv_inv] at h3
  obtain ⟨F, hF, -⟩ := C123_interpolation hd hs (E 0)
  have hS : ScalarSolvesAtSamples p.grid (p.frequency.k0 co.c) (fun x => m.epsilon x 0 0) r (S 0) F := ⟨hF.1, (C123_scalar_wave hd hs _ _ _ hF).1 h3⟩
  exact ⟨s, F, h1, hS, fun F' h' => C123_scalar_unique hd hs hk0.ne' habs r hS h', C123_converges hd hs (fun c => by rw [Subsingleton.elim c 0]; exact hF) h4.tendsto⟩

/-- **C123 (as called, scalar, uniform material).** -/
theorem C123_called_scalar_everywhere {co : Const} {p : Args d} {m : Medium 1 p.grid.shape} {S E0 : Solver.Field 1 p.grid.shape} (h : Describes co 1 p m S E0)
    (hvec : p.source.isVectorial (List.ofFn p.grid.shape) (p.currentFactor co) = false) (hd : d ≤ 3) (hs : ∀ a, p.grid.step a ≠ 0) (hk0 : 0 < p.frequency.k0 co.c)
    (hxi : ∀ x, m.xi x = 0) (hzeta : ∀ x, m.zeta x = 0) (o : Optimum) {tol : ℝ} (htol : 0 ≤ tol) {r : ℝ} (hr : 0 < r)
    (hmu : ∀ x, m.mu x = (r : ℂ) • 1) {epsilon : ℂ} (he : 0 < epsilon.im) (hepsilon : ∀ x, m.epsilon x = epsilon • 1) {P : Point → ℂ} (hP : Interpolates p.grid P (S 0)) :
    ∃ s F, p.start co tol o = .ok ⟨1, s⟩ ∧ ScalarSolvesEverywhere p.grid (p.frequency.k0 co.c) epsilon r P F ∧
      (∀ F', ScalarSolvesEverywhere p.grid (p.frequency.k0 co.c) epsilon r P F' → F' = F) ∧ ConvergesInSpace p.grid .scalar (p.frequency.k0 co.c) s fun _ => F := by
  have hone : ∀ x, m.epsilon x 0 0 = epsilon := fun x => by rw [hepsilon]; simp
  obtain ⟨s, F, h1, h2, h3, h4⟩ := C123_called_scalar h hvec hd hs hk0 hxi hzeta o htol hr hmu fun x => by rw [hone]; exact he
  simp only [hone] at h2 h3
  have key : ∀ F : Point → ℂ, ScalarSolvesAtSamples p.grid (p.frequency.k0 co.c) (fun _ => epsilon) r (S 0) F ↔ ScalarSolvesEverywhere p.grid (p.frequency.k0 co.c) epsilon r P F := by
    intro F
    refine and_congr_right fun hb => ?_
    obtain ⟨E, hE⟩ := bandLimited_interpolates hd hs hb
    exact (C123_scalar_wave hd hs _ _ _ hE).symm.trans (C123_scalar_everywhere hd hs _ _ _ hE hP)
  exact ⟨s, F, h1, (key F).1 h2, fun F' h' => h3 F' ((key F').2 h'), h4⟩

/-! ### Cases -/

/-- The hypotheses of `C123_called` are met by a material that is not uniform. -/
example (co : Const) (o : Optimum) : ∃ s F, (demoArgs true).start co 1e-8 o = .ok ⟨3, s⟩ ∧ SolvesAtSamples demoGrid 1 (demoMedium 3).epsilon (2 : ℝ) (fun _ _ => 1) F ∧
    (∀ F', SolvesAtSamples demoGrid 1 (demoMedium 3).epsilon (2 : ℝ) (fun _ _ => 1) F' → F' = F) ∧ ConvergesInSpace demoGrid (.vectorial (show 1 ≤ 3 by decide)) 1 s F :=
  C123_called (demo_describes true 3 co) rfl (by decide) demo_step one_pos (fun _ => rfl) (fun _ => rfl) (demo_noGain 3).1 o (by norm_num)
    ⟨by simp [demoArgs], by simp [demoArgs]⟩ (r := 2) (by norm_num) (fun _ => by push_cast; rfl) (demo_absorbs 3)

/-- The hypotheses of `C123_called_everywhere` can be met. -/
example (co : Const) (o : Optimum) : ∃ P : Fin 3 → Point → ℂ, ∃ s F, (uniformArgs true).start co 1e-8 o = .ok ⟨3, s⟩ ∧ SolvesEverywhere demoGrid 1 (1 + I) (2 : ℝ) P F ∧
    (∀ F', SolvesEverywhere demoGrid 1 (1 + I) (2 : ℝ) P F' → F' = F) ∧ ConvergesInSpace demoGrid (.vectorial (show 1 ≤ 3 by decide)) 1 s F := by
  obtain ⟨P, hP, -⟩ := C123_interpolation (g := demoGrid) (by decide) demo_step fun _ => 1
  exact ⟨fun _ => P, C123_called_everywhere (uniform_describes true 3 co) rfl (by decide) demo_step one_pos (fun _ => rfl) (fun _ => rfl) o (by norm_num)
    ⟨by simp [uniformArgs, demoArgs], by simp [uniformArgs, demoArgs]⟩ (r := 2) (by norm_num) (fun _ => by push_cast; rfl) (by simp) (fun _ => rfl) fun _ => hP⟩

/-- The hypotheses of `C123_called_scalar_everywhere` can be met. -/
example (co : Const) (o : Optimum) : ∃ P : Point → ℂ, ∃ s F, (uniformArgs false).start co 1e-8 o = .ok ⟨1, s⟩ ∧ ScalarSolvesEverywhere demoGrid 1 (1 + I) (2 : ℝ) P F ∧
    (∀ F', ScalarSolvesEverywhere demoGrid 1 (1 + I) (2 : ℝ) P F' → F' = F) ∧ ConvergesInSpace demoGrid .scalar 1 s fun _ => F := by
  obtain ⟨P, hP, -⟩ := C123_interpolation (g := demoGrid) (by decide) demo_step fun _ => 1
  exact ⟨P, C123_called_scalar_everywhere (uniform_describes false 1 co) rfl (by decide) demo_step one_pos (fun _ => rfl) (fun _ => rfl) o (by norm_num) (r := 2) (by norm_num)
    (fun _ => by push_cast; rfl) (by simp) (fun _ => rfl) hP⟩

end Verif.Problem
