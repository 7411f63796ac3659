import Verif.Spec.Between
import Verif.Props.Existence

/-!
# C128: the field between the samples

C128 compares the field with the exact one at the samples.  Here the function that interpolates the samples is compared with the exact field at all points of space.
-/

namespace Verif.Refinement

open Verif Verif.Fourier Verif.Backend Verif.Solver Verif.Continuous Verif.Spec.Continuous Verif.Spec.Refinement Verif.Existence Complex Matrix
open Verif.Spec.Solver (Coupled WaveEquation ScalarWaveEquation)

variable {d n : ℕ}

section
variable {g : Grid.Obj d ℝ} (hd : d ≤ 3) (hs : ∀ a, g.step a ≠ 0) (hN : ∀ a, 0 < g.shape a) {period : Fin d → ℝ} (hL : ∀ a, g.shape a * g.step a = period a)

theorem wave_displaced (kappa r u : Point) : wave kappa (r + u) = wave kappa r * wave kappa u := by
  unfold Spec.Continuous.wave
  rw [← exp_add, ← mul_add, ← ofReal_add, ← Finset.sum_add_distrib]
  simp only [Pi.add_apply, mul_add]

include hd hs in
theorem bandLimited_extruded {f : Point → ℂ} (hf : f ∈ BandLimited g.shape g.step) : Extruded d f := fun r r' h => by
  obtain ⟨b, rfl⟩ := (bandLimited_iff hs hd _).1 hf
  unfold series
  refine Finset.sum_congr rfl fun q _ => ?_
  congr 1
  unfold Spec.Continuous.wave
  rw [wave_axes hd, wave_axes hd]
  have : ∑ a : Fin d, kOf g a q * r (Fin.castLE hd a) = ∑ a : Fin d, kOf g a q * r' (Fin.castLE hd a) := Finset.sum_congr rfl fun b _ => by rw [h _ b.isLt]
  rw [this]

include hd hs in
/-- **C123 (energy).** However the grid is displaced, the squares of the function that interpolates the samples have the same sum. -/
theorem C123_displaced {f : Point → ℂ} {s : Idx g.shape → ℂ} (h : Interpolates g f s) {u : Point} {s' : Idx g.shape → ℂ} (h' : DisplacedFrom g u f s') : ∑ x, ‖s' x‖ ^ 2 = ∑ x, ‖s x‖ ^ 2 := by
  obtain ⟨a, rfl, ha⟩ := (interpolates_iff hd hs _ _).1 h
  have h1 : Interpolates g (series g fun q => a q * wave (waveVector g q) u) s' := by
    refine ⟨(bandLimited_iff hs hd _).2 ⟨_, rfl⟩, fun x r hr => ?_⟩
    rw [h' x r hr]
    unfold series
    refine Finset.sum_congr rfl fun q _ => ?_
    rw [wave_displaced]
    ring
  have h2 := (series_interpolates hd hs (fun q => a q * wave (waveVector g q) u) s').1 h1.2
  by_cases h0 : IsEmpty (Idx g.shape)
  · simp
  rw [not_isEmpty_iff] at h0
  have hN : (∏ a, (g.shape a : ℝ)) ≠ 0 := by
    obtain ⟨x⟩ := h0
    exact Finset.prod_ne_zero_iff.2 fun b _ => by exact_mod_cast (x b).pos.ne'
  refine mul_left_cancel₀ hN ?_
  rw [← C23_energy, ← C23_energy]
  refine Finset.sum_congr rfl fun q _ => ?_
  rw [h2 q, ha q, norm_mul, norm_mul, norm_mul, norm_mul, norm_mul, norm_wave, mul_one]

include hd hs hN hL in
/-- The function and the one that interpolates its samples differ, at all points of space, by at most the terms that vary too quickly. -/
theorem value_difference {f : Point → ℂ} {a : (Fin d → ℤ) → ℂ} (h : HasFirstSeries period f a) {s : Idx g.shape → ℂ} (hsf : SampledFrom g f s) {F : Point → ℂ} (hF : Interpolates g F s) (r : Point) :
    ‖F r - f r‖ ≤ tail g.shape fun j => 2 * ‖a j‖ := by
  classical
  obtain ⟨θ, h1, h2, h3⟩ := exists_folded hd hs hN hL h
  obtain rfl := Interpolates.unique hd hs hF (h3 s hsf)
  have hθ : Summable fun j => ‖θ j * a j‖ := by simpa only [norm_mul, h1, one_mul] using h.summable
  have e1 := series_folded (fun j => θ j * a j) hθ (folded hN) (fun _ => 1) r
  simp only [one_mul] at e1
  rw [e1, h.value r, ← (summable_wave (k := fun j => waveVector g (folded hN j)) hθ r).tsum_sub (summable_wave h.summable r)]
  refine tsum_of_norm_bounded (tail_summable (h.summable.mul_left 2) g.shape).hasSum fun j => ?_
  split_ifs with hj
  · obtain ⟨r0, hr0⟩ := exists_atSample hd g fun b => ⟨0, hN b⟩
    have h4 := h2 j _ r0 hr0
    rw [folded_sampled hs hN hL hj] at h4 ⊢
    have h5 : θ j = 1 := by
      have h6 : wave (harmonic period j) r0 ≠ 0 := fun h0 => by simpa [h0] using norm_wave (harmonic period j) r0
      exact mul_right_cancel₀ h6 (by rw [one_mul]; exact h4.symm)
    rw [h5, one_mul, sub_self, norm_zero]
  · refine (norm_sub_le _ _).trans ?_
    rw [norm_mul, norm_mul, norm_mul, norm_wave, norm_wave, h1, one_mul, mul_one]
    linarith

include hd hs in
theorem rms_displaced {f : Fin n → Point → ℂ} {s s' : Fin n → Idx g.shape → ℂ} (h : ∀ c, Interpolates g (f c) (s c)) {u : Point} (h' : ∀ c, DisplacedFrom g u (f c) (s' c)) : rms s' = rms s := by
  unfold rms
  simp only [C123_displaced hd hs (h _) (h' _)]

theorem rms_triangle' {N : Fin d → ℕ} (F G H : Fin n → Idx N → ℂ) : rms (F - H) ≤ rms (F - G) + rms (G - H) := by
  refine (rms_triangle F G H).trans (le_of_eq ?_)
  congr 1
  rw [rms_norm, rms_norm, norm_rev]

include hd hs hN hL in
/-- **C128 (between the samples).** At the points of every displaced grid, the function that interpolates the calculated field differs from the exact field by at most the difference at the samples, and the terms
that the grid cannot resolve. -/
theorem C128_between {E : Fin n → Point → ℂ} {a : Fin n → (Fin d → ℤ) → ℂ} (ha : ∀ c, HasFirstSeries period (E c) (a c)) {E' F : Solver.Field n g.shape} (hF : ∀ c, SampledFrom g (E c) (F c))
    {P : Fin n → Point → ℂ} (hP : ∀ c, Interpolates g (P c) (E' c)) {u : Point} {D : Solver.Field n g.shape} (hD : ∀ c, DisplacedFrom g u (fun r => P c r - E c r) (D c)) :
    rms D ≤ rms (E' - F) + 2 * Real.sqrt n * ∑ c, tail g.shape fun j => ‖a c j‖ := by
  choose Q hQ _ using fun c => C123_interpolation hd hs (F c)
  choose r hr using exists_atSample hd g
  have h0 : ∀ c, 0 ≤ tail g.shape fun j => ‖a c j‖ := fun c => tail_nonneg (fun _ => norm_nonneg _) _
  set A : Solver.Field n g.shape := fun c x => P c (r x + u) - Q c (r x + u) with hA
  have hex : ∀ {f : Point → ℂ}, f ∈ BandLimited g.shape g.step → ∀ x ρ, AtSample g x ρ → f (ρ + u) = f (r x + u) := by
    intro f hf x ρ hρ
    refine bandLimited_extruded hd hs hf _ _ fun c hc => ?_
    rw [Pi.add_apply, Pi.add_apply, Option.some.inj ((hρ c hc).symm.trans (hr x c hc))]
  have h1 : rms A = rms (E' - F) := by
    refine rms_displaced hd hs (f := fun c r => P c r - Q c r) (fun c => (hP c).sub (hQ c)) (u := u) fun c x ρ hρ => ?_
    rw [hA]
    dsimp only
    rw [hex (hP c).1 x ρ hρ, hex (hQ c).1 x ρ hρ]
  have h2 : rms (D - A) ≤ 2 * Real.sqrt n * ∑ c, tail g.shape fun j => ‖a c j‖ := by
    rw [rms_norm]
    have hprod : 0 < Real.sqrt (∏ b, (g.shape b : ℝ)) := Real.sqrt_pos.2 (Finset.prod_pos fun b _ => by exact_mod_cast hN b)
    rw [div_le_iff₀ hprod]
    refine (norm_le_of_bounded (D - A) (M := 2 * ∑ c, tail g.shape fun j => ‖a c j‖) (mul_nonneg two_pos.le (Finset.sum_nonneg fun c _ => h0 c)) fun c x => ?_).trans (le_of_eq (by ring))
    rw [Pi.sub_apply, Pi.sub_apply, hD c x (r x) (hr x), hA]
    dsimp only
    rw [sub_sub_sub_cancel_left]
    refine (value_difference hd hs hN hL (ha c) (hF c) (hQ c) _).trans ?_
    rw [tail_mul]
    exact mul_le_mul_of_nonneg_left (Finset.single_le_sum (f := fun c => tail g.shape fun j => ‖a c j‖) (fun c _ => h0 c) (Finset.mem_univ c)) two_pos.le
  have h3 := rms_triangle' D A 0
  rw [sub_zero, sub_zero, h1] at h3
  linarith

end

theorem between_small {period : Fin d → ℝ} {E : Fin n → Point → ℂ} {a : Fin n → (Fin d → ℤ) → ℂ} (ha : ∀ c, HasFirstSeries period (E c) (a c)) {η : ℝ} (hη : 0 < η) :
    ∃ M : ℕ, ∀ N : Fin d → ℕ, (∀ b, M ≤ N b) → 2 * Real.sqrt n * ∑ c, tail N (fun j => ‖a c j‖) ≤ η := by
  choose M hM using fun c => tail_small (ha c).summable (fun j => norm_nonneg _) (show 0 < η / (2 * Real.sqrt n + 1) / (n + 1) by positivity)
  refine ⟨∑ c, M c, fun N hN => ?_⟩
  have h1 : ∀ c, tail N (fun j => ‖a c j‖) ≤ η / (2 * Real.sqrt n + 1) / (n + 1) := fun c => (hM c N fun b => (Finset.single_le_sum (f := M) (fun c _ => Nat.zero_le _) (Finset.mem_univ c)).trans (hN b)).le
  have h2 : ∑ c, tail N (fun j => ‖a c j‖) ≤ η / (2 * Real.sqrt n + 1) := by
    refine (Finset.sum_le_sum fun c _ => h1 c).trans ?_
    rw [Finset.sum_const, Finset.card_univ, Fintype.card_fin, nsmul_eq_mul, mul_div_assoc', div_le_iff₀ (by positivity)]
    have : 0 ≤ η / (2 * Real.sqrt n + 1) := by positivity
    nlinarith
  have h3 : 0 ≤ 2 * Real.sqrt n := by positivity
  calc 2 * Real.sqrt n * ∑ c, tail N (fun j => ‖a c j‖) ≤ 2 * Real.sqrt n * (η / (2 * Real.sqrt n + 1)) := mul_le_mul_of_nonneg_left h2 h3
    _ ≤ η := by
      rw [mul_div_assoc', div_le_iff₀ (by positivity)]
      nlinarith

/-- **C128 (between the samples, limit).** When the grid is refined, the function that interpolates the calculated field tends to the exact field, at the points of all displaced grids alike. -/
theorem C128_between_limit (hd : d ≤ 3) {period : Fin d → ℝ} {k0 : ℝ} (hk0 : 0 < k0) {epsilon : Point → Matrix (Fin 3) (Fin 3) ℂ} {δ : ℝ} (hδ : 0 < δ)
    (habs : AbsorbsInSpace epsilon δ) {r : ℝ} (hr : 0 < r) {S E : Fin 3 → Point → ℂ} (hE : WaveEquationInSpace k0 epsilon r S E) {a : Fin 3 → (Fin d → ℤ) → ℂ}
    (ha : ∀ c, HasSeries period (E c) (a c)) {η : ℝ} (hη : 0 < η) :
    ∃ M : ℕ, ∀ g : Grid.Obj d ℝ, (∀ b, g.step b ≠ 0) → (∀ b, 0 < g.shape b) → (∀ b, M ≤ g.shape b) → (∀ b, g.shape b * g.step b = period b) →
      ∀ (e : Tensor 3 g.shape) (s E' : Solver.Field 3 g.shape), SampledFrom g epsilon e → (∀ c, SampledFrom g (S c) (s c)) → WaveEquation (kOf g) k0 e (fun _ => (r : ℂ) • 1) s E' →
        ∀ (P : Fin 3 → Point → ℂ), (∀ c, Interpolates g (P c) (E' c)) → ∀ (u : Point) (D : Solver.Field 3 g.shape), (∀ c, DisplacedFrom g u (fun r => P c r - E c r) (D c)) → rms D < η := by
  obtain ⟨M1, h1⟩ := C128_limit hd hk0 hδ habs hr hE ha (half_pos hη)
  obtain ⟨M2, h2⟩ := between_small (fun c => hasSeries_first (ha c)) (half_pos hη)
  refine ⟨max M1 M2, fun g hs hN hM hL e s E' he hsf hE' P hP u D hD => ?_⟩
  choose F hF using fun c => sampled_of_extruded hd g (hasSeries_extruded (ha c))
  have h3 := C128_between hd hs hN hL (fun c => hasSeries_first (ha c)) hF hP hD
  have h4 := h1 g hs hN (fun b => (le_max_left _ _).trans (hM b)) hL e s E' F he hsf hE' hF
  have h5 := h2 g.shape fun b => (le_max_right _ _).trans (hM b)
  exact h3.trans_lt ((add_lt_add_of_lt_of_le h4 h5).trans_eq (add_halves η))

/-- **C128 (between the samples, limit, coupled).** -/
theorem C128_between_coupled_limit (hd : d ≤ 3) {period : Fin d → ℝ} {k0 : ℝ} (hk0 : 0 < k0) {epsilon xi zeta mu : Point → Matrix (Fin 3) (Fin 3) ℂ} {δ : ℝ} (hδ : 0 < δ)
    (habs : AbsorbsBothInSpace epsilon xi zeta mu δ) {S E H : Fin 3 → Point → ℂ} (hE : CoupledInSpace k0 epsilon xi zeta mu S E H) {a b : Fin 3 → (Fin d → ℤ) → ℂ}
    (ha : ∀ c, HasFirstSeries period (E c) (a c)) (hb : ∀ c, HasFirstSeries period (H c) (b c)) {η : ℝ} (hη : 0 < η) :
    ∃ M : ℕ, ∀ g : Grid.Obj d ℝ, (∀ b, g.step b ≠ 0) → (∀ b, 0 < g.shape b) → (∀ b, M ≤ g.shape b) → (∀ b, g.shape b * g.step b = period b) →
      ∀ (e x z m : Tensor 3 g.shape) (s E' H' : Solver.Field 3 g.shape), SampledFrom g epsilon e → SampledFrom g xi x → SampledFrom g zeta z → SampledFrom g mu m →
        (∀ c, SampledFrom g (S c) (s c)) → Coupled (kOf g) k0 e x z m s E' H' → ∀ P Q : Fin 3 → Point → ℂ, (∀ c, Interpolates g (P c) (E' c)) → (∀ c, Interpolates g (Q c) (H' c)) →
          ∀ (u : Point) (D D' : Solver.Field 3 g.shape), (∀ c, DisplacedFrom g u (fun r => P c r - E c r) (D c)) → (∀ c, DisplacedFrom g u (fun r => Q c r - H c r) (D' c)) → rms D < η ∧ rms D' < η := by
  obtain ⟨M1, h1⟩ := C128_coupled_limit hd hk0 hδ habs hE ha hb (half_pos hη)
  obtain ⟨M2, h2⟩ := between_small ha (half_pos hη)
  obtain ⟨M3, h3⟩ := between_small hb (half_pos hη)
  refine ⟨max M1 (max M2 M3), fun g hs hN hM hL e x z m s E' H' he hx hz hm hsf hE' P Q hP hQ u D D' hD hD' => ?_⟩
  choose F hF using fun c => sampled_of_extruded hd g (hasFirst_extruded (ha c))
  choose G hG using fun c => sampled_of_extruded hd g (hasFirst_extruded (hb c))
  have h4 := h1 g hs hN (fun b => (le_max_left _ _).trans (hM b)) hL e x z m s E' H' F G he hx hz hm hsf hE' hF hG
  have h5 := C128_between hd hs hN hL ha hF hP hD
  have h6 := C128_between hd hs hN hL hb hG hQ hD'
  have h7 := h2 g.shape fun b => (le_max_left _ _).trans ((le_max_right _ _).trans (hM b))
  have h8 := h3 g.shape fun b => (le_max_right _ _).trans ((le_max_right _ _).trans (hM b))
  exact ⟨h5.trans_lt ((add_lt_add_of_lt_of_le h4.1 h7).trans_eq (add_halves η)), h6.trans_lt ((add_lt_add_of_lt_of_le h4.2 h8).trans_eq (add_halves η))⟩

/-- The hypotheses of `C128_between_limit` are met. -/
example {η : ℝ} (hη : 0 < η) := C128_between_limit (d := 1) (by decide) one_pos one_pos demoEpsilon_absorbs two_pos (S := demoSource) (E := demoField) (fun _ _ => rfl)
  (fun _ => hasSeries_add (hasSeries_single 1 _ _) (hasSeries_single 1 _ _)) hη

/-- The hypotheses of `C128_between_coupled_limit` are met. -/
example {η : ℝ} (hη : 0 < η) := C128_between_coupled_limit (period := 1) (by decide) one_pos one_pos demoCoupled_absorbs demoCoupled demoCoupled_series.1 demoCoupled_series.2 hη

/-- The hypotheses of `C128_between` and `C123_displaced` can be met, for every displacement. -/
example {g : Grid.Obj 1 ℝ} (hs : ∀ a, g.step a ≠ 0) (s : Idx g.shape → ℂ) (u : Point) : ∃ f s', Interpolates g f s ∧ DisplacedFrom g u f s' := by
  obtain ⟨f, hf, -⟩ := C123_interpolation (by decide) hs s
  obtain ⟨s', hs'⟩ := sampled_of_extruded (by decide) g (f := fun r => f (r + u)) fun r r' h => by
    refine bandLimited_extruded (by decide) hs hf.1 _ _ fun c hc => ?_
    rw [Pi.add_apply, Pi.add_apply, h c hc]
  exact ⟨f, s', hf, hs'⟩

end Verif.Refinement

namespace Verif.Problem

open Verif Verif.Fourier Verif.Backend Verif.Solver Verif.Construct Verif.Refinement Verif.Existence Verif.Spec.Existence Complex Matrix
open Verif.Spec.Continuous (Point Interpolates)
open Verif.Spec.Refinement

variable {d : ℕ}

/-- **C130 (as called, between the samples).** Every smooth absorbing material with every smooth source has an exact field, and the function that interpolates what the solver returns approaches it at all points of
space, to within any accuracy, once the grid is fine enough and the iterations are enough. -/
theorem C130_called_between (hd : d ≤ 3) {period : Fin d → ℝ} (hper : ∀ b, period b ≠ 0) {k0 : ℝ} (hk0 : 0 < k0) {epsilon : Point → Matrix (Fin 3) (Fin 3) ℂ} (hsm : ∀ c c', Smooth period fun r => epsilon r c c')
    {δ : ℝ} (hδ : 0 < δ) (habs : AbsorbsInSpace epsilon δ) {r : ℝ} (hr : 0 < r) {S : Fin 3 → Point → ℂ} (hS : ∀ c, Smooth period (S c)) :
    ∃ E : Fin 3 → Point → ℂ, WaveEquationInSpace k0 epsilon r S E ∧ ∀ η > 0, ∃ M : ℕ, ∀ (co : Const) (p : Args d) (m : Medium 3 p.grid.shape) (s E0 : Solver.Field 3 p.grid.shape),
      Samples co p m s E0 period k0 epsilon r S → (∀ b, M ≤ p.grid.shape b) → ∀ (o : Optimum) (tol : ℝ), 0 ≤ tol →
        ∃ t, p.start co tol o = .ok ⟨3, t⟩ ∧ ∃ j0, ∀ i ≥ j0, ∃ j ≤ i, ∃ u, run (.vectorial hd) (backendK p.grid k0) t j = .ok u ∧ (j < i → run (.vectorial hd) (backendK p.grid k0) t i = .error .zeroDivision) ∧
          ∀ P : Fin 3 → Point → ℂ, (∀ c, Interpolates p.grid (P c) (getE k0 u c)) → ∀ (v : Point) (D : Solver.Field 3 p.grid.shape), (∀ c, DisplacedFrom p.grid v (fun r => P c r - E c r) (D c)) → rms D < η := by
  obtain ⟨E, ⟨h1, h2⟩, _⟩ := C130_exists hd hper hk0 hsm hδ habs hr hS
  choose a ha using h1
  refine ⟨E, h2, fun η hη => ?_⟩
  obtain ⟨M1, h3⟩ := C128_called_limit hd hper hk0 hδ habs hr h2 ha (half_pos hη)
  obtain ⟨M2, h4⟩ := between_small (fun c => hasSeries_first (ha c)) (half_pos hη)
  refine ⟨max M1 M2, fun co p m s E0 h hM o tol htol => ?_⟩
  have hs : ∀ b, p.grid.step b ≠ 0 := fun b h0 => hper b (by rw [← h.period b, h0, mul_zero])
  choose F hF using fun c => sampled_of_extruded hd p.grid (hasSeries_extruded (ha c))
  obtain ⟨t, h5, j0, h6⟩ := h3 co p m s E0 h (fun b => (le_max_left _ _).trans (hM b)) o tol htol F hF
  have h7 : ∀ u : State 3 p.grid.shape, rms (getE k0 u - F) < η / 2 → ∀ P : Fin 3 → Point → ℂ, (∀ c, Interpolates p.grid (P c) (getE k0 u c)) → ∀ (v : Point) (D : Solver.Field 3 p.grid.shape),
      (∀ c, DisplacedFrom p.grid v (fun r => P c r - E c r) (D c)) → rms D < η := by
    intro u hu P hP v D hD
    have h8 := C128_between hd hs h.describes.nonempty h.period (fun c => hasSeries_first (ha c)) hF hP hD
    have h9 := h4 p.grid.shape fun b => (le_max_right _ _).trans (hM b)
    exact h8.trans_lt ((add_lt_add_of_lt_of_le hu h9).trans_eq (add_halves η))
  refine ⟨t, h5, j0, fun i hi => ?_⟩
  rcases h6 i hi with ⟨u, hu, hu'⟩ | ⟨he, j, hj, u, hu, hu'⟩
  · exact ⟨i, le_rfl, u, hu, fun h0 => absurd h0 (lt_irrefl i), h7 u hu'⟩
  · exact ⟨j, hj.le, u, hu, fun _ => he, h7 u hu'⟩

/-- The hypotheses of `C130_called_between` are met. -/
example := C130_called_between (d := 1) (by decide) (fun _ => one_ne_zero) one_pos demoEpsilon_smooth one_pos demoEpsilon_absorbs two_pos demoDrive_smooth

end Verif.Problem
