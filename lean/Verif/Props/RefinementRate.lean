import Verif.Props.RefinementBetween

/-!
# How fast the calculated field tends to the exact one (property C132)
-/

namespace Verif.Existence

open Verif Verif.Fourier Verif.Backend Verif.Solver Verif.Refinement Verif.Spec.Refinement Verif.Spec.Existence Complex Matrix
open Verif.Spec.Continuous (Point Interpolates wave)
open Verif.Spec.Solver (WaveEquation ScalarWaveEquation Coupled)

variable {d : ℕ}

/-- A term that the grid does not resolve varies at least as fast as every other sample. -/
theorem unsampled_fast {N : Fin d → ℕ} {step period : Fin d → ℝ} (hd : d ≤ 3) (hs : ∀ b, step b ≠ 0) (hN : ∀ b, 0 < N b) (hL : ∀ b, N b * step b = period b) {h : ℝ} (hh : ∀ b, |step b| ≤ h) {j : Fin d → ℤ}
    (hj : ¬Sampled N j) : ∃ c : Fin 3, 1 ≤ h / Real.pi * |harmonic period j c| := by
  unfold Sampled at hj
  push Not at hj
  obtain ⟨b, hb⟩ := hj
  refine ⟨Fin.castLE hd b, ?_⟩
  have h1 : (N b : ℝ) ≤ 2 * |(j b : ℝ)| := by
    have h2 : (N b : ℤ) ≤ 2 * |j b| := by
      rcases le_or_gt (-(N b : ℤ)) (2 * j b) with h | h
      · have := hb h
        have := le_abs_self (j b)
        linarith
      · have := neg_le_abs (j b)
        linarith
    have h3 : ((N b : ℤ) : ℝ) ≤ ((2 * |j b| : ℤ) : ℝ) := by exact_mod_cast h2
    push_cast at h3
    exact h3
  have h2 : harmonic period j (Fin.castLE hd b) = 2 * Real.pi * j b / period b := by
    unfold harmonic
    rw [dif_pos (show ((Fin.castLE hd b : Fin 3) : ℕ) < d from b.isLt)]
    rfl
  have hst : 0 < |step b| := abs_pos.2 (hs b)
  have hNb : (0 : ℝ) < N b := by exact_mod_cast hN b
  rw [h2, ← hL b, abs_div, abs_mul, abs_mul, abs_mul, abs_two, abs_of_pos Real.pi_pos, Nat.abs_cast]
  have e : h / Real.pi * (2 * Real.pi * |(j b : ℝ)| / (N b * |step b|)) = h * (2 * |(j b : ℝ)|) / (N b * |step b|) := by
    field_simp
  rw [e, one_le_div (by positivity)]
  nlinarith [hh b]

/-- What remains of a series whose derivatives of order `n` converge. -/
theorem tail_rate {n : ℕ} {N : Fin d → ℕ} {step period : Fin d → ℝ} (hd : d ≤ 3) (hs : ∀ b, step b ≠ 0) (hN : ∀ b, 0 < N b) (hL : ∀ b, N b * step b = period b) {h : ℝ} (hh0 : 0 ≤ h) (hh : ∀ b, |step b| ≤ h)
    {w : (Fin d → ℤ) → ℝ} (h0 : ∀ j, 0 ≤ w j) (hw : Summable w) (hn : ∀ c, Summable fun j => |harmonic period j c| ^ n * w j) :
    tail N w ≤ (∑ c, ∑' j, |harmonic period j c| ^ n * w j) / Real.pi ^ n * h ^ n := by
  have h1 : Summable fun j => ∑ c, |harmonic period j c| ^ n * w j := summable_sum fun c _ => hn c
  rw [div_mul_eq_mul_div, mul_div_assoc, ← div_pow, mul_comm, ← Summable.tsum_finsetSum fun c _ => hn c, ← tsum_mul_left]
  refine (tail_summable hw N).tsum_le_tsum (fun j => ?_) (h1.mul_left _)
  have h2 : ∀ c, 0 ≤ |harmonic period j c| ^ n * w j := fun c => mul_nonneg (by positivity) (h0 j)
  split_ifs with hj
  · exact mul_nonneg (by positivity) (Finset.sum_nonneg fun c _ => h2 c)
  · obtain ⟨c, hc⟩ := unsampled_fast hd hs hN hL hh hj
    calc w j ≤ (h / Real.pi * |harmonic period j c|) ^ n * w j := le_mul_of_one_le_left (h0 j) (one_le_pow₀ hc)
      _ = (h / Real.pi) ^ n * (|harmonic period j c| ^ n * w j) := by ring
      _ ≤ _ := mul_le_mul_of_nonneg_left (Finset.single_le_sum (f := fun c => |harmonic period j c| ^ n * w j) (fun c _ => h2 c) (Finset.mem_univ c)) (by positivity)

theorem _root_.Verif.Spec.Existence.Steep.weight {n : ℕ} {period : Fin d → ℝ} {a : (Fin d → ℤ) → ℂ} (h : Steep n period a) {v : Point → ℝ} (hv0 : ∀ k, 0 ≤ v k) {K : ℝ} (hv : ∀ k, v k ≤ K * (1 + squared k)) (c : Fin 3) :
    Summable fun j => |harmonic period j c| ^ n * (v (harmonic period j) * ‖a j‖) := by
  refine Summable.of_nonneg_of_le (fun j => mul_nonneg (by positivity) (mul_nonneg (hv0 _) (norm_nonneg _))) (fun j => ?_) ((h c).mul_left K)
  calc |harmonic period j c| ^ n * (v (harmonic period j) * ‖a j‖) ≤ |harmonic period j c| ^ n * (K * (1 + squared (harmonic period j)) * ‖a j‖) :=
        mul_le_mul_of_nonneg_left (mul_le_mul_of_nonneg_right (hv _) (norm_nonneg _)) (by positivity)
    _ = _ := by ring

theorem abs_sum_le (k : Point) : ∑ c, |k c| ≤ 3 * (1 + squared k) := by
  rw [Fin.sum_univ_three]
  linarith [abs_le_one_add k 0, abs_le_one_add k 1, abs_le_one_add k 2]

/-- All remainders that occur in the errors, at once. -/
theorem remainders_rate {n : ℕ} (hd : d ≤ 3) {period : Fin d → ℝ} {f : Point → ℂ} {a : (Fin d → ℤ) → ℂ} (ha : HasSeries period f a) (hst : Steep n period a) :
    ∃ C, 0 ≤ C ∧ ∀ (N : Fin d → ℕ) (step : Fin d → ℝ), (∀ b, step b ≠ 0) → (∀ b, 0 < N b) → (∀ b, N b * step b = period b) → ∀ h, 0 ≤ h → (∀ b, |step b| ≤ h) →
      remainder N period a ≤ C * h ^ n ∧ firstRemainder N period a ≤ C * h ^ n ∧ tail N (fun j => ‖a j‖) ≤ C * h ^ n := by
  have w2 := hst.weight (v := squared) squared_nonneg (K := 1) fun k => by linarith [squared_nonneg k]
  have w1 := hst.weight (v := fun k => ∑ c, |k c|) (fun k => Finset.sum_nonneg fun _ _ => abs_nonneg _) abs_sum_le
  have w0 := hst.weight (v := fun _ => 1) (fun _ => zero_le_one) (K := 1) fun k => by linarith [squared_nonneg k]
  simp only [one_mul] at w0
  set C2 := (∑ c, ∑' j, |harmonic period j c| ^ n * (squared (harmonic period j) * ‖a j‖)) / Real.pi ^ n
  set C1 := (∑ c, ∑' j, |harmonic period j c| ^ n * ((∑ c, |harmonic period j c|) * ‖a j‖)) / Real.pi ^ n
  set C0 := (∑ c, ∑' j, |harmonic period j c| ^ n * ‖a j‖) / Real.pi ^ n
  refine ⟨max 0 (max C2 (max C1 C0)), le_max_left _ _, fun N step hs hN hL h hh0 hh => ⟨?_, ?_, ?_⟩⟩
  · exact (tail_rate hd hs hN hL hh0 hh (fun j => mul_nonneg (squared_nonneg _) (norm_nonneg _)) ha.second w2).trans
      (mul_le_mul_of_nonneg_right ((le_max_left _ _).trans (le_max_right _ _)) (by positivity))
  · exact (tail_rate hd hs hN hL hh0 hh (fun j => mul_nonneg (Finset.sum_nonneg fun _ _ => abs_nonneg _) (norm_nonneg _)) (summable_weights (hasSeries_first ha)) w1).trans
      (mul_le_mul_of_nonneg_right ((le_max_left _ _).trans ((le_max_right _ _).trans (le_max_right _ _))) (by positivity))
  · exact (tail_rate hd hs hN hL hh0 hh (fun j => norm_nonneg _) ha.summable w0).trans
      (mul_le_mul_of_nonneg_right ((le_max_right _ _).trans ((le_max_right _ _).trans (le_max_right _ _))) (by positivity))

theorem remainders_rate_all {n k : ℕ} (hd : d ≤ 3) {period : Fin d → ℝ} {f : Fin k → Point → ℂ} {a : Fin k → (Fin d → ℤ) → ℂ} (ha : ∀ c, HasSeries period (f c) (a c)) (hst : ∀ c, Steep n period (a c)) :
    ∃ C, 0 ≤ C ∧ ∀ (N : Fin d → ℕ) (step : Fin d → ℝ), (∀ b, step b ≠ 0) → (∀ b, 0 < N b) → (∀ b, N b * step b = period b) → ∀ h, 0 ≤ h → (∀ b, |step b| ≤ h) →
      ∑ c, remainder N period (a c) ≤ C * h ^ n ∧ ∑ c, firstRemainder N period (a c) ≤ C * h ^ n ∧ ∑ c, tail N (fun j => ‖a c j‖) ≤ C * h ^ n := by
  choose C hC0 hC using fun c => remainders_rate hd (ha c) (hst c)
  refine ⟨∑ c, C c, Finset.sum_nonneg fun c _ => hC0 c, fun N step hs hN hL h hh0 hh => ?_⟩
  have h1 := fun c => hC c N step hs hN hL h hh0 hh
  rw [Finset.sum_mul]
  exact ⟨Finset.sum_le_sum fun c _ => (h1 c).1, Finset.sum_le_sum fun c _ => (h1 c).2.1, Finset.sum_le_sum fun c _ => (h1 c).2.2⟩

/-! ### Smooth materials have smooth fields -/

section
variable (hd : d ≤ 3) {period : Fin d → ℝ} (hper : ∀ b, period b ≠ 0) {n : ℕ} {k0 : ℝ} (hk0 : 0 < k0) {δ : ℝ} (hδ : 0 < δ)
include hd hper hk0 hδ

/-- **C132 (smooth fields).** The smoother the material and the source, the smoother the field: that of a material and a source with derivatives of the order `n + 5` has itself derivatives of the order `n + 2`. -/
theorem C132_smooth {epsilon : Point → Matrix (Fin 3) (Fin 3) ℂ} (hsm : ∀ c c', SmoothTo (n + 5) period fun r => epsilon r c c') (habs : AbsorbsInSpace epsilon δ) {r : ℝ} (hr : 0 < r) {S : Fin 3 → Point → ℂ}
    (hS : ∀ c, SmoothTo (n + 5) period (S c)) {E : Fin 3 → Point → ℂ} (hE : WaveEquationInSpace k0 epsilon r S E) {a : Fin 3 → (Fin d → ℤ) → ℂ} (ha : ∀ c, HasSeries period (E c) (a c)) (c : Fin 3) :
    Steep n period (a c) := by
  obtain ⟨x, h1, h2, h3⟩ := exists_electric hd hper hk0 hsm hδ habs (r := r) hS
  have h4 := C128_unique hd hper hk0 (smooth_matrix_extruded hsm) hδ habs hr hE h3 ha h1
  rw [coefficients_unique hd hper (ha c) (by rw [h4]; exact h1 c)]
  exact h2 c

theorem C132_scalar_smooth {epsilon : Point → ℂ} (hsm : SmoothTo (n + 5) period epsilon) (habs : ∀ r, δ ≤ (epsilon r).im) {r : ℝ} (hr : 0 < r) {S : Point → ℂ} (hS : SmoothTo (n + 5) period S) {E : Point → ℂ}
    (hE : ScalarWaveEquationInSpace k0 epsilon r S E) {a : (Fin d → ℤ) → ℂ} (ha : HasSeries period E a) : Steep n period a := by
  obtain ⟨x, h1, h2, h3⟩ := exists_scalar hd hper hk0 hsm hδ habs (r := r) hS
  have h4 := C128_scalar_unique hd hper hk0 (smooth_extruded hsm) hδ habs hr hE h3 ha h1
  rw [coefficients_unique hd hper ha (by rw [h4]; exact h1)]
  exact h2

theorem C132_coupled_smooth {epsilon xi zeta mu : Point → Matrix (Fin 3) (Fin 3) ℂ} (hse : ∀ c c', SmoothTo (n + 5) period fun r => epsilon r c c') (hsx : ∀ c c', SmoothTo (n + 5) period fun r => xi r c c')
    (hsz : ∀ c c', SmoothTo (n + 5) period fun r => zeta r c c') (hsm : ∀ c c', SmoothTo (n + 5) period fun r => mu r c c') (habs : AbsorbsBothInSpace epsilon xi zeta mu δ) {S : Fin 3 → Point → ℂ}
    (hS : ∀ c, SmoothTo (n + 5) period (S c)) {E H : Fin 3 → Point → ℂ} (hE : CoupledInSpace k0 epsilon xi zeta mu S E H) {a b : Fin 3 → (Fin d → ℤ) → ℂ} (ha : ∀ c, HasFirstSeries period (E c) (a c))
    (hb : ∀ c, HasFirstSeries period (H c) (b c)) :
    ∃ a' b' : Fin 3 → (Fin d → ℤ) → ℂ, (∀ c, HasSeries period (E c) (a' c) ∧ Steep n period (a' c)) ∧ ∀ c, HasSeries period (H c) (b' c) ∧ Steep n period (b' c) := by
  obtain ⟨x, h1, h2, h3⟩ := exists_coupled hd hper hk0 hse hsx hsz hsm hδ habs hS
  obtain ⟨h4, h5⟩ := C128_coupled_unique hd hper hk0 (smooth_matrix_extruded hse) (smooth_matrix_extruded hsx) (smooth_matrix_extruded hsz) (smooth_matrix_extruded hsm) hδ habs hE h3 ha
    (fun c => hasSeries_first (h1 (.inl c))) hb fun c => hasSeries_first (h1 (.inr c))
  exact ⟨_, _, fun c => ⟨by rw [h4]; exact h1 (.inl c), h2 _⟩, fun c => ⟨by rw [h5]; exact h1 (.inr c), h2 _⟩⟩

/-! ### The rate -/

/-- **C132.** If the material and the source have derivatives of the order `n + 5`, then the difference between the calculated and the exact field falls at least as the `n`-th power of the distance between the
samples: faster than any power, if they have derivatives of all orders. -/
theorem C132_rate {epsilon : Point → Matrix (Fin 3) (Fin 3) ℂ} (hsm : ∀ c c', SmoothTo (n + 5) period fun r => epsilon r c c') (habs : AbsorbsInSpace epsilon δ) {r : ℝ} (hr : 0 < r) {S : Fin 3 → Point → ℂ}
    (hS : ∀ c, SmoothTo (n + 5) period (S c)) {E : Fin 3 → Point → ℂ} (hE : WaveEquationInSpace k0 epsilon r S E) (ha : ∀ c, ∃ a, HasSeries period (E c) a) :
    ∃ C, ∀ g : Grid.Obj d ℝ, (∀ b, g.step b ≠ 0) → (∀ b, 0 < g.shape b) → (∀ b, g.shape b * g.step b = period b) → ∀ h, 0 ≤ h → (∀ b, |g.step b| ≤ h) →
      ∀ (e : Tensor 3 g.shape) (s E' F : Solver.Field 3 g.shape), SampledFrom g epsilon e → (∀ c, SampledFrom g (S c) (s c)) → WaveEquation (kOf g) k0 e (fun _ => (r : ℂ) • 1) s E' →
        (∀ c, SampledFrom g (E c) (F c)) → rms (E' - F) ≤ C * h ^ n := by
  choose a ha using ha
  obtain ⟨C, _, hC⟩ := remainders_rate_all hd ha fun c => C132_smooth hd hper hk0 hδ hsm habs hr hS hE ha c
  refine ⟨2 * Real.sqrt 3 / (r * k0 ^ 2 * δ) * C, fun g hs hN hL h hh0 hh e s E' F he hsf hE' hF => ?_⟩
  rw [mul_assoc]
  exact (C128_error hd hs hN hL hk0 hδ habs hr hE ha he hsf hE' hF).trans (mul_le_mul_of_nonneg_left (hC g.shape g.step hs hN hL h hh0 hh).1 (by positivity))

/-- **C132 (scalar).** -/
theorem C132_scalar_rate {epsilon : Point → ℂ} (hsm : SmoothTo (n + 5) period epsilon) (habs : ∀ r, δ ≤ (epsilon r).im) {r : ℝ} (hr : 0 < r) {S : Point → ℂ} (hS : SmoothTo (n + 5) period S) {E : Point → ℂ}
    (hE : ScalarWaveEquationInSpace k0 epsilon r S E) (ha : ∃ a, HasSeries period E a) :
    ∃ C, ∀ g : Grid.Obj d ℝ, (∀ b, g.step b ≠ 0) → (∀ b, 0 < g.shape b) → (∀ b, g.shape b * g.step b = period b) → ∀ h, 0 ≤ h → (∀ b, |g.step b| ≤ h) →
      ∀ e s E' F : Idx g.shape → ℂ, SampledFrom g epsilon e → SampledFrom g S s → ScalarWaveEquation (kOf g) k0 e r s E' → SampledFrom g E F → rms (fun _ : Fin 1 => E' - F) ≤ C * h ^ n := by
  obtain ⟨a, ha⟩ := ha
  obtain ⟨C, _, hC⟩ := remainders_rate hd ha (C132_scalar_smooth hd hper hk0 hδ hsm habs hr hS hE ha)
  refine ⟨2 / (r * k0 ^ 2 * δ) * C, fun g hs hN hL h hh0 hh e s E' F he hsf hE' hF => ?_⟩
  rw [mul_assoc]
  exact (C128_scalar_error hd hs hN hL hk0 hδ habs hr hE ha he hsf hE' hF).trans (mul_le_mul_of_nonneg_left (hC g.shape g.step hs hN hL h hh0 hh).1 (by positivity))

/-- **C132 (coupled).** The same for the electric and the magnetic field in all linear materials. -/
theorem C132_coupled_rate {epsilon xi zeta mu : Point → Matrix (Fin 3) (Fin 3) ℂ} (hse : ∀ c c', SmoothTo (n + 5) period fun r => epsilon r c c') (hsx : ∀ c c', SmoothTo (n + 5) period fun r => xi r c c')
    (hsz : ∀ c c', SmoothTo (n + 5) period fun r => zeta r c c') (hsm : ∀ c c', SmoothTo (n + 5) period fun r => mu r c c') (habs : AbsorbsBothInSpace epsilon xi zeta mu δ) {S : Fin 3 → Point → ℂ}
    (hS : ∀ c, SmoothTo (n + 5) period (S c)) {E H : Fin 3 → Point → ℂ} (hE : CoupledInSpace k0 epsilon xi zeta mu S E H) (ha : ∀ c, ∃ a, HasFirstSeries period (E c) a) (hb : ∀ c, ∃ b, HasFirstSeries period (H c) b) :
    ∃ C, ∀ g : Grid.Obj d ℝ, (∀ b, g.step b ≠ 0) → (∀ b, 0 < g.shape b) → (∀ b, g.shape b * g.step b = period b) → ∀ h, 0 ≤ h → (∀ b, |g.step b| ≤ h) →
      ∀ (e x z m : Tensor 3 g.shape) (s E' H' F G : Solver.Field 3 g.shape), SampledFrom g epsilon e → SampledFrom g xi x → SampledFrom g zeta z → SampledFrom g mu m →
        (∀ c, SampledFrom g (S c) (s c)) → Coupled (kOf g) k0 e x z m s E' H' → (∀ c, SampledFrom g (E c) (F c)) → (∀ c, SampledFrom g (H c) (G c)) → rms (E' - F) ≤ C * h ^ n ∧ rms (H' - G) ≤ C * h ^ n := by
  choose a ha using ha
  choose b hb using hb
  obtain ⟨a', b', ha', hb'⟩ := C132_coupled_smooth hd hper hk0 hδ hse hsx hsz hsm habs hS hE ha hb
  obtain ⟨A, hA0, hA⟩ := remainders_rate_all hd (fun c => (ha' c).1) fun c => (ha' c).2
  obtain ⟨B, hB0, hB⟩ := remainders_rate_all hd (fun c => (hb' c).1) fun c => (hb' c).2
  refine ⟨2 * Real.sqrt 3 / (k0 * δ) * (A + B), fun g hs hN hL h hh0 hh e x z m s E' H' F G he hx hz hm hsf hE' hF hG => ?_⟩
  have h0 := C128_coupled_error hd hs hN hL hk0 hδ habs hE (fun c => hasSeries_first (ha' c).1) (fun c => hasSeries_first (hb' c).1) he hx hz hm hsf hE' hF hG
  have h1 := (hA g.shape g.step hs hN hL h hh0 hh).2.1
  have h2 := (hB g.shape g.step hs hN hL h hh0 hh).2.1
  have n1 : 0 ≤ ∑ c, firstRemainder g.shape period (a' c) := Finset.sum_nonneg fun c _ => firstRemainder_nonneg _ _ _
  have n2 : 0 ≤ ∑ c, firstRemainder g.shape period (b' c) := Finset.sum_nonneg fun c _ => firstRemainder_nonneg _ _ _
  have h3 : Real.sqrt ((∑ c, firstRemainder g.shape period (a' c)) ^ 2 + (∑ c, firstRemainder g.shape period (b' c)) ^ 2) ≤ (A + B) * h ^ n := by
    rw [Real.sqrt_le_left (by positivity)]
    nlinarith
  have h4 : Real.sqrt (rms (E' - F) ^ 2 + rms (H' - G) ^ 2) ≤ 2 * Real.sqrt 3 / (k0 * δ) * (A + B) * h ^ n := by
    rw [mul_assoc]
    exact h0.trans (mul_le_mul_of_nonneg_left h3 (by positivity))
  have r1 : rms (E' - F) ≤ Real.sqrt (rms (E' - F) ^ 2 + rms (H' - G) ^ 2) := Real.le_sqrt_of_sq_le (le_add_of_nonneg_right (sq_nonneg _))
  have r2 : rms (H' - G) ≤ Real.sqrt (rms (E' - F) ^ 2 + rms (H' - G) ^ 2) := Real.le_sqrt_of_sq_le (le_add_of_nonneg_left (sq_nonneg _))
  exact ⟨r1.trans h4, r2.trans h4⟩

/-- **C132 (between the samples).** The function that interpolates the calculated field tends to the exact field at the same rate, at the points of all displaced grids alike. -/
theorem C132_between {epsilon : Point → Matrix (Fin 3) (Fin 3) ℂ} (hsm : ∀ c c', SmoothTo (n + 5) period fun r => epsilon r c c') (habs : AbsorbsInSpace epsilon δ) {r : ℝ} (hr : 0 < r) {S : Fin 3 → Point → ℂ}
    (hS : ∀ c, SmoothTo (n + 5) period (S c)) {E : Fin 3 → Point → ℂ} (hE : WaveEquationInSpace k0 epsilon r S E) (ha : ∀ c, ∃ a, HasSeries period (E c) a) :
    ∃ C, ∀ g : Grid.Obj d ℝ, (∀ b, g.step b ≠ 0) → (∀ b, 0 < g.shape b) → (∀ b, g.shape b * g.step b = period b) → ∀ h, 0 ≤ h → (∀ b, |g.step b| ≤ h) →
      ∀ (e : Tensor 3 g.shape) (s E' : Solver.Field 3 g.shape), SampledFrom g epsilon e → (∀ c, SampledFrom g (S c) (s c)) → WaveEquation (kOf g) k0 e (fun _ => (r : ℂ) • 1) s E' →
        ∀ P : Fin 3 → Point → ℂ, (∀ c, Interpolates g (P c) (E' c)) → ∀ (u : Point) (D : Solver.Field 3 g.shape), (∀ c, DisplacedFrom g u (fun r => P c r - E c r) (D c)) → rms D ≤ C * h ^ n := by
  obtain ⟨C, hC⟩ := C132_rate hd hper hk0 hδ hsm habs hr hS hE ha
  choose a ha using ha
  obtain ⟨C', _, hC'⟩ := remainders_rate_all hd ha fun c => C132_smooth hd hper hk0 hδ hsm habs hr hS hE ha c
  refine ⟨C + 2 * Real.sqrt 3 * C', fun g hs hN hL h hh0 hh e s E' he hsf hE' P hP u D hD => ?_⟩
  choose F hF using fun c => sampled_of_extruded hd g (hasSeries_extruded (ha c))
  have h1 := C128_between hd hs hN hL (fun c => hasSeries_first (ha c)) hF hP hD
  have h2 := hC g hs hN hL h hh0 hh e s E' F he hsf hE' hF
  have h3 := mul_le_mul_of_nonneg_left (hC' g.shape g.step hs hN hL h hh0 hh).2.2 (show 0 ≤ 2 * Real.sqrt 3 by positivity)
  refine h1.trans ?_
  push_cast
  linarith

/-- **C132 (magnetic field).** The curl of the calculated field, and with it the magnetic field, tends to the exact one at the same rate. -/
theorem C132_flux {epsilon : Point → Matrix (Fin 3) (Fin 3) ℂ} (hsm : ∀ c c', SmoothTo (n + 5) period fun r => epsilon r c c') (habs : AbsorbsInSpace epsilon δ) {b : ℝ} (hb : 0 ≤ b) (hbound : BoundedInSpace epsilon b)
    {r : ℝ} (hr : 0 < r) {S : Fin 3 → Point → ℂ} (hS : ∀ c, SmoothTo (n + 5) period (S c)) {E : Fin 3 → Point → ℂ} (hE : WaveEquationInSpace k0 epsilon r S E) (ha : ∀ c, ∃ a, HasSeries period (E c) a) :
    ∃ C, ∀ g : Grid.Obj d ℝ, (∀ b, g.step b ≠ 0) → (∀ b, 0 < g.shape b) → (∀ b, g.shape b * g.step b = period b) → ∀ h, 0 ≤ h → (∀ b, |g.step b| ≤ h) →
      ∀ (e : Tensor 3 g.shape) (s E' F : Solver.Field 3 g.shape), SampledFrom g epsilon e → (∀ c, SampledFrom g (S c) (s c)) → WaveEquation (kOf g) k0 e (fun _ => (r : ℂ) • 1) s E' →
        (∀ c, SampledFrom g (Spec.Continuous.curl E c) (F c)) → rms (Spec.Solver.curl (kOf g) E' - F) ≤ C * h ^ n := by
  choose a ha using ha
  obtain ⟨C, _, hC⟩ := remainders_rate_all hd ha fun c => C132_smooth hd hper hk0 hδ hsm habs hr hS hE ha c
  refine ⟨2 * Real.sqrt 3 * (Real.sqrt ((b + δ) / r) / (k0 * δ) * C + C), fun g hs hN hL h hh0 hh e s E' F he hsf hE' hF => ?_⟩
  have h1 := hC g.shape g.step hs hN hL h hh0 hh
  have h2 := mul_le_mul_of_nonneg_left h1.1 (show 0 ≤ Real.sqrt ((b + δ) / r) / (k0 * δ) by positivity)
  have h3 := mul_le_mul_of_nonneg_left (add_le_add h2 h1.2.1) (show 0 ≤ 2 * Real.sqrt 3 by positivity)
  refine (C128_flux hd hs hN hL hk0 hδ habs hb hbound hr hE ha he hsf hE' hF).trans (h3.trans (le_of_eq ?_))
  ring

end

/-! ### Cases -/

/-- The hypotheses of `C132_rate`, `C132_smooth`, `C132_between` and `C132_flux` are met for every order: a material that varies as a wave, with the field that `C130_exists` gives. -/
example : ∃ E : Fin 3 → Point → ℂ, WaveEquationInSpace 1 demoEpsilon (2 : ℝ) demoDrive E ∧ ∀ n : ℕ, ∃ C, ∀ g : Grid.Obj 1 ℝ, (∀ b, g.step b ≠ 0) → (∀ b, 0 < g.shape b) →
    (∀ b, g.shape b * g.step b = (1 : Fin 1 → ℝ) b) → ∀ h, 0 ≤ h → (∀ b, |g.step b| ≤ h) → ∀ (e : Tensor 3 g.shape) (s E' F : Solver.Field 3 g.shape), SampledFrom g demoEpsilon e →
      (∀ c, SampledFrom g (demoDrive c) (s c)) → WaveEquation (kOf g) 1 e (fun _ => ((2 : ℝ) : ℂ) • 1) s E' → (∀ c, SampledFrom g (E c) (F c)) → rms (E' - F) ≤ C * h ^ n := by
  obtain ⟨E, ⟨h1, h2⟩, _⟩ := C130_exists (d := 1) (by decide) (fun _ => one_ne_zero) one_pos demoEpsilon_smooth one_pos demoEpsilon_absorbs two_pos demoDrive_smooth
  exact ⟨E, h2, fun n => C132_rate (by decide) (fun _ => one_ne_zero) one_pos one_pos demoEpsilon_smooth demoEpsilon_absorbs two_pos demoDrive_smooth h2 h1⟩

example {E : Fin 3 → Point → ℂ} (h2 : WaveEquationInSpace 1 demoEpsilon (2 : ℝ) demoDrive E) (h1 : ∀ c, ∃ a, HasSeries (1 : Fin 1 → ℝ) (E c) a) (n : ℕ) :=
  And.intro (C132_between (n := n) (d := 1) (by decide) (fun _ => one_ne_zero) one_pos one_pos demoEpsilon_smooth demoEpsilon_absorbs two_pos demoDrive_smooth h2 h1)
    (C132_flux (n := n) (d := 1) (by decide) (fun _ => one_ne_zero) one_pos one_pos demoEpsilon_smooth demoEpsilon_absorbs (show (0 : ℝ) ≤ 4 by norm_num) demoEpsilon_bounded two_pos demoDrive_smooth h2 h1)

/-- The hypotheses of `C132_coupled_rate` and `C132_coupled_smooth` are met by a chiral material. -/
example : ∃ E H : Fin 3 → Point → ℂ, CoupledInSpace 1 demoLossy (fun r => demoChirality r • 1) (fun r => -demoChirality r • 1) (fun _ => (1 + 2 * I : ℂ) • 1) demoDrive E H ∧ ∀ n : ℕ, ∃ C, ∀ g : Grid.Obj 1 ℝ,
    (∀ b, g.step b ≠ 0) → (∀ b, 0 < g.shape b) → (∀ b, g.shape b * g.step b = (1 : Fin 1 → ℝ) b) → ∀ h, 0 ≤ h → (∀ b, |g.step b| ≤ h) → ∀ (e x z m : Tensor 3 g.shape) (s E' H' F G : Solver.Field 3 g.shape),
      SampledFrom g demoLossy e → SampledFrom g (fun r => demoChirality r • 1) x → SampledFrom g (fun r => -demoChirality r • 1) z → SampledFrom g (fun _ => (1 + 2 * I : ℂ) • 1) m →
        (∀ c, SampledFrom g (demoDrive c) (s c)) → Coupled (kOf g) 1 e x z m s E' H' → (∀ c, SampledFrom g (E c) (F c)) → (∀ c, SampledFrom g (H c) (G c)) → rms (E' - F) ≤ C * h ^ n ∧ rms (H' - G) ≤ C * h ^ n := by
  obtain ⟨⟨E, H⟩, ⟨h1, h2, h3⟩, _⟩ := C130_coupled_exists (d := 1) (by decide) (fun _ => one_ne_zero) one_pos demoCoupled_smooth.1 demoCoupled_smooth.2.1 demoCoupled_smooth.2.2.1 demoCoupled_smooth.2.2.2 one_pos
    demoCoupled_absorbs demoDrive_smooth
  exact ⟨E, H, h3, fun n => C132_coupled_rate (by decide) (fun _ => one_ne_zero) one_pos one_pos demoCoupled_smooth.1 demoCoupled_smooth.2.1 demoCoupled_smooth.2.2.1 demoCoupled_smooth.2.2.2 demoCoupled_absorbs
    demoDrive_smooth h3 h1 h2⟩

/-- The hypotheses of `C132_scalar_rate` and `C132_scalar_smooth` are met. -/
example : ∃ E : Point → ℂ, ScalarWaveEquationInSpace 1 (fun r => demoEpsilon r 0 0) (2 : ℝ) (demoDrive 1) E ∧ ∀ n : ℕ, ∃ C, ∀ g : Grid.Obj 1 ℝ, (∀ b, g.step b ≠ 0) → (∀ b, 0 < g.shape b) →
    (∀ b, g.shape b * g.step b = (1 : Fin 1 → ℝ) b) → ∀ h, 0 ≤ h → (∀ b, |g.step b| ≤ h) → ∀ e s E' F : Idx g.shape → ℂ, SampledFrom g (fun r => demoEpsilon r 0 0) e → SampledFrom g (demoDrive 1) s →
      ScalarWaveEquation (kOf g) 1 e (2 : ℝ) s E' → SampledFrom g E F → rms (fun _ : Fin 1 => E' - F) ≤ C * h ^ n := by
  have habs : ∀ r, (1 : ℝ) ≤ (demoEpsilon r 0 0).im := fun r => by
    unfold demoEpsilon
    rw [Matrix.smul_apply, Matrix.one_apply_eq, smul_eq_mul, mul_one, add_im, ofReal_im, I_im, zero_add]
  obtain ⟨E, ⟨h1, h2⟩, _⟩ := C130_scalar_exists (d := 1) (by decide) (period := 1) (fun _ => one_ne_zero) one_pos (epsilon := fun r => demoEpsilon r 0 0) (demoEpsilon_smooth 0 0) one_pos habs two_pos (demoDrive_smooth 1)
  exact ⟨E, h2, fun n => C132_scalar_rate (by decide) (fun _ => one_ne_zero) one_pos one_pos (demoEpsilon_smooth 0 0) habs two_pos (demoDrive_smooth 1) h2 h1⟩

end Verif.Existence

namespace Verif.Problem

open Verif Verif.Fourier Verif.Backend Verif.Solver Verif.Construct Verif.Refinement Verif.Existence Verif.Spec.Existence Complex Matrix
open Verif.Spec.Continuous (Point Interpolates)
open Verif.Spec.Solver (NoGain)
open Verif.Spec.Refinement

variable {d : ℕ}

/-- **C132 (as called).** If the arguments are samples of a smooth problem in space, then the constructor succeeds and the iteration converges to a field that differs from the exact one by at most a constant times the
`n`-th power of the distance between the samples. -/
theorem C132_called {n : ℕ} (hd : d ≤ 3) {period : Fin d → ℝ} (hper : ∀ b, period b ≠ 0) {k0 : ℝ} (hk0 : 0 < k0) {δ : ℝ} (hδ : 0 < δ) {epsilon : Point → Matrix (Fin 3) (Fin 3) ℂ}
    (hsm : ∀ c c', SmoothTo (n + 5) period fun r => epsilon r c c') (habs : AbsorbsInSpace epsilon δ) {r : ℝ} (hr : 0 < r) {S : Fin 3 → Point → ℂ}
    (hS : ∀ c, SmoothTo (n + 5) period (S c)) {E : Fin 3 → Point → ℂ} (hE : WaveEquationInSpace k0 epsilon r S E) (ha : ∀ c, ∃ a, HasSeries period (E c) a) :
    ∃ C, ∀ (co : Const) (p : Args d) (m : Medium 3 p.grid.shape) (s E0 : Solver.Field 3 p.grid.shape), Samples co p m s E0 period k0 epsilon r S → ∀ h, 0 ≤ h → (∀ b, |p.grid.step b| ≤ h) →
      ∀ (o : Optimum) (tol : ℝ), 0 ≤ tol → ∀ F : Solver.Field 3 p.grid.shape, (∀ c, SampledFrom p.grid (E c) (F c)) →
        ∃ t E', p.start co tol o = .ok ⟨3, t⟩ ∧ ConvergesTo (.vectorial hd) (backendK p.grid k0) k0 t E' ∧ rms (E' - F) ≤ C * h ^ n := by
  obtain ⟨C, hC⟩ := C132_rate hd hper hk0 hδ hsm habs hr hS hE ha
  refine ⟨C, fun co p m s E0 h η hη0 hη o tol htol F hF => ?_⟩
  have hs : ∀ b, p.grid.step b ≠ 0 := fun b h0 => hper b (by rw [← h.period b, h0, mul_zero])
  have hab := sampled_absorbs hd habs h.epsilon
  have hgain : NoGain m.epsilon := fun x v => le_trans (mul_nonneg hδ.le (Finset.sum_nonneg fun i _ => sq_nonneg _)) (hab x v)
  obtain ⟨t, E', h1, -, h3, h4⟩ := C86_uniform h.describes h.vectorial hd hs (by rw [h.wavenumber]; exact hk0) h.xi h.zeta hgain (noGain_real h.mu) o tol htol h.form hr h.mu ⟨δ, hδ, hab⟩
  rw [h.wavenumber] at h3 h4
  rw [show m.mu = fun _ => (r : ℂ) • 1 from funext h.mu] at h3
  exact ⟨t, E', h1, h4.tendsto, hC p.grid hs h.describes.nonempty h.period η hη0 hη m.epsilon s E' F h.epsilon h.source h3 hF⟩

/-- The hypotheses of `C132_called` are met, for every order. -/
example {E : Fin 3 → Point → ℂ} (h2 : WaveEquationInSpace 1 demoEpsilon (2 : ℝ) demoDrive E) (h1 : ∀ c, ∃ a, HasSeries (1 : Fin 1 → ℝ) (E c) a) (n : ℕ) :=
  C132_called (n := n) (d := 1) (by decide) (fun _ => one_ne_zero) one_pos one_pos demoEpsilon_smooth demoEpsilon_absorbs two_pos demoDrive_smooth h2 h1

end Verif.Problem
