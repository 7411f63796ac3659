import Verif.Spec.Refinement
import Verif.Lemmas.Continuous
import Verif.Props.Continuous
import Mathlib.Analysis.Calculus.SmoothSeries

/-!
# Lemmas for C128: Fourier series, and their samples
-/

namespace Verif.Refinement

open Verif Verif.Fourier Verif.Backend Verif.Spec.Continuous Verif.Spec.Refinement Verif.Continuous Complex

variable {d : ℕ}

theorem norm_wave (kappa r : Point) : ‖wave kappa r‖ = 1 := by
  unfold wave
  rw [mul_comm, norm_exp_ofReal_mul_I]

theorem squared_nonneg (kappa : Point) : 0 ≤ squared kappa := Finset.sum_nonneg fun c _ => sq_nonneg _

theorem sq_le_squared (kappa : Point) (c : Fin 3) : kappa c ^ 2 ≤ squared kappa :=
  Finset.single_le_sum (f := fun c => kappa c ^ 2) (fun c _ => sq_nonneg _) (Finset.mem_univ c)

theorem abs_mul_abs_le (kappa : Point) (c c' : Fin 3) : |kappa c| * |kappa c'| ≤ squared kappa := by
  have h1 := sq_le_squared kappa c
  have h2 := sq_le_squared kappa c'
  rw [← sq_abs] at h1 h2
  nlinarith [sq_nonneg (|kappa c| - |kappa c'|)]

theorem two_mul_le (kappa : Point) {c c' : Fin 3} (h : c ≠ c') : 2 * (|kappa c| * |kappa c'|) ≤ squared kappa := by
  have h1 : kappa c ^ 2 + kappa c' ^ 2 ≤ squared kappa := by
    unfold squared
    rw [← Finset.sum_pair (f := fun c => kappa c ^ 2) h]
    exact Finset.sum_le_sum_of_subset_of_nonneg (Finset.subset_univ _) fun i _ _ => sq_nonneg _
  rw [← sq_abs, ← sq_abs (kappa c')] at h1
  nlinarith [sq_nonneg (|kappa c| - |kappa c'|)]

theorem abs_le_one_add (kappa : Point) (c : Fin 3) : |kappa c| ≤ 1 + squared kappa := by
  have h1 := sq_le_squared kappa c
  rw [← sq_abs] at h1
  nlinarith [sq_nonneg (|kappa c| - 1), abs_nonneg (kappa c)]

/-! ### Derivatives of series -/

/-- A series of waves. -/
noncomputable def sum {J : Type} (k : J → Point) (a : J → ℂ) (r : Point) : ℂ := ∑' j, a j * wave (k j) r

theorem summable_wave {J : Type} {k : J → Point} {a : J → ℂ} (h : Summable fun j => ‖a j‖) (r : Point) : Summable fun j => a j * wave (k j) r :=
  Summable.of_norm (by simpa only [norm_mul, norm_wave, mul_one] using h)

theorem partialDeriv_sum {J : Type} {k : J → Point} {a : J → ℂ} (c : Fin 3) (h0 : Summable fun j => ‖a j‖) (h1 : Summable fun j => |k j c| * ‖a j‖) :
    partialDeriv c (sum k a) = sum k fun j => I * (k j c : ℂ) * a j := by
  funext r
  have h := hasDerivAt_tsum (𝕜 := ℝ) (g := fun j t => a j * wave (k j) (Function.update r c t)) (g' := fun j t => a j * (I * (k j c : ℂ) * wave (k j) (Function.update r c t)))
    (u := fun j => |k j c| * ‖a j‖) (y₀ := 0) h1 (fun j t => (wave_hasDerivAt (k j) r c t).const_mul (a j)) (fun j t => by
      rw [norm_mul, norm_mul, norm_mul, norm_I, norm_wave, norm_real, Real.norm_eq_abs, one_mul, mul_one, mul_comm]) (summable_wave h0 _) (r c)
  unfold partialDeriv sum
  rw [h.deriv, Function.update_eq_self]
  exact tsum_congr fun j => by ring

theorem differentiable_sum {J : Type} {k : J → Point} {a : J → ℂ} (c : Fin 3) (h0 : Summable fun j => ‖a j‖) (h1 : Summable fun j => |k j c| * ‖a j‖) (r : Point) (t : ℝ) :
    DifferentiableAt ℝ (fun t => sum k a (Function.update r c t)) t :=
  (hasDerivAt_tsum (𝕜 := ℝ) (g := fun j t => a j * wave (k j) (Function.update r c t)) (g' := fun j t => a j * (I * (k j c : ℂ) * wave (k j) (Function.update r c t)))
    (u := fun j => |k j c| * ‖a j‖) (y₀ := 0) h1 (fun j t => (wave_hasDerivAt (k j) r c t).const_mul (a j)) (fun j t => by
      rw [norm_mul, norm_mul, norm_mul, norm_I, norm_wave, norm_real, Real.norm_eq_abs, one_mul, mul_one, mul_comm]) (summable_wave h0 _) t).differentiableAt

/-- The first derivatives of the function can be differentiated. -/
def Twice (f : Point → ℂ) : Prop := ∀ c c' r t, DifferentiableAt ℝ (fun t => partialDeriv c f (Function.update r c' t)) t

theorem partialDeriv_sub {f f' : Point → ℂ} {c c1 c2 : Fin 3} (h : Twice f) (h' : Twice f') (r : Point) :
    partialDeriv c (fun r => partialDeriv c1 f r - partialDeriv c2 f' r) r = partialDeriv c (partialDeriv c1 f) r - partialDeriv c (partialDeriv c2 f') r :=
  deriv_fun_sub (h c1 c r (r c)) (h' c2 c r (r c))

theorem curl_curl {F : Fin 3 → Point → ℂ} (h : ∀ c, Twice (F c)) (c : Fin 3) (r : Point) :
    curl (curl F) c r = ∑ b, (partialDeriv b (partialDeriv c (F b)) r - partialDeriv b (partialDeriv b (F c)) r) := by
  rw [Fin.sum_univ_three]
  fin_cases c
  · change partialDeriv 1 (fun r => partialDeriv 0 (F 1) r - partialDeriv 1 (F 0) r) r - partialDeriv 2 (fun r => partialDeriv 2 (F 0) r - partialDeriv 0 (F 2) r) r =
      partialDeriv 0 (partialDeriv 0 (F 0)) r - partialDeriv 0 (partialDeriv 0 (F 0)) r + (partialDeriv 1 (partialDeriv 0 (F 1)) r - partialDeriv 1 (partialDeriv 1 (F 0)) r) +
        (partialDeriv 2 (partialDeriv 0 (F 2)) r - partialDeriv 2 (partialDeriv 2 (F 0)) r)
    rw [partialDeriv_sub (h 1) (h 0), partialDeriv_sub (h 0) (h 2)]
    ring
  · change partialDeriv 2 (fun r => partialDeriv 1 (F 2) r - partialDeriv 2 (F 1) r) r - partialDeriv 0 (fun r => partialDeriv 0 (F 1) r - partialDeriv 1 (F 0) r) r =
      partialDeriv 0 (partialDeriv 1 (F 0)) r - partialDeriv 0 (partialDeriv 0 (F 1)) r + (partialDeriv 1 (partialDeriv 1 (F 1)) r - partialDeriv 1 (partialDeriv 1 (F 1)) r) +
        (partialDeriv 2 (partialDeriv 1 (F 2)) r - partialDeriv 2 (partialDeriv 2 (F 1)) r)
    rw [partialDeriv_sub (h 2) (h 1), partialDeriv_sub (h 1) (h 0)]
    ring
  · change partialDeriv 0 (fun r => partialDeriv 2 (F 0) r - partialDeriv 0 (F 2) r) r - partialDeriv 1 (fun r => partialDeriv 1 (F 2) r - partialDeriv 2 (F 1) r) r =
      partialDeriv 0 (partialDeriv 2 (F 0)) r - partialDeriv 0 (partialDeriv 0 (F 2)) r + (partialDeriv 1 (partialDeriv 2 (F 1)) r - partialDeriv 1 (partialDeriv 1 (F 2)) r) +
        (partialDeriv 2 (partialDeriv 2 (F 2)) r - partialDeriv 2 (partialDeriv 2 (F 2)) r)
    rw [partialDeriv_sub (h 0) (h 2), partialDeriv_sub (h 2) (h 1)]
    ring

section
variable {period : Fin d → ℝ} {f : Point → ℂ} {a : (Fin d → ℤ) → ℂ} (h : HasSeries period f a)
include h

theorem hasSeries_eq : f = sum (harmonic period) a := funext h.value

theorem summable_first (c : Fin 3) : Summable fun j => |harmonic period j c| * ‖a j‖ :=
  Summable.of_nonneg_of_le (fun _ => mul_nonneg (abs_nonneg _) (norm_nonneg _)) (fun j => by
    have h1 := mul_le_mul_of_nonneg_right (abs_le_one_add (harmonic period j) c) (norm_nonneg (a j))
    rwa [add_mul, one_mul] at h1) (h.summable.add h.second)

theorem summable_second (c c' : Fin 3) : Summable fun j => |harmonic period j c| * |harmonic period j c'| * ‖a j‖ :=
  Summable.of_nonneg_of_le (fun j => mul_nonneg (mul_nonneg (abs_nonneg _) (abs_nonneg _)) (norm_nonneg _))
    (fun j => mul_le_mul_of_nonneg_right (abs_mul_abs_le _ c c') (norm_nonneg _)) h.second

theorem hasSeries_partialDeriv (c : Fin 3) : partialDeriv c f = sum (harmonic period) fun j => I * (harmonic period j c : ℂ) * a j := by
  rw [hasSeries_eq h, partialDeriv_sum c h.summable (summable_first h c)]

omit h in
theorem norm_first (c : Fin 3) (j : Fin d → ℤ) : ‖I * (harmonic period j c : ℂ) * a j‖ = |harmonic period j c| * ‖a j‖ := by
  rw [norm_mul, norm_mul, norm_I, one_mul, norm_real, Real.norm_eq_abs]

theorem hasSeries_second (c c' : Fin 3) : partialDeriv c' (partialDeriv c f) = sum (harmonic period) fun j => -((harmonic period j c * harmonic period j c' : ℝ) : ℂ) * a j := by
  rw [hasSeries_partialDeriv h, partialDeriv_sum c' (by simpa only [norm_first c] using summable_first h c)
    (by simpa only [norm_first c, ← mul_assoc] using summable_second h c' c)]
  congr 1
  funext j
  push_cast
  linear_combination (harmonic period j c' * harmonic period j c * a j : ℂ) * I_mul_I

theorem hasSeries_first : HasFirstSeries period f a := ⟨h.value, h.summable, summable_first h⟩

theorem hasSeries_twice : Twice f := fun c c' r t => by
  rw [hasSeries_partialDeriv h]
  exact differentiable_sum c' (by simpa only [norm_first c] using summable_first h c) (by simpa only [norm_first c, ← mul_assoc] using summable_second h c' c) r t

end

/-! ### Samples -/

section
variable {g : Grid.Obj d ℝ} (hd : d ≤ 3) (hs : ∀ a, g.step a ≠ 0) (hN : ∀ a, 0 < g.shape a) {period : Fin d → ℝ} (hL : ∀ a, g.shape a * g.step a = period a)

/-- The frequency of the grid that has the same samples. -/
def folded (hN : ∀ a, 0 < g.shape a) (j : Fin d → ℤ) : Idx g.shape := fun a => ⟨(j a % (g.shape a : ℤ)).toNat, by
  have h1 := Int.emod_nonneg (j a) (show (g.shape a : ℤ) ≠ 0 by have := hN a; omega)
  have h2 := Int.emod_lt_of_pos (j a) (show 0 < (g.shape a : ℤ) by have := hN a; omega)
  omega⟩

include hs hL

/-- The number of the wave of the grid with the same samples. -/
theorem folded_number (j : Fin d → ℤ) (a : Fin d) :
    ∃ i M : ℤ, kOf g a (folded hN j) = 2 * Real.pi * i / period a ∧ j a = i + M * g.shape a ∧ -(g.shape a : ℤ) ≤ 2 * i ∧ 2 * i < g.shape a := by
  have hp := hN a
  have h1 := Int.emod_nonneg (j a) (show (g.shape a : ℤ) ≠ 0 by omega)
  have h2 := Int.emod_lt_of_pos (j a) (show 0 < (g.shape a : ℤ) by omega)
  have h3 := Int.emod_add_mul_ediv (j a) (g.shape a : ℤ)
  have hq : ((folded hN j a : ℕ) : ℤ) = j a % (g.shape a : ℤ) := by
    unfold folded
    simp only
    omega
  rw [C24_kOf g fun a _ => hs a, hL a]
  have hqr : ((folded hN j a : ℕ) : ℝ) = ((j a % (g.shape a : ℤ) : ℤ) : ℝ) := by
    rw [← hq]
    push_cast
    rfl
  generalize hz : j a % (g.shape a : ℤ) = z at *
  split_ifs with h4
  · refine ⟨z, j a / g.shape a, by rw [hqr]; ring, by linarith, by omega, by omega⟩
  · refine ⟨z - g.shape a, j a / g.shape a + 1, by rw [hqr]; push_cast; ring, by linarith, by omega, by omega⟩

theorem folded_sampled {j : Fin d → ℤ} (h : Sampled g.shape j) : waveVector g (folded hN j) = harmonic period j := by
  funext c
  unfold waveVector harmonic
  split_ifs with hc
  · obtain ⟨i, M, h1, h2, h3, h4⟩ := folded_number hs hN hL j ⟨c, hc⟩
    obtain ⟨h5, h6⟩ := h ⟨c, hc⟩
    have hp := hN ⟨c, hc⟩
    have hM : M = 0 := by
      rcases lt_trichotomy M 0 with hM | hM | hM
      · nlinarith
      · exact hM
      · nlinarith
    rw [h1]
    congr 3
    rw [h2, hM, zero_mul, add_zero]
  · rfl

theorem folded_abs_le (j : Fin d → ℤ) (c : Fin 3) : |waveVector g (folded hN j) c| ≤ |harmonic period j c| := by
  unfold waveVector harmonic
  split_ifs with hc
  · obtain ⟨i, M, h1, h2, h3, h4⟩ := folded_number hs hN hL j ⟨c, hc⟩
    have hp := hN ⟨c, hc⟩
    rw [h1, abs_div, abs_div, abs_mul, abs_mul (2 * Real.pi)]
    refine div_le_div_of_nonneg_right (mul_le_mul_of_nonneg_left ?_ (abs_nonneg _)) (abs_nonneg _)
    have : |i| ≤ |j ⟨c, hc⟩| := by
      rcases lt_trichotomy M 0 with hM | hM | hM
      · have h5 : M * (g.shape ⟨c, hc⟩ : ℤ) ≤ -(g.shape ⟨c, hc⟩ : ℤ) := by nlinarith
        rw [abs_le]
        have h6 : j ⟨c, hc⟩ ≤ 0 := by omega
        rw [abs_of_nonpos h6]
        constructor <;> omega
      · rw [h2, hM, zero_mul, add_zero]
      · have h5 : (g.shape ⟨c, hc⟩ : ℤ) ≤ M * (g.shape ⟨c, hc⟩ : ℤ) := by nlinarith
        rw [abs_le]
        have h6 : 0 ≤ j ⟨c, hc⟩ := by omega
        rw [abs_of_nonneg h6]
        constructor <;> omega
    exact_mod_cast this
  · simp

include hd

/-- The samples of a wave are those of a wave of the grid, up to a phase. -/
theorem wave_folded (j : Fin d → ℤ) : ∃ θ : ℂ, ‖θ‖ = 1 ∧ ∀ x r, AtSample g x r → wave (harmonic period j) r = θ * wave (waveVector g (folded hN j)) r := by
  choose i M h1 h2 h3 h4 using folded_number hs hN hL j
  refine ⟨exp (((∑ a, 2 * Real.pi * M a / g.step a * origin0 g a : ℝ) : ℂ) * I), norm_exp_ofReal_mul_I _, fun x r hr => ?_⟩
  have hr' : ∀ a : Fin d, ∃ z : ℤ, r (Fin.castLE hd a) = origin0 g a + (x a : ℕ) * g.step a + z * (g.shape a * g.step a) := by
    intro a
    obtain ⟨z, hz⟩ := coords_periodic g a (x a).isLt
    have h1 := hr (Fin.castLE hd a) a.isLt
    have h2 : (g.coords a)[(x a : ℕ)]? = some (r (Fin.castLE hd a)) := h1
    exact ⟨z, Option.some.inj (h2.symm.trans hz)⟩
  choose z hz using hr'
  have hsum : ∑ c, harmonic period j c * r c = ∑ a : Fin d, 2 * Real.pi * j a / period a * r (Fin.castLE hd a) := by
    refine (Fintype.sum_of_injective (Fin.castLE hd) (Fin.castLE_injective hd) _ _ (fun c hc => ?_) fun a => ?_).symm
    · unfold harmonic
      rw [dif_neg, zero_mul]
      exact fun h => hc ⟨⟨c, h⟩, rfl⟩
    · unfold harmonic
      rw [dif_pos (show ((Fin.castLE hd a : Fin 3) : ℕ) < d from a.isLt)]
      rfl
  unfold wave
  rw [hsum, wave_axes hd, ← exp_add, exp_eq_exp_iff_exists_int]
  refine ⟨∑ a, M a * ((x a : ℕ) + z a * (g.shape a : ℕ)), ?_⟩
  have e : ∑ a : Fin d, 2 * Real.pi * j a / period a * r (Fin.castLE hd a) = ∑ a, 2 * Real.pi * M a / g.step a * origin0 g a + ∑ a, kOf g a (folded hN j) * r (Fin.castLE hd a) +
      ((∑ a, M a * ((x a : ℕ) + z a * (g.shape a : ℕ)) : ℤ) : ℝ) * (2 * Real.pi) := by
    push_cast
    rw [Finset.sum_mul, ← Finset.sum_add_distrib, ← Finset.sum_add_distrib]
    refine Finset.sum_congr rfl fun a _ => ?_
    have h5 : (g.shape a : ℝ) ≠ 0 := by exact_mod_cast (hN a).ne'
    have h6 := hs a
    rw [h1 a, ← hL a, h2 a, hz a]
    push_cast
    field_simp
    ring
  rw [e]
  push_cast
  ring

/-! ### The interpolated samples -/

omit hd hs hL in
open Classical in
/-- A series of waves of the grid, from a series of all waves. -/
theorem series_folded {J : Type} (b : J → ℂ) (hb : Summable fun j => ‖b j‖) (f : J → Idx g.shape) (w : Idx g.shape → ℂ) (r : Point) :
    series g (fun q => w q * ∑' j, if f j = q then b j else 0) r = ∑' j, w (f j) * b j * wave (waveVector g (f j)) r := by
  unfold series
  have hsum : ∀ q, Summable fun j => if f j = q then b j else 0 := fun q => Summable.of_norm_bounded hb fun j => by
    split_ifs
    · exact le_rfl
    · rw [norm_zero]
      exact norm_nonneg _
  calc ∑ q, w q * (∑' j, if f j = q then b j else 0) * wave (waveVector g q) r = ∑ q, ∑' j, w q * wave (waveVector g q) r * (if f j = q then b j else 0) := by
        refine Finset.sum_congr rfl fun q _ => ?_
        rw [tsum_mul_left]
        ring
    _ = ∑' j, ∑ q, w q * wave (waveVector g q) r * (if f j = q then b j else 0) := (Summable.tsum_finsetSum fun q _ => (hsum q).mul_left _).symm
    _ = _ := tsum_congr fun j => by
        rw [Finset.sum_eq_single (f j) (fun q _ hq => by rw [if_neg (Ne.symm hq), mul_zero]) fun h => absurd (Finset.mem_univ _) h, if_pos rfl]
        ring

variable {f : Point → ℂ} {a : (Fin d → ℤ) → ℂ}

include hN in
open Classical in
/-- The coefficients of the function that interpolates the samples, and all its weighted sums at the samples. -/
theorem exists_folded (h : HasFirstSeries period f a) : ∃ θ : (Fin d → ℤ) → ℂ, (∀ j, ‖θ j‖ = 1) ∧ (∀ j x r, AtSample g x r → wave (harmonic period j) r = θ j * wave (waveVector g (folded hN j)) r) ∧
    ∀ s : Idx g.shape → ℂ, SampledFrom g f s → Interpolates g (series g fun q => ∑' j, if folded hN j = q then θ j * a j else 0) s := by
  choose θ h1 h2 using wave_folded hd hs hN hL
  refine ⟨θ, h1, h2, fun s hsf => ⟨(bandLimited_iff hs hd _).2 ⟨_, rfl⟩, fun x r hr => ?_⟩⟩
  have h3 := series_folded (fun j => θ j * a j) (by simpa only [norm_mul, h1, one_mul] using h.summable) (folded hN) (fun _ => 1) r
  simp only [one_mul] at h3
  rw [h3, hsf x r hr, h.value r]
  refine tsum_congr fun j => ?_
  rw [h2 j x r hr]
  ring

open Classical in
/-- The sum over the terms that vary too quickly. -/
noncomputable def tail (N : Fin d → ℕ) (w : (Fin d → ℤ) → ℝ) : ℝ := ∑' j, if Sampled N j then 0 else w j

omit hd hs hL in
theorem tail_summable {w : (Fin d → ℤ) → ℝ} (hw : Summable w) (N : Fin d → ℕ) : Summable (fun j => open Classical in if Sampled N j then 0 else w j) := by
  refine Summable.of_norm_bounded hw.norm fun j => ?_
  split_ifs
  · rw [norm_zero]
    exact norm_nonneg _
  · exact le_rfl

include hN in
/-- **The first derivatives of the function, and of the function that interpolates its samples, differ by at most the terms that vary too quickly.** -/
theorem first_difference (h : HasFirstSeries period f a) {s : Idx g.shape → ℂ} (hsf : SampledFrom g f s) {F : Point → ℂ} (hF : Interpolates g F s) (c : Fin 3) {x : Idx g.shape} {r : Point}
    (hr : AtSample g x r) : ‖partialDeriv c F r - partialDeriv c f r‖ ≤ tail g.shape fun j => 2 * (|harmonic period j c| * ‖a j‖) := by
  classical
  obtain ⟨θ, h1, h2, h3⟩ := exists_folded hd hs hN hL h
  obtain rfl := Interpolates.unique hd hs hF (h3 s hsf)
  have e1 : partialDeriv c (series g fun q => ∑' j, if folded hN j = q then θ j * a j else 0) r =
      ∑' j, I * (waveVector g (folded hN j) c : ℂ) * a j * wave (harmonic period j) r := by
    rw [partialDeriv_series, series_folded (fun j => θ j * a j) (by simpa only [norm_mul, h1, one_mul] using h.summable) (folded hN) (fun q => I * (waveVector g q c : ℂ)) r]
    refine tsum_congr fun j => ?_
    rw [h2 j x r hr]
    ring
  have hb := fun j => folded_abs_le hs hN hL j c
  have s1 : Summable fun j => I * (waveVector g (folded hN j) c : ℂ) * a j * wave (harmonic period j) r :=
    Summable.of_norm_bounded (h.first c) fun j => by
      rw [norm_mul, norm_mul, norm_mul, norm_I, one_mul, norm_real, Real.norm_eq_abs, norm_wave, mul_one]
      exact mul_le_mul_of_nonneg_right (hb j) (norm_nonneg _)
  have s2 : Summable fun j => I * (harmonic period j c : ℂ) * a j * wave (harmonic period j) r :=
    Summable.of_norm_bounded (h.first c) fun j => by
      rw [norm_mul, norm_mul, norm_mul, norm_I, one_mul, norm_real, Real.norm_eq_abs, norm_wave, mul_one]
  rw [e1, show f = sum (harmonic period) a from funext h.value, partialDeriv_sum c h.summable (h.first c)]
  unfold sum
  rw [← s1.tsum_sub s2]
  refine tsum_of_norm_bounded (tail_summable ((h.first c).mul_left 2) g.shape).hasSum fun j => ?_
  rw [← sub_mul, ← sub_mul, ← mul_sub, norm_mul, norm_mul, norm_mul, norm_I, one_mul, norm_wave, mul_one]
  split_ifs with hj
  · rw [folded_sampled hs hN hL hj, sub_self, norm_zero, zero_mul]
  · rw [← mul_assoc]
    refine mul_le_mul_of_nonneg_right ?_ (norm_nonneg _)
    refine (norm_sub_le _ _).trans ?_
    rw [norm_real, norm_real, Real.norm_eq_abs, Real.norm_eq_abs]
    linarith [hb j]

variable (h : HasSeries period f a)

include hN h in
/-- **The second derivatives of the function, and of the function that interpolates its samples, differ by at most the terms that vary too quickly.** -/
theorem second_difference {s : Idx g.shape → ℂ} (hsf : SampledFrom g f s) {F : Point → ℂ} (hF : Interpolates g F s) (c c' : Fin 3) {x : Idx g.shape} {r : Point} (hr : AtSample g x r) :
    ‖partialDeriv c' (partialDeriv c F) r - partialDeriv c' (partialDeriv c f) r‖ ≤ tail g.shape fun j => 2 * (|harmonic period j c| * |harmonic period j c'|) * ‖a j‖ := by
  classical
  obtain ⟨θ, h1, h2, h3⟩ := exists_folded hd hs hN hL (hasSeries_first h)
  obtain rfl := Interpolates.unique hd hs hF (h3 s hsf)
  have e1 : partialDeriv c' (partialDeriv c (series g fun q => ∑' j, if folded hN j = q then θ j * a j else 0)) r =
      ∑' j, -((waveVector g (folded hN j) c * waveVector g (folded hN j) c' : ℝ) : ℂ) * a j * wave (harmonic period j) r := by
    rw [partialDeriv_series, partialDeriv_series]
    have h4 := series_folded (fun j => θ j * a j) (by simpa only [norm_mul, h1, one_mul] using h.summable) (folded hN) (fun q => -((waveVector g q c * waveVector g q c' : ℝ) : ℂ)) r
    rw [show (fun q => I * (waveVector g q c' : ℂ) * (I * (waveVector g q c : ℂ) * ∑' j, if folded hN j = q then θ j * a j else 0)) =
      fun q => -((waveVector g q c * waveVector g q c' : ℝ) : ℂ) * ∑' j, if folded hN j = q then θ j * a j else 0 from funext fun q => by
        push_cast
        linear_combination (waveVector g q c' * waveVector g q c * ∑' j, if folded hN j = q then θ j * a j else 0 : ℂ) * I_mul_I, h4]
    refine tsum_congr fun j => ?_
    rw [h2 j x r hr]
    ring
  have hb : ∀ j, |waveVector g (folded hN j) c * waveVector g (folded hN j) c'| ≤ |harmonic period j c| * |harmonic period j c'| := fun j => by
    rw [abs_mul]
    exact mul_le_mul (folded_abs_le hs hN hL j c) (folded_abs_le hs hN hL j c') (abs_nonneg _) (abs_nonneg _)
  have s1 : Summable fun j => -((waveVector g (folded hN j) c * waveVector g (folded hN j) c' : ℝ) : ℂ) * a j * wave (harmonic period j) r :=
    Summable.of_norm_bounded (summable_second h c c') fun j => by
      rw [norm_mul, norm_mul, norm_neg, norm_real, Real.norm_eq_abs, norm_wave, mul_one]
      exact mul_le_mul_of_nonneg_right (hb j) (norm_nonneg _)
  have s2 : Summable fun j => -((harmonic period j c * harmonic period j c' : ℝ) : ℂ) * a j * wave (harmonic period j) r :=
    Summable.of_norm_bounded (summable_second h c c') fun j => by
      rw [norm_mul, norm_mul, norm_neg, norm_real, Real.norm_eq_abs, norm_wave, mul_one, abs_mul]
  rw [e1, hasSeries_second h]
  unfold sum
  rw [← s1.tsum_sub s2]
  have s3 := tail_summable (w := fun j => 2 * (|harmonic period j c| * |harmonic period j c'|) * ‖a j‖) (by simpa only [mul_assoc] using (summable_second h c c').mul_left 2) g.shape
  refine tsum_of_norm_bounded s3.hasSum fun j => ?_
  rw [← sub_mul, ← sub_mul, norm_mul, norm_mul, norm_wave, mul_one]
  split_ifs with hj
  · rw [folded_sampled hs hN hL hj, sub_self, norm_zero, zero_mul]
  · refine mul_le_mul_of_nonneg_right ?_ (norm_nonneg _)
    refine (norm_sub_le _ _).trans ?_
    rw [norm_neg, norm_neg, norm_real, norm_real, Real.norm_eq_abs, Real.norm_eq_abs, abs_mul (harmonic period j c)]
    linarith [hb j]

omit hL in
theorem interpolates_twice {F : Point → ℂ} {s : Idx g.shape → ℂ} (hF : Interpolates g F s) : Twice F := fun c c' r t =>
  (C123_smooth hd hs (C123_smooth hd hs hF.1 c).2.1 c').1 r t

end

/-! ### Remainders -/

theorem tail_nonneg {w : (Fin d → ℤ) → ℝ} (hw : ∀ j, 0 ≤ w j) (N : Fin d → ℕ) : 0 ≤ tail N w := tsum_nonneg fun j => by
  split_ifs
  · exact le_rfl
  · exact hw j

theorem tail_mono {w w' : (Fin d → ℤ) → ℝ} (hw : Summable w) (hw' : Summable w') (h : ∀ j, w j ≤ w' j) (N : Fin d → ℕ) : tail N w ≤ tail N w' :=
  (tail_summable hw N).tsum_le_tsum (fun j => by
    split_ifs
    · exact le_rfl
    · exact h j) (tail_summable hw' N)

theorem tail_sum {ι : Type} (t : Finset ι) {w : ι → (Fin d → ℤ) → ℝ} (hw : ∀ i, Summable (w i)) (N : Fin d → ℕ) : tail N (fun j => ∑ i ∈ t, w i j) = ∑ i ∈ t, tail N (w i) := by
  unfold tail
  rw [← Summable.tsum_finsetSum fun i _ => tail_summable (hw i) N]
  refine tsum_congr fun j => ?_
  split_ifs
  · rw [Finset.sum_const_zero]
  · rfl

theorem tail_mul (z : ℝ) (w : (Fin d → ℤ) → ℝ) (N : Fin d → ℕ) : tail N (fun j => z * w j) = z * tail N w := by
  unfold tail
  rw [← tsum_mul_left]
  refine tsum_congr fun j => ?_
  split_ifs
  · rw [mul_zero]
  · rfl

theorem remainder_eq (N : Fin d → ℕ) (period : Fin d → ℝ) (a : (Fin d → ℤ) → ℂ) : remainder N period a = tail N fun j => squared (harmonic period j) * ‖a j‖ := rfl

theorem remainder_nonneg (N : Fin d → ℕ) (period : Fin d → ℝ) (a : (Fin d → ℤ) → ℂ) : 0 ≤ remainder N period a := tail_nonneg (fun _ => mul_nonneg (squared_nonneg _) (norm_nonneg _)) N

/-- With enough samples, what remains of a series that converges is as small as one likes. -/
theorem tail_small {w : (Fin d → ℤ) → ℝ} (hw : Summable w) (h0 : ∀ j, 0 ≤ w j) {ε : ℝ} (hε : 0 < ε) : ∃ M : ℕ, ∀ N : Fin d → ℕ, (∀ b, M ≤ N b) → tail N w < ε := by
  have h1 := tendsto_tsum_compl_atTop_zero w
  obtain ⟨t, ht⟩ := ((h1.eventually (gt_mem_nhds hε))).exists
  refine ⟨∑ j ∈ t, ∑ b, (2 * (j b).natAbs + 1), fun N hN => lt_of_le_of_lt ?_ ht⟩
  refine le_trans ?_ (tsum_subtype {j | j ∉ t} w).symm.le
  refine (tail_summable hw N).tsum_le_tsum (fun j => ?_) (hw.indicator _)
  by_cases hj : j ∈ t
  · rw [if_pos, Set.indicator_of_notMem (by simpa using hj)]
    intro b
    have h2 : 2 * (j b).natAbs + 1 ≤ N b :=
      ((Finset.single_le_sum (f := fun b => 2 * (j b).natAbs + 1) (fun _ _ => Nat.zero_le _) (Finset.mem_univ b)).trans
        (Finset.single_le_sum (f := fun j : Fin d → ℤ => ∑ b, (2 * (j b).natAbs + 1)) (fun _ _ => Nat.zero_le _) hj)).trans (hN b)
    omega
  · rw [Set.indicator_of_mem (by simpa using hj)]
    split_ifs
    · exact h0 j
    · exact le_rfl

end Verif.Refinement
