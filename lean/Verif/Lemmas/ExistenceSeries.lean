import Verif.Lemmas.Galerkin
import Verif.Spec.Existence
import Mathlib.Analysis.PSeries
import Mathlib.Analysis.Matrix.Hermitian
import Mathlib.Algebra.Order.Chebyshev
import Mathlib.Analysis.Normed.Ring.InfiniteSum

/-!
# From the coefficients to functions of the position (for property C130)
-/

namespace Verif.Existence

open Verif Verif.Refinement Verif.Spec.Continuous Verif.Spec.Refinement Verif.Spec.Existence Complex Filter Topology Matrix

variable {d : ℕ} {ι : Type} [Fintype ι]

/-! ### Square sums of derivatives, and absolute sums -/

theorem summable_inv_one_add_sq : Summable fun i : ℤ => (1 + (i : ℝ) ^ 2)⁻¹ := by
  have h1 : Summable fun i : ℤ => 1 / (i : ℝ) ^ 2 := Real.summable_one_div_int_pow.2 one_lt_two
  have h2 : Summable fun i : ℤ => (Pi.single (0 : ℤ) (1 : ℝ) : ℤ → ℝ) i := summable_of_ne_finset_zero (s := {0}) fun i hi => Pi.single_eq_of_ne (by simpa using hi) _
  refine Summable.of_nonneg_of_le (fun i => by positivity) (fun i => ?_) (h1.add h2)
  by_cases hi : i = 0
  · subst hi
    simp
  · have h3 : (0 : ℝ) < (i : ℝ) ^ 2 := by positivity
    rw [Pi.single_eq_of_ne hi, add_zero, one_div]
    exact inv_anti₀ h3 (by linarith)

theorem summable_prod_inv : Summable fun j : Fin d → ℤ => ∏ a, (1 + (j a : ℝ) ^ 2)⁻¹ := by
  classical
  refine summable_of_sum_le (c := ∏ _a : Fin d, ∑' i : ℤ, (1 + (i : ℝ) ^ 2)⁻¹) (fun j => Finset.prod_nonneg fun a _ => by positivity) fun u => ?_
  have h1 : u ⊆ Fintype.piFinset fun a => u.image fun j => j a := fun j hj => Fintype.mem_piFinset.2 fun a => Finset.mem_image_of_mem _ hj
  refine (Finset.sum_le_sum_of_subset_of_nonneg h1 fun j _ _ => Finset.prod_nonneg fun a _ => by positivity).trans ?_
  rw [← Finset.prod_univ_sum (fun a => u.image fun j : Fin d → ℤ => j a) fun _ (i : ℤ) => (1 + (i : ℝ) ^ 2)⁻¹]
  exact Finset.prod_le_prod (fun a _ => Finset.sum_nonneg fun i _ => by positivity) fun a _ => summable_inv_one_add_sq.sum_le_tsum _ fun i _ => by positivity

theorem prod_le (hd : d ≤ 3) {period : Fin d → ℝ} (hper : ∀ b, period b ≠ 0) (j : Fin d → ℤ) :
    ∏ a, (1 + (j a : ℝ) ^ 2) ≤ (∏ a, (1 + (period a / (2 * Real.pi)) ^ 2)) * (1 + squared (harmonic period j)) ^ 3 := by
  have hq := squared_nonneg (harmonic period j)
  calc ∏ a, (1 + (j a : ℝ) ^ 2) ≤ ∏ a, ((1 + (period a / (2 * Real.pi)) ^ 2) * (1 + squared (harmonic period j))) := by
        refine Finset.prod_le_prod (fun a _ => by positivity) fun a _ => ?_
        have h1 := sq_le_squared (harmonic period j) (Fin.castLE hd a)
        have h2 : harmonic period j (Fin.castLE hd a) = 2 * Real.pi * j a / period a := by
          unfold harmonic
          rw [dif_pos (show ((Fin.castLE hd a : Fin 3) : ℕ) < d from a.isLt)]
          rfl
        rw [h2] at h1
        have h3 : (j a : ℝ) ^ 2 = (period a / (2 * Real.pi)) ^ 2 * (2 * Real.pi * j a / period a) ^ 2 := by
          have := hper a
          field_simp
        have h4 := mul_le_mul_of_nonneg_left h1 (sq_nonneg (period a / (2 * Real.pi)))
        rw [← h3] at h4
        nlinarith [sq_nonneg (period a / (2 * Real.pi))]
    _ = (∏ a, (1 + (period a / (2 * Real.pi)) ^ 2)) * (1 + squared (harmonic period j)) ^ d := by
        rw [Finset.prod_mul_distrib, Finset.prod_const, Finset.card_univ, Fintype.card_fin]
    _ ≤ _ := mul_le_mul_of_nonneg_left (pow_le_pow_right₀ (by linarith) hd) (Finset.prod_nonneg fun a _ => by positivity)

theorem one_add_squared_pow_le (kappa : Point) : (1 + squared kappa) ^ 5 ≤ 1296 * (1 + ∑ c, kappa c ^ 10) := by
  have hq := squared_nonneg kappa
  have h1 : (1 + squared kappa) ^ 5 ≤ 2 ^ 4 * (1 ^ 5 + squared kappa ^ 5) := add_pow_le zero_le_one hq 5
  have h2 := pow_sum_div_card_le_sum_pow (s := (Finset.univ : Finset (Fin 3))) (f := fun c => kappa c ^ 2) (fun c _ => sq_nonneg _) 4
  rw [div_le_iff₀ (by simp)] at h2
  simp only [← pow_mul, Finset.card_univ, Fintype.card_fin] at h2
  have h3 : squared kappa ^ 5 ≤ 81 * ∑ c, kappa c ^ 10 := by
    unfold squared
    norm_num at h2 ⊢
    linarith
  linarith

theorem young {V t : ℝ} (hV : 0 < V) : t ≤ V⁻¹ + V * t ^ 2 := by
  have h8 : 0 ≤ V⁻¹ * (V * t - 1) ^ 2 := mul_nonneg (inv_nonneg.2 hV.le) (sq_nonneg _)
  have h9 : V⁻¹ * (V * t - 1) ^ 2 = V * t ^ 2 - 2 * t + V⁻¹ := by
    field_simp
    ring
  have h10 : 0 ≤ V * t ^ 2 + V⁻¹ := by positivity
  linarith

theorem weights_eq (kappa : Point) (z : ℂ) : ‖z‖ ^ 2 + ∑ c : Fin 3, ‖(kappa c : ℂ) ^ 5 * z‖ ^ 2 = (1 + ∑ c, kappa c ^ 10) * ‖z‖ ^ 2 := by
  rw [add_mul, one_mul, Finset.sum_mul]
  congr 1
  refine Finset.sum_congr rfl fun c _ => ?_
  rw [norm_mul, norm_pow, norm_real, Real.norm_eq_abs, mul_pow, ← pow_mul, show 5 * 2 = 2 * 5 from rfl, pow_mul, sq_abs, ← pow_mul]

theorem summable_square {C : ℝ} {y : (Fin d → ℤ) → ι → ℂ} (h : ∀ F, size F y ≤ C) (e : ι) : Summable fun j => ‖y j e‖ ^ 2 := by
  refine summable_of_sum_le (c := C ^ 2) (fun j => sq_nonneg _) fun F => ?_
  refine le_trans ?_ (pow_le_pow_left₀ (size_nonneg F y) (h F) 2)
  rw [size_sq]
  exact Finset.sum_le_sum fun j _ => Finset.single_le_sum (f := fun e => ‖y j e‖ ^ 2) (fun _ _ => sq_nonneg _) (Finset.mem_univ e)

theorem summable_of_bounded (hd : d ≤ 3) {period : Fin d → ℝ} (hper : ∀ b, period b ≠ 0) {x : (Fin d → ℤ) → ι → ℂ}
    (hx : ∀ c : Fin 3, ∀ p ≤ 5, ∃ C, ∀ F, size F (fun j e => (harmonic period j c : ℂ) ^ p * x j e) ≤ C) (e : ι) : Summable fun j => (1 + squared (harmonic period j)) * ‖x j e‖ := by
  obtain ⟨C0, h0⟩ := hx 0 0 (by norm_num)
  choose C hC using fun c => hx c 5 le_rfl
  simp only [pow_zero, one_mul] at h0
  set B : ℝ := ∏ a, (1 + (period a / (2 * Real.pi)) ^ 2) with hB
  have hB0 : 0 ≤ B := Finset.prod_nonneg fun a _ => by positivity
  have h5 : Summable fun j => ‖x j e‖ ^ 2 + ∑ c : Fin 3, ‖(harmonic period j c : ℂ) ^ 5 * x j e‖ ^ 2 := (summable_square h0 e).add (summable_sum fun c _ => summable_square (hC c) e)
  refine Summable.of_nonneg_of_le (fun j => mul_nonneg (add_nonneg zero_le_one (squared_nonneg _)) (norm_nonneg _)) (fun j => ?_) ((summable_prod_inv (d := d)).add (h5.mul_left (B * 1296)))
  set q := squared (harmonic period j) with hq
  have hq0 : 0 ≤ q := squared_nonneg _
  set V : ℝ := ∏ a, (1 + (j a : ℝ) ^ 2) with hV
  have hV0 : 0 < V := Finset.prod_pos fun a _ => by positivity
  have h6 : ∏ a, (1 + (j a : ℝ) ^ 2)⁻¹ = V⁻¹ := Finset.prod_inv_distrib _
  have h7 : V * ((1 + q) * ‖x j e‖) ^ 2 ≤ B * 1296 * (‖x j e‖ ^ 2 + ∑ c : Fin 3, ‖(harmonic period j c : ℂ) ^ 5 * x j e‖ ^ 2) := by
    rw [weights_eq]
    calc V * ((1 + q) * ‖x j e‖) ^ 2 ≤ B * (1 + q) ^ 3 * ((1 + q) * ‖x j e‖) ^ 2 := mul_le_mul_of_nonneg_right (prod_le hd hper j) (sq_nonneg _)
      _ = B * (1 + q) ^ 5 * ‖x j e‖ ^ 2 := by ring
      _ ≤ B * (1296 * (1 + ∑ c, harmonic period j c ^ 10)) * ‖x j e‖ ^ 2 :=
          mul_le_mul_of_nonneg_right (mul_le_mul_of_nonneg_left (one_add_squared_pow_le _) hB0) (sq_nonneg _)
      _ = _ := by ring
  rw [h6]
  exact (young hV0).trans (add_le_add_right h7 V⁻¹)

theorem pow_le_one_add {t : ℝ} (ht : 0 ≤ t) {p n : ℕ} (hp : p ≤ n) : t ^ p ≤ 1 + t ^ n := by
  rcases le_total t 1 with h | h
  · exact (pow_le_one₀ ht h).trans (le_add_of_nonneg_right (by positivity))
  · exact (pow_le_pow_right₀ h hp).trans (le_add_of_nonneg_left zero_le_one)

theorem pow_mul_pow_le {t u : ℝ} (ht : 0 ≤ t) (hu : 0 ≤ u) (p n : ℕ) : t ^ p * u ^ n ≤ t ^ (p + n) + u ^ (p + n) := by
  rcases le_total t u with h | h
  · calc t ^ p * u ^ n ≤ u ^ p * u ^ n := mul_le_mul_of_nonneg_right (pow_le_pow_left₀ ht h p) (by positivity)
      _ = u ^ (p + n) := (pow_add _ _ _).symm
      _ ≤ _ := le_add_of_nonneg_left (by positivity)
  · calc t ^ p * u ^ n ≤ t ^ p * t ^ n := mul_le_mul_of_nonneg_left (pow_le_pow_left₀ hu h n) (by positivity)
      _ = t ^ (p + n) := (pow_add _ _ _).symm
      _ ≤ _ := le_add_of_nonneg_right (by positivity)

/-- The derivatives of higher order of a field. -/
theorem summable_of_order (hd : d ≤ 3) {period : Fin d → ℝ} (hper : ∀ b, period b ≠ 0) {n : ℕ} {x : (Fin d → ℤ) → ι → ℂ}
    (hx : ∀ c : Fin 3, ∀ p ≤ n + 5, ∃ C, ∀ F, size F (fun j e => (harmonic period j c : ℂ) ^ p * x j e) ≤ C) (c : Fin 3) (e : ι) :
    Summable fun j => |harmonic period j c| ^ n * ((1 + squared (harmonic period j)) * ‖x j e‖) := by
  have h1 := summable_of_bounded hd hper (x := fun j e => (harmonic period j c : ℂ) ^ n * x j e) (fun c' p hp => by
    obtain ⟨C, hC⟩ := hx c' (p + n) (by omega)
    obtain ⟨C', hC'⟩ := hx c (p + n) (by omega)
    refine ⟨C + C', fun F => ?_⟩
    refine le_trans (size_le (y := fun j e => ((‖(harmonic period j c' : ℂ) ^ (p + n) * x j e‖ : ℝ) : ℂ) + ((‖(harmonic period j c : ℂ) ^ (p + n) * x j e‖ : ℝ) : ℂ)) fun j _ e => ?_)
      ((size_add_le F _ _).trans (add_le_add ((le_of_eq ?_).trans (hC F)) ((le_of_eq ?_).trans (hC' F))))
    · rw [← ofReal_add, norm_real, Real.norm_of_nonneg (by positivity)]
      simp only [norm_mul, norm_pow, norm_real, Real.norm_eq_abs]
      rw [← mul_assoc, ← add_mul]
      exact mul_le_mul_of_nonneg_right (pow_mul_pow_le (abs_nonneg _) (abs_nonneg _) p n) (norm_nonneg _)
    · exact le_antisymm (size_le fun j _ e => by rw [norm_real, norm_norm]) (size_le fun j _ e => by rw [norm_real, norm_norm])
    · exact le_antisymm (size_le fun j _ e => by rw [norm_real, norm_norm]) (size_le fun j _ e => by rw [norm_real, norm_norm])) e
  refine h1.congr fun j => ?_
  rw [norm_mul, norm_pow, norm_real, Real.norm_eq_abs]
  ring

theorem sizes_of_order {n : ℕ} {period : Fin d → ℝ} {s : (Fin d → ℤ) → ι → ℂ} (h0 : ∀ e, Summable fun j => ‖s j e‖) (h5 : ∀ e (c : Fin 3), Summable fun j => |harmonic period j c| ^ n * ‖s j e‖) (c : Fin 3) (p : ℕ)
    (hp : p ≤ n) : ∃ C, ∀ F, size F (fun j e => (harmonic period j c : ℂ) ^ p * s j e) ≤ C := by
  have h1 : ∀ e, Summable fun j => ‖(harmonic period j c : ℂ) ^ p * s j e‖ := fun e => Summable.of_nonneg_of_le (fun j => norm_nonneg _) (fun j => by
    rw [norm_mul, norm_pow, norm_real, Real.norm_eq_abs]
    have h3 := mul_le_mul_of_nonneg_right (pow_le_one_add (abs_nonneg (harmonic period j c)) hp) (norm_nonneg (s j e))
    rwa [add_mul, one_mul] at h3) ((h0 e).add (h5 e c))
  refine ⟨∑ e, ∑' j, ‖(harmonic period j c : ℂ) ^ p * s j e‖, fun F => ?_⟩
  have hT : 0 ≤ ∑ e, ∑' j, ‖(harmonic period j c : ℂ) ^ p * s j e‖ := Finset.sum_nonneg fun _ _ => tsum_nonneg fun _ => norm_nonneg _
  refine (pow_le_pow_iff_left₀ (size_nonneg _ _) hT two_ne_zero).1 ?_
  rw [size_sq, Finset.sum_comm]
  have h4 : ∀ e, ∑ j ∈ F, ‖(harmonic period j c : ℂ) ^ p * s j e‖ ^ 2 ≤ (∑' j, ‖(harmonic period j c : ℂ) ^ p * s j e‖) ^ 2 := fun e =>
    (Finset.sum_sq_le_sq_sum_of_nonneg fun j _ => norm_nonneg _).trans (pow_le_pow_left₀ (Finset.sum_nonneg fun _ _ => norm_nonneg _) ((h1 e).sum_le_tsum F fun _ _ => norm_nonneg _) 2)
  exact (Finset.sum_le_sum fun e _ => h4 e).trans (Finset.sum_sq_le_sq_sum_of_nonneg fun e _ => tsum_nonneg fun _ => norm_nonneg _)

/-! ### Products -/

theorem product_summable {m x : (Fin d → ℤ) → ℂ} (hm : Summable fun j => ‖m j‖) (hx : Summable fun j => ‖x j‖) : Summable fun z : (Fin d → ℤ) × (Fin d → ℤ) => ‖m (z.1 - z.2) * x z.2‖ := by
  have h1 := summable_mul_of_summable_norm (f := fun j => ‖m j‖) (g := fun j => ‖x j‖) (by simpa using hm) (by simpa using hx)
  let e : (Fin d → ℤ) × (Fin d → ℤ) ≃ (Fin d → ℤ) × (Fin d → ℤ) :=
    { toFun := fun z => (z.1 - z.2, z.2), invFun := fun z => (z.1 + z.2, z.2), left_inv := fun z => by simp, right_inv := fun z => by simp }
  refine (e.summable_iff.2 h1).congr fun z => ?_
  rw [norm_mul]
  rfl

theorem product_series {period : Fin d → ℝ} {m x : (Fin d → ℤ) → ℂ} (hm : Summable fun j => ‖m j‖) (hx : Summable fun j => ‖x j‖) (r : Point) :
    (∑' j, m j * wave (harmonic period j) r) * ∑' j, x j * wave (harmonic period j) r = ∑' j, (∑' l, m (j - l) * x l) * wave (harmonic period j) r := by
  have h0 : ∀ {y : (Fin d → ℤ) → ℂ}, (Summable fun j => ‖y j‖) → Summable fun j => ‖y j * wave (harmonic period j) r‖ := fun h => by simpa only [norm_mul, norm_wave, mul_one] using h
  rw [tsum_mul_tsum_of_summable_norm (h0 hm) (h0 hx)]
  let e : (Fin d → ℤ) × (Fin d → ℤ) ≃ (Fin d → ℤ) × (Fin d → ℤ) :=
    { toFun := fun z => (z.1 - z.2, z.2), invFun := fun z => (z.1 + z.2, z.2), left_inv := fun z => by simp, right_inv := fun z => by simp }
  rw [← e.tsum_eq]
  have h1 : ∀ z, m (e z).1 * wave (harmonic period (e z).1) r * (x (e z).2 * wave (harmonic period (e z).2) r) = m (z.1 - z.2) * x z.2 * wave (harmonic period z.1) r := by
    intro z
    change m (z.1 - z.2) * wave (harmonic period (z.1 - z.2)) r * (x z.2 * wave (harmonic period z.2) r) = _
    have : wave (harmonic period z.1) r = wave (harmonic period (z.1 - z.2)) r * wave (harmonic period z.2) r := by rw [← wave_add, ← harmonic_add, sub_add_cancel]
    rw [this]
    ring
  simp only [h1]
  have h2 : Summable fun z : (Fin d → ℤ) × (Fin d → ℤ) => m (z.1 - z.2) * x z.2 * wave (harmonic period z.1) r :=
    Summable.of_norm (by simpa only [norm_mul, norm_wave, mul_one] using product_summable hm hx)
  rw [h2.tsum_prod]
  refine tsum_congr fun j => ?_
  rw [← tsum_mul_right]

theorem product_outer {m x : (Fin d → ℤ) → ℂ} (hm : Summable fun j => ‖m j‖) (hx : Summable fun j => ‖x j‖) :
    (Summable fun j => ‖∑' l, m (j - l) * x l‖) ∧ ∀ j, Summable fun l => m (j - l) * x l := by
  have h := product_summable hm hx
  have h1 : ∀ j, Summable fun l => ‖m (j - l) * x l‖ := fun j => h.prod_factor j
  exact ⟨Summable.of_nonneg_of_le (fun j => norm_nonneg _) (fun j => norm_tsum_le_tsum_norm (h1 j)) h.prod, fun j => (h1 j).of_norm⟩

/-- The product of a material and a field. -/
theorem material_series {period : Fin d → ℝ} {A : Point → Matrix ι ι ℂ} {m : (Fin d → ℤ) → Matrix ι ι ℂ} (h : IsSeries period A m) {x : (Fin d → ℤ) → ι → ℂ} (hx : ∀ c, Summable fun j => ‖x j c‖) (r : Point)
    (c : ι) : (A r).mulVec (fun c => ∑' j, x j c * wave (harmonic period j) r) c = ∑' j, (∑' l, ∑ c', m (j - l) c c' * x l c') * wave (harmonic period j) r := by
  unfold Matrix.mulVec dotProduct
  have h1 : ∀ c', A r c c' * ∑' j, x j c' * wave (harmonic period j) r = ∑' j, (∑' l, m (j - l) c c' * x l c') * wave (harmonic period j) r := fun c' => by
    rw [(h c c').1, product_series (h c c').2 (hx c')]
  simp only [h1]
  rw [← Summable.tsum_finsetSum fun c' _ => summable_wave (product_outer (h c c').2 (hx c')).1 r]
  refine tsum_congr fun j => ?_
  rw [Summable.tsum_finsetSum fun c' _ => (product_outer (h c c').2 (hx c')).2 j, Finset.sum_mul]

theorem material_summable {period : Fin d → ℝ} {A : Point → Matrix ι ι ℂ} {m : (Fin d → ℤ) → Matrix ι ι ℂ} (h : IsSeries period A m) {x : (Fin d → ℤ) → ι → ℂ} (hx : ∀ c, Summable fun j => ‖x j c‖) (c : ι) :
    Summable fun j => ‖∑' l, ∑ c', m (j - l) c c' * x l c'‖ := by
  refine Summable.of_nonneg_of_le (fun j => norm_nonneg _) (fun j => ?_) (summable_sum fun c' (_ : c' ∈ Finset.univ) => (product_outer (h c c').2 (hx c')).1)
  rw [Summable.tsum_finsetSum fun c' _ => (product_outer (h c c').2 (hx c')).2 j]
  exact norm_sum_le _ _

/-! ### The solution of the equations for all coefficients -/

/-- For every material that absorbs and every source, both smooth. -/
theorem exists_fields {n : ℕ} (hd : d ≤ 3) {period : Fin d → ℝ} (hper : ∀ b, period b ≠ 0) {D : (Fin d → ℤ) → Matrix ι ι ℂ} (hD : ∀ j, (D j).IsHermitian) {A : Point → Matrix ι ι ℂ} {m : (Fin d → ℤ) → Matrix ι ι ℂ}
    (hA : ∀ c c', HasOrderSeries (n + 5) period (fun r => A r c c') fun j => m j c c') {δ : ℝ} (hδ : 0 < δ) (habs : ∀ r v, δ * ∑ c, ‖v c‖ ^ 2 ≤ (star v ⬝ᵥ (A r).mulVec v).im) {S : ι → Point → ℂ}
    {s : (Fin d → ℤ) → ι → ℂ} (hS : ∀ c, HasOrderSeries (n + 5) period (S c) fun j => s j c) :
    ∃ x : (Fin d → ℤ) → ι → ℂ, (∀ c, HasSeries period (fun r => ∑' j, x j c * wave (harmonic period j) r) fun j => x j c) ∧
      (∀ c b, Summable fun j => |harmonic period j b| ^ n * ((1 + squared (harmonic period j)) * ‖x j c‖)) ∧
      ∀ c r, (Summable fun j => (D j).mulVec (x j) c * wave (harmonic period j) r) ∧
        ∑' j, (D j).mulVec (x j) c * wave (harmonic period j) r - (A r).mulVec (fun c => ∑' j, x j c * wave (harmonic period j) r) c = S c r := by
  have hser : IsSeries period A m := fun c c' => ⟨(hA c c').value, (hA c c').summable⟩
  obtain ⟨x, h1, h2⟩ := exists_coefficients (D := D) (m := m) hδ (fun j v => (hD j).im_star_dotProduct_mulVec_self v) (form_absorbs hd hper hser habs) (s := s) (w := fun (c : Fin 3) j => harmonic period j c) (P := n + 5)
    (fun c j l => by rw [sub_eq_add_neg, harmonic_add, harmonic_neg, Pi.add_apply, Pi.neg_apply, sub_eq_add_neg])
    (fun c p hp e e' => Summable.of_nonneg_of_le (fun j => by positivity) (fun j => by
      have h3 := mul_le_mul_of_nonneg_right (pow_le_one_add (abs_nonneg (harmonic period j c)) hp) (norm_nonneg (m j e e'))
      rwa [add_mul, one_mul] at h3) ((hA e e').summable.add ((hA e e').highest c)))
    (sizes_of_order (fun e => (hS e).summable) fun e c => (hS e).highest c)
  have h3 := fun e => summable_of_bounded hd hper (fun c p hp => h2 c p (by omega)) e
  have h4 : ∀ e, Summable fun j => ‖x j e‖ := fun e => Summable.of_nonneg_of_le (fun j => norm_nonneg _) (fun j =>
    le_mul_of_one_le_left (norm_nonneg _) (le_add_of_nonneg_right (squared_nonneg _))) (h3 e)
  refine ⟨x, fun e => ⟨fun r => rfl, h4 e, Summable.of_nonneg_of_le (fun j => mul_nonneg (squared_nonneg _) (norm_nonneg _)) (fun j =>
    mul_le_mul_of_nonneg_right (le_add_of_nonneg_left zero_le_one) (norm_nonneg _)) (h3 e)⟩, fun e c => summable_of_order hd hper h2 c e, fun c r => ?_⟩
  have h5 : ∀ j, (D j).mulVec (x j) c = s j c + ∑' l, ∑ c', m (j - l) c c' * x l c' := fun j => by rw [← h1 j c, sub_add_cancel]
  have h6 := summable_wave (k := harmonic period) (hS c).summable r
  have h7 := summable_wave (k := harmonic period) (material_summable hser h4 c) r
  constructor
  · refine (h6.add h7).congr fun j => ?_
    rw [h5, add_mul]
  · rw [material_series hser h4, (hS c).value]
    simp only [h5, add_mul]
    rw [h6.tsum_add h7, add_sub_cancel_right]

end Verif.Existence
