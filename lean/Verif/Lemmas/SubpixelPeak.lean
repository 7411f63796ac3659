import Verif.Props.Subpixel
import Verif.Spec.Modes

/-!
# The peak of the cross correlation
-/

namespace Verif.Subpixel

open Verif.Fourier Verif.Backend Verif.Spec.Subpixel Complex

variable {d : ℕ} {N : Fin d → ℕ}

theorem argmax_max (hN : ∀ a, 0 < N a) (f : Idx N → ℝ) (y : Idx N) : f y ≤ f (argmax hN f) :=
  (Finset.mem_filter.1 (Finset.min'_mem (Finset.univ.filter fun x : Lex (Idx N) => ∀ y, f y ≤ f (ofLex x)) _)).2 y

theorem argmax_first (hN : ∀ a, 0 < N a) (f : Idx N → ℝ) (y : Idx N) (h : Spec.Modes.RasterLT (fun a => (y a : ℕ)) fun a => (argmax hN f a : ℕ)) : f y < f (argmax hN f) := by
  refine lt_of_le_of_ne (argmax_max hN f y) fun he => ?_
  have hy : toLex y ∈ Finset.univ.filter fun x : Lex (Idx N) => ∀ y, f y ≤ f (ofLex x) :=
    Finset.mem_filter.2 ⟨Finset.mem_univ _, fun z => (argmax_max hN f z).trans he.ge⟩
  have h1 := Finset.min'_le _ _ hy
  obtain ⟨a, h2, h3⟩ := h
  exact absurd h1 (not_le.2 ⟨a, fun b hb => Fin.ext (h2 b hb), h3⟩)

theorem interpolate_eq (X : Idx N → ℂ) (s : Fin d → ℝ) : interpolate X s = (∑ k, X k * phase (-s) k) / ∏ a, (N a : ℂ) := by
  unfold interpolate phase
  congr 1
  refine Finset.sum_congr rfl fun k _ => ?_
  rw [show (∑ a, cycles (N a) (k a) * (-s) a / N a : ℝ) = -∑ a, cycles (N a) (k a) * s a / N a by
    rw [← Finset.sum_neg_distrib]; exact Finset.sum_congr rfl fun a _ => by simp only [Pi.neg_apply]; ring]
  congr 2
  push_cast
  ring

theorem phase_period (hN : ∀ a, 0 < N a) (m : Fin d → ℤ) (k : Idx N) : phase (fun a => (N a : ℝ) * m a) k = 1 := by
  rw [phase_prod]
  refine Finset.prod_eq_one fun a _ => ?_
  have hn : (N a : ℝ) ≠ 0 := by exact_mod_cast (hN a).ne'
  rw [show (cycles (N a) (k a) * ((N a : ℝ) * m a) / N a : ℝ) = ((cycles (N a) (k a) * m a : ℤ) : ℝ) by push_cast; field_simp]
  rw [show -(2 * Real.pi * I * (((cycles (N a) (k a) * m a : ℤ) : ℝ) : ℂ)) = ((-(cycles (N a) (k a) * m a) : ℤ) : ℂ) * (2 * Real.pi * I) by push_cast; ring]
  exact exp_int_mul_two_pi_mul_I _

theorem interpolate_period (hN : ∀ a, 0 < N a) (X : Idx N → ℂ) (s t : Fin d → ℝ) (m : Fin d → ℤ) (h : ∀ a, s a = t a + N a * m a) : interpolate X s = interpolate X t := by
  rw [interpolate_eq, interpolate_eq]
  congr 1
  refine Finset.sum_congr rfl fun k _ => ?_
  have e : -s = -t + fun a => (N a : ℝ) * ((-m a : ℤ) : ℝ) := funext fun a => by simp only [Pi.neg_apply, Pi.add_apply, h a]; push_cast; ring
  rw [e, phase_add, phase_period hN, mul_one]

theorem ift_eq_interpolate (X : Idx N → ℂ) (x : Idx N) : ift X x = interpolate X fun a => (x a : ℕ) := by
  have h := C59_exact (ift X) (fun _ => 0) x
  rw [C59_zero, C23_ft_ift, effective_zero] at h
  simpa using h

/-! ### Half pixels -/

/-- The position of component `k` in the array that is sampled twice as densely. -/
def position (k : Idx N) : Idx (doubled N) := fun a => ⟨if 2 * (k a : ℕ) < N a then k a else k a + N a, by have := (k a).isLt; unfold doubled; split_ifs <;> omega⟩

theorem position_val (k : Idx N) (a : Fin d) : ((position k a : ℕ) : ℤ) = if 2 * (k a : ℕ) < N a then (k a : ℤ) else (k a : ℤ) + N a := by
  show (((if 2 * (k a : ℕ) < N a then (k a : ℕ) else k a + N a : ℕ)) : ℤ) = _
  split_ifs <;> push_cast <;> rfl

theorem position_injective : Function.Injective (position (N := N)) := by
  intro k l h
  funext a
  have h1 := congrArg (fun z : Idx (doubled N) => ((z a : ℕ) : ℤ)) h
  simp only [position_val] at h1
  have := (k a).isLt
  have := (l a).isLt
  apply Fin.ext
  split_ifs at h1 <;> omega

theorem shifted_position (k : Idx N) (a : Fin d) : ((position k a : ℕ) + doubled N a / 2) % doubled N a = if 2 * (k a : ℕ) < N a then (k a : ℕ) + N a else k a := by
  have h1 := position_val k a
  have := (k a).isLt
  have e : doubled N a / 2 = N a := by unfold doubled; omega
  rw [e]
  split_ifs at h1 ⊢ with h
  · rw [Nat.mod_eq_of_lt (by unfold doubled; omega)]; omega
  · rw [Nat.mod_eq_sub_mod (by unfold doubled; omega), Nat.mod_eq_of_lt (by unfold doubled; omega)]; unfold doubled; omega

theorem padded_position (X : Idx N → ℂ) (k : Idx N) : ifftshift (padded X) (position k) = X k := by
  unfold ifftshift padded
  have hr : ∀ a, doubled N a / 2 - N a / 2 ≤ ((position k a : ℕ) + doubled N a / 2) % doubled N a ∧
      ((position k a : ℕ) + doubled N a / 2) % doubled N a < doubled N a / 2 - N a / 2 + N a := fun a => by
    rw [shifted_position]
    have := (k a).isLt
    unfold doubled
    split_ifs <;> omega
  rw [dif_pos hr]
  unfold fftshift
  congr 1
  funext a
  apply Fin.ext
  show (((position k a : ℕ) + doubled N a / 2) % doubled N a - (doubled N a / 2 - N a / 2) + (N a - N a / 2)) % N a = k a
  rw [shifted_position]
  have := (k a).isLt
  have e : doubled N a / 2 = N a := by unfold doubled; omega
  rw [e]
  split_ifs
  · have : (k a : ℕ) + N a - (N a - N a / 2) + (N a - N a / 2) = (k a : ℕ) + N a := by omega
    rw [this, Nat.add_mod_right, Nat.mod_eq_of_lt (k a).isLt]
  · have : (k a : ℕ) - (N a - N a / 2) + (N a - N a / 2) = (k a : ℕ) := by omega
    rw [this, Nat.mod_eq_of_lt (k a).isLt]

theorem padded_other (X : Idx N → ℂ) (v : Idx (doubled N)) (hv : v ∉ Set.range (position (N := N))) : ifftshift (padded X) v = 0 := by
  unfold ifftshift padded
  refine dif_neg fun h => hv ?_
  have hN : ∀ a, 0 < N a := fun a => by have := (v a).isLt; unfold doubled at this; omega
  have hlt : ∀ a, (if (v a : ℕ) < N a then (v a : ℕ) else v a - N a) < N a := fun a => by
    have := (v a).isLt
    unfold doubled at this
    split_ifs <;> omega
  refine ⟨fun a => ⟨_, hlt a⟩, funext fun a => Fin.ext ?_⟩
  have h1 : doubled N a / 2 - N a / 2 ≤ ((v a : ℕ) + doubled N a / 2) % doubled N a ∧ ((v a : ℕ) + doubled N a / 2) % doubled N a < doubled N a / 2 - N a / 2 + N a := h a
  have h2 := position_val (N := N) (fun a => ⟨_, hlt a⟩) a
  have hva := (v a).isLt
  have e : doubled N a / 2 = N a := by unfold doubled; omega
  have e2 : doubled N a = 2 * N a := rfl
  rw [e] at h1
  change N a - N a / 2 ≤ ((v a : ℕ) + N a) % (2 * N a) ∧ ((v a : ℕ) + N a) % (2 * N a) < N a - N a / 2 + N a at h1
  change (v a : ℕ) < 2 * N a at hva
  have hN' := hN a
  apply Int.ofNat_inj.1
  rw [h2]
  dsimp only
  by_cases hc : (v a : ℕ) < N a
  · rw [Nat.mod_eq_of_lt (by omega)] at h1
    simp only [if_pos hc]
    rw [if_pos (by omega)]
  · rw [Nat.mod_eq_sub_mod (by omega), Nat.mod_eq_of_lt (by omega)] at h1
    simp only [if_neg hc]
    rw [if_neg (by omega)]
    omega

/-- The inverse transform of the padded array is the interpolation at half pixels. -/
theorem ift_padded (X : Idx N → ℂ) (l : Idx (doubled N)) : ift (ifftshift (padded X)) l = interpolate X (fun a => (l a : ℕ) / 2) * (1 / 2) ^ d := by
  have hN : ∀ a, 0 < N a := fun a => by have := (l a).isLt; unfold doubled at this; omega
  unfold ift interpolate
  have hprod : ∏ a, (doubled N a : ℂ) = 2 ^ d * ∏ a, (N a : ℂ) := by
    unfold doubled
    push_cast
    rw [Finset.prod_mul_distrib, Finset.prod_const, Finset.card_univ, Fintype.card_fin]
  rw [hprod, ← Fintype.sum_of_injective position position_injective (fun k => X k * ∏ a, untwiddle (doubled N a) (position k a) (l a)) _
    (fun v hv => by rw [padded_other X v hv, zero_mul]) (fun k => by rw [padded_position])]
  rw [div_mul_eq_mul_div, Finset.sum_mul]
  have h2 : (2 : ℂ) ^ d ≠ 0 := pow_ne_zero _ two_ne_zero
  have h3 : ∏ a, (N a : ℂ) ≠ 0 := Finset.prod_ne_zero_iff.2 fun a _ => by exact_mod_cast (hN a).ne'
  rw [div_eq_div_iff (mul_ne_zero h2 h3) h3, Finset.sum_mul, Finset.sum_mul]
  refine Finset.sum_congr rfl fun k _ => ?_
  have key : ∏ a, untwiddle (doubled N a) (position k a) (l a) = exp (2 * Real.pi * I * ((∑ a, cycles (N a) (k a) * ((l a : ℕ) / 2 : ℝ) / N a : ℝ) : ℂ)) := by
    push_cast
    rw [Finset.mul_sum, exp_sum]
    refine Finset.prod_congr rfl fun a _ => ?_
    have hn : (N a : ℂ) ≠ 0 := by exact_mod_cast (hN a).ne'
    have hd : ((doubled N a : ℕ) : ℂ) = 2 * N a := by unfold doubled; push_cast; rfl
    have hp := congrArg (fun z : ℤ => (z : ℂ)) (position_val k a)
    simp only [Int.cast_natCast] at hp
    unfold untwiddle
    rw [exp_eq_exp_iff_exists_int, hd]
    by_cases h : 2 * (k a : ℕ) < N a
    · refine ⟨0, ?_⟩
      rw [if_pos h] at hp
      rw [hp]
      unfold cycles
      rw [if_pos h]
      push_cast
      field_simp
      ring
    · refine ⟨(l a : ℕ), ?_⟩
      rw [if_neg h] at hp
      rw [hp]
      unfold cycles
      rw [if_neg h]
      push_cast
      field_simp
      ring
  rw [key]
  have : (1 / 2 : ℂ) ^ d * 2 ^ d = 1 := by rw [← mul_pow]; norm_num
  linear_combination (-(X k * exp (2 * Real.pi * I * ((∑ a, cycles (N a) (k a) * ((l a : ℕ) / 2 : ℝ) / N a : ℝ) : ℂ)) * ∏ a, (N a : ℂ))) * this

/-! ### Fractions of pixels -/

theorem kOf_zoomGrid (k : Idx N) (p : ℝ) (hp : p ≠ 0) (a : Fin d) : kOf (zoomGrid N p) a k = 2 * Real.pi * (cycles (N a) (k a) * p / N a) := by
  have h := C24_kOf (zoomGrid N p) (fun a _ => one_div_ne_zero hp) a k
  rw [h]
  have hn : (N a : ℝ) ≠ 0 := by exact_mod_cast (pos_of_idx k a).ne'
  show 2 * Real.pi * ((if 2 * (k a : ℕ) < N a then ((k a : ℕ) : ℝ) else ((k a : ℕ) : ℝ) - N a) / (N a * (1 / p))) = _
  have : ((cycles (N a) (k a) : ℤ) : ℝ) = if 2 * (k a : ℕ) < N a then ((k a : ℕ) : ℝ) else ((k a : ℕ) : ℝ) - N a := by
    unfold cycles
    split_ifs <;> push_cast <;> rfl
  rw [this]
  field_simp

theorem zoomFt_eq (X : Idx N → ℂ) (M : ℕ) (p : ℝ) (hp : p ≠ 0) (offset : Fin d → ℝ) (j : Idx fun _ : Fin d => M) :
    zoomFt X M p offset j = ∑ k, X k * phase (-fun a => (offset a - (j a : ℕ)) * p) k := by
  unfold zoomFt
  refine Finset.sum_congr rfl fun k _ => ?_
  rw [mul_comm, phase_prod]
  congr 1
  refine Finset.prod_congr rfl fun a _ => ?_
  rw [kOf_zoomGrid k p hp]
  congr 1
  simp only [Pi.neg_apply]
  push_cast
  ring

/-! ### The peak -/

theorem integerPeak_max (hN : ∀ a, 0 < N a) (X : Idx N → ℂ) (p : ℝ) : (integerPeak hN X p).max = interpolate X (integerPeak hN X p).shift := by
  unfold integerPeak
  split_ifs with h
  · rw [interpolate_eq]
    unfold mean
    refine congrArg (· / _) (Finset.sum_congr rfl fun k _ => ?_)
    dsimp only
    rw [show -(fun _ => (0 : ℝ)) = (fun _ : Fin d => (0 : ℝ)) from funext fun a => neg_zero, phase_zero, mul_one]
  · dsimp only
    rw [ift_eq_interpolate]
    refine (interpolate_period hN X _ _ (fun a => if N a / 2 < argmax hN (fun x => ‖ift X x‖) a then 1 else 0) fun a => ?_).symm
    split_ifs <;> simp

theorem halfPeak_max (hN : ∀ a, 0 < N a) (X : Idx N → ℂ) : (halfPeak hN X).max = interpolate X (halfPeak hN X).shift := by
  unfold halfPeak
  dsimp only
  rw [ift_padded, mul_div_cancel_right₀ _ (pow_ne_zero _ (by norm_num))]
  generalize argmax _ _ = l
  refine (interpolate_period hN X _ _ (fun a => if (l a : ℕ) < N a then 0 else -1) fun a => ?_).symm
  have e : doubled N a / 2 = N a := by unfold doubled; omega
  have h := (l a).isLt
  have e2 : doubled N a = 2 * N a := rfl
  rw [e]
  by_cases hl : (l a : ℕ) < N a
  · rw [Nat.mod_eq_of_lt (by omega), if_pos hl]
    push_cast
    ring
  · rw [Nat.mod_eq_sub_mod (by omega), Nat.mod_eq_of_lt (by omega), if_neg hl, Nat.cast_sub (by omega), show ((doubled N a : ℕ) : ℝ) = 2 * N a by unfold doubled; push_cast; rfl]
    push_cast
    ring

theorem refine_max' (X : Idx N → ℂ) (hn : ∏ a, (N a : ℂ) ≠ 0) (total : ℂ) (p : ℝ) (hp : 0 < p) (peak : Peak d) :
    (refine X total p hp peak).max = interpolate X (refine X total p hp peak).shift * ((∏ a, (N a : ℂ)) / total) := by
  unfold refine
  dsimp only
  rw [zoomFt_eq X _ p hp.ne', interpolate_eq, div_mul_div_cancel₀ hn]
  congr 1
  refine Finset.sum_congr rfl fun k _ => ?_
  congr 3
  funext a
  field_simp
  ring

theorem total_ne_zero (hN : ∀ a, 0 < N a) : ∏ a, (N a : ℂ) ≠ 0 := Finset.prod_ne_zero_iff.2 fun a _ => Nat.cast_ne_zero.2 (hN a).ne'

theorem refine_max (hN : ∀ a, 0 < N a) (X : Idx N → ℂ) (p : ℝ) (hp : 0 < p) (peak : Peak d) : (refine X (∏ a, (N a : ℂ)) p hp peak).max = interpolate X (refine X (∏ a, (N a : ℂ)) p hp peak).shift := by
  rw [refine_max' X (total_ne_zero hN), div_self (total_ne_zero hN), mul_one]

/-- The peak is the value of the correlation at the shift. -/
theorem findPeak_max (hN : ∀ a, 0 < N a) (X : Idx N → ℂ) (p : ℝ) : (findPeak hN X (∏ a, (N a : ℂ)) p).max = interpolate X (findPeak hN X (∏ a, (N a : ℂ)) p).shift := by
  unfold findPeak
  split_ifs
  · exact integerPeak_max hN X p
  · exact refine_max hN X p _ _
  · exact halfPeak_max hN X

theorem integerPeak_largest (hN : ∀ a, 0 < N a) (X : Idx N → ℂ) (p : ℝ) (hp : p ≠ 0) (m : Fin d → ℤ) : ‖interpolate X fun a => (m a : ℝ)‖ ≤ ‖(integerPeak hN X p).max‖ := by
  unfold integerPeak
  rw [if_neg hp]
  dsimp only
  have h := argmax_max hN (fun x => ‖ift X x‖) fun a => wrap (N a) (hN a) (m a)
  refine le_trans (le_of_eq (congrArg _ ?_)) h
  rw [ift_eq_interpolate]
  refine interpolate_period hN X _ _ (fun a => m a / N a) fun a => ?_
  have h1 : ((wrap (N a) (hN a) (m a) : ℕ) : ℤ) = m a % N a := by
    show (((m a % N a).toNat : ℕ) : ℤ) = _
    rw [Int.toNat_of_nonneg (Int.emod_nonneg _ (by have := hN a; omega))]
  have h2 : ((wrap (N a) (hN a) (m a) : ℕ) : ℝ) = ((m a % N a : ℤ) : ℝ) := by rw [← h1]; simp
  rw [h2]
  have := Int.emod_add_mul_ediv (m a) (N a)
  exact_mod_cast this.symm

theorem halfPeak_largest (hN : ∀ a, 0 < N a) (X : Idx N → ℂ) (m : Fin d → ℤ) : ‖interpolate X fun a => (m a : ℝ) / 2‖ ≤ ‖(halfPeak hN X).max‖ := by
  have hN2 : ∀ a, 0 < doubled N a := fun a => by have := hN a; unfold doubled; omega
  unfold halfPeak
  dsimp only
  have h := argmax_max hN2 (fun x => ‖ift (ifftshift (padded X)) x‖) fun a => wrap (doubled N a) (hN2 a) (m a)
  rw [norm_div, le_div_iff₀ (norm_pos_iff.2 (pow_ne_zero _ (by norm_num)))]
  refine le_trans (le_of_eq ?_) h
  rw [ift_padded, norm_mul]
  congr 2
  refine interpolate_period hN X _ _ (fun a => m a / doubled N a) fun a => ?_
  have h1 : ((wrap (doubled N a) (hN2 a) (m a) : ℕ) : ℤ) = m a % doubled N a := by
    show (((m a % doubled N a).toNat : ℕ) : ℤ) = _
    rw [Int.toNat_of_nonneg (Int.emod_nonneg _ (by have := hN2 a; omega))]
  have h2 : ((wrap (doubled N a) (hN2 a) (m a) : ℕ) : ℝ) = ((m a % doubled N a : ℤ) : ℝ) := by rw [← h1]; simp
  rw [h2]
  have h3 := Int.emod_add_mul_ediv (m a) (doubled N a)
  have h4 : ((m a % doubled N a : ℤ) : ℝ) + (2 * N a) * ((m a / doubled N a : ℤ) : ℝ) = m a := by
    have := congrArg (fun z : ℤ => (z : ℝ)) h3
    simp only [Int.cast_add, Int.cast_mul, Int.cast_natCast] at this
    rw [← this]
    unfold doubled
    push_cast
    ring
  linarith

theorem roundHalfEven_int (m : ℤ) : roundHalfEven (m : ℝ) = m := by
  unfold roundHalfEven
  rw [Int.floor_intCast, sub_self, if_pos (by norm_num)]

theorem halfPeak_shift (hN : ∀ a, 0 < N a) (X : Idx N → ℂ) (a : Fin d) : ∃ m : ℤ, (halfPeak hN X).shift a = m * (1 / 2) := by
  unfold halfPeak
  dsimp only
  generalize ((_ : ℕ) + doubled N a / 2) % doubled N a = i
  exact ⟨(i : ℤ) - (doubled N a / 2 : ℕ), by rw [Int.cast_sub, Int.cast_natCast, Int.cast_natCast]⟩

/-- The refinement does not make the peak smaller, if half a pixel is a multiple of the precision. -/
theorem refine_largest' (hN : ∀ a, 0 < N a) (X : Idx N → ℂ) (total : ℂ) (p : ℝ) (hp : 0 < p) (n : ℕ) (hn : n * p = 1 / 2) :
    ‖(halfPeak hN X).max * ((∏ a, (N a : ℂ)) / total)‖ ≤ ‖(refine X total p hp (halfPeak hN X)).max‖ := by
  rw [halfPeak_max]
  have hs := halfPeak_shift hN X
  unfold refine
  dsimp only
  have hM : 0 < ⌈1.5 / p⌉.toNat := Int.lt_toNat.2 (Int.ceil_pos.2 (by positivity))
  generalize hshift : (fun a => roundHalfEven ((halfPeak hN X).shift a / p) * p) = shift
  have hr : shift = (halfPeak hN X).shift := by
    rw [← hshift]
    funext a
    obtain ⟨m, hm⟩ := hs a
    rw [hm]
    have : (m : ℝ) * (1 / 2) / p = ((m * n : ℤ) : ℝ) := by rw [← hn]; push_cast; field_simp
    rw [this, roundHalfEven_int, ← this]
    field_simp
  have hc := fun a => congrFun hshift a
  simp only [hc]
  refine le_trans (le_of_eq ?_) (argmax_max (N := fun _ : Fin d => ⌈1.5 / p⌉.toNat) (fun _ => hM)
    (fun j => ‖zoomFt X ⌈1.5 / p⌉.toNat p (fun a => ((⌈1.5 / p⌉.toNat / 2 : ℕ) : ℝ) + shift a / p) j / total‖) fun _ => ⟨⌈1.5 / p⌉.toNat / 2, Nat.div_lt_self hM one_lt_two⟩)
  rw [zoomFt_eq X _ p hp.ne', interpolate_eq, div_mul_div_cancel₀ (total_ne_zero hN)]
  refine congrArg _ ?_
  congr 1
  refine Finset.sum_congr rfl fun k _ => ?_
  congr 3
  rw [hr]
  funext a
  field_simp
  ring

theorem refine_largest (hN : ∀ a, 0 < N a) (X : Idx N → ℂ) (p : ℝ) (hp : 0 < p) (n : ℕ) (hn : n * p = 1 / 2) :
    ‖(halfPeak hN X).max‖ ≤ ‖(refine X (∏ a, (N a : ℂ)) p hp (halfPeak hN X)).max‖ := by
  have := refine_largest' hN X (∏ a, (N a : ℂ)) p hp n hn
  rwa [div_self (total_ne_zero hN), mul_one] at this

end Verif.Subpixel
