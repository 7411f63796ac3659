import Verif.Props.SubpixelLimits

/-!
# Property C60: shifts by fractions of pixels
-/

namespace Verif.Subpixel

open Verif.Fourier Verif.Spec.Subpixel Complex

variable {d : ℕ} {N : Fin d → ℕ}

/-- The image `f`, interpolated and displaced by `s`. -/
noncomputable def displaced (f : Idx N → ℂ) (s : Fin d → ℝ) : Idx N → ℂ := fun x => interpolate (ft f) fun a => (x a : ℕ) - s a

/-- The correlation of the image `f` with itself, displaced by `s`. -/
noncomputable def correlation (f : Idx N → ℂ) (s : Fin d → ℝ) : ℂ := interpolate (fun k => ((‖ft f k‖ ^ 2 : ℝ) : ℂ)) s

theorem ft_displaced (f : Idx N → ℂ) (s : Fin d → ℝ) : ft (displaced f s) = fun k => ft f k * phase s k := by
  rw [← C23_ft_ift fun k => ft f k * phase s k]
  congr 1
  funext x
  unfold displaced
  rw [ift_eq_interpolate, interpolate_eq, interpolate_eq]
  refine congrArg (· / _) (Finset.sum_congr rfl fun k _ => ?_)
  rw [mul_assoc, show (-fun a => ((x a : ℕ) : ℝ) - s a) = s + -fun a => ((x a : ℕ) : ℝ) from funext fun a => by simp only [Pi.neg_apply, Pi.add_apply]; ring, phase_add]

/-- Displacement by whole pixels. -/
theorem displaced_int (hN : ∀ a, 0 < N a) (f : Idx N → ℂ) (m : Fin d → ℤ) : displaced f (fun a => (m a : ℝ)) = circular f m :=
  ft_injective (by rw [ft_displaced, ft_circular hN])

/-- `roll` displaces by the part of the shift that is not neglected. -/
theorem displaced_roll (f : Idx N → ℂ) (s : Fin d → ℝ) (hs : Effective N s) : roll f s = displaced f s := by
  funext x
  rw [C59_exact, hs]
  rfl

/-- The cross correlation with a displaced copy. -/
theorem interpolate_displaced (reference : Idx N → ℂ) (c : ℂ) (s t : Fin d → ℝ) :
    interpolate (crossFt (ft reference) (ft fun x => c * displaced reference s x)) t = c / norm (ft reference) * correlation reference fun a => t a - s a := by
  unfold correlation
  rw [ft_scale, ft_displaced, interpolate_eq, interpolate_eq, ← mul_div_assoc, Finset.mul_sum]
  refine congrArg (· / _) (Finset.sum_congr rfl fun k _ => ?_)
  unfold crossFt
  dsimp only
  have h2 : (starRingEnd ℂ) (ft reference k) * ft reference k = ((‖ft reference k‖ ^ 2 : ℝ) : ℂ) := by rw [← Complex.normSq_eq_conj_mul_self, ← Complex.sq_norm]
  rw [← h2, show (-fun a => t a - s a) = s + -t from funext fun a => by simp only [Pi.neg_apply, Pi.add_apply]; ring, phase_add]
  ring

theorem correlation_zero (hN : ∀ a, 0 < N a) (f : Idx N → ℂ) : correlation f (fun _ => 0) = ((norm (ft f) ^ 2 : ℝ) : ℂ) := by
  unfold correlation
  rw [interpolate_eq, norm_sq hN]
  have : (-fun _ : Fin d => (0 : ℝ)) = fun _ => 0 := by funext a; simp
  rw [this]
  simp_rw [phase_zero, mul_one]
  push_cast
  rfl

/-- A copy is recovered if the peak that is found is as high as that of the copy. -/
theorem recovers_of_peak (hN : ∀ a, 0 < N a) (reference : Idx N → ℂ) (c : ℂ) (s : Fin d → ℝ) (p : ℝ) (hr : Resolves N p) (hc : 1e-8 < ‖c‖) (hc' : 1e-8 < ‖c‖ * Real.sqrt (energy reference))
    (hge : ‖interpolate (crossFt (ft reference) (ft fun x => c * displaced reference s x)) s‖ ≤
      ‖(findPeak hN (crossFt (ft reference) (ft fun x => c * displaced reference s x)) (∏ a, (N a : ℂ)) p).max‖) :
    (register hN reference (fun x => c * displaced reference s x) p).error = 0 ∧ (register hN reference (fun x => c * displaced reference s x) p).readImage.1 = .ok reference ∧
      ∃ z, (register hN reference (fun x => c * displaced reference s x) p).factor = .finite z ∧ ‖z‖ = ‖c‖ := by
  set subject : Idx N → ℂ := fun x => c * displaced reference s x with hsub
  set R := ft reference with hR
  have hS : ft subject = fun k => c * (R k * phase s k) := by rw [hsub, ft_scale, ft_displaced]
  rw [← norm_eq_energy hN, ← hR] at hc'
  have hrp : 0 < norm R := by
    refine lt_of_le_of_ne (norm_nonneg' R) fun h => ?_
    rw [← h, mul_zero] at hc'
    norm_num at hc'
  have hcp : 0 < ‖c‖ := lt_trans (by norm_num) hc
  have hSn : norm (ft subject) = ‖c‖ * norm R := by
    have hSsum : ∑ k, ‖ft subject k‖ ^ 2 = ‖c‖ ^ 2 * ∑ k, ‖R k‖ ^ 2 := by
      rw [hS, Finset.mul_sum]
      refine Finset.sum_congr rfl fun k _ => ?_
      rw [norm_mul, norm_mul, norm_phase, mul_one, mul_pow]
    unfold norm
    rw [hSsum, mul_div_assoc, Real.sqrt_mul (by positivity), Real.sqrt_sq hcp.le]
  have hat : ‖interpolate (crossFt R (ft subject)) s‖ = ‖c‖ * norm R := by
    rw [hR, hsub, interpolate_displaced]
    simp only [sub_self]
    rw [correlation_zero hN, ← hR, norm_mul, norm_div, Complex.norm_real, Complex.norm_real, Real.norm_of_nonneg hrp.le, Real.norm_of_nonneg (sq_nonneg _)]
    field_simp
  set peak := findPeak hN (crossFt R (ft subject)) (∏ a, (N a : ℂ)) p with hpeak
  rw [hat] at hge
  have hle : ‖peak.max‖ ≤ ‖c‖ * norm R := by
    rw [← hSn, hpeak, findPeak_max]
    exact interpolate_cross_le hN _ _ _
  have hmax : ‖peak.max‖ = ‖c‖ * norm R := le_antisymm hle hge
  have hbig : 1e-8 < ‖peak.max‖ := hmax ▸ hc'
  have hfac : (register hN reference subject p).factor = .finite ((norm (ft subject) : ℂ) ^ 2 / ((starRingEnd ℂ) peak.max * norm R)) := if_neg (not_le.2 hbig)
  have hz : ‖(norm (ft subject) : ℂ) ^ 2 / ((starRingEnd ℂ) peak.max * norm R)‖ = ‖c‖ := by
    rw [norm_div, norm_pow, norm_mul, RCLike.norm_conj, hmax, Complex.norm_real, Complex.norm_real, Real.norm_of_nonneg hrp.le, hSn, Real.norm_of_nonneg (by positivity)]
    field_simp
  have herr : (register hN reference subject p).error = 0 := by
    show Real.sqrt (1 - (min 1 |‖peak.max‖ / norm (ft subject)|) ^ 2) = 0
    rw [hmax, hSn, div_self (by positivity), abs_one, min_self]
    norm_num
  obtain ⟨g, hg, -, hge'⟩ := C60_error_partial hN reference subject p _ hfac (by rw [hz]; exact hc) (effective_register hN reference subject p hr)
  rw [herr] at hge'
  have hg0 : energy (fun x => reference x - g x) = 0 := by rw [hge']; ring
  have hgr : g = reference := by
    funext x
    have := (Finset.sum_eq_zero_iff_of_nonneg fun x _ => by positivity).1 hg0 x (Finset.mem_univ x)
    have h0 : reference x - g x = 0 := by simpa using this
    exact (sub_eq_zero.1 h0).symm
  exact ⟨herr, by rw [hg, hgr], _, hfac, hz⟩

/-- The peak is at least as high as at any shift by half pixels. -/
theorem findPeak_largest_half (hN : ∀ a, 0 < N a) (X : Idx N → ℂ) (p : ℝ) (hi : ¬|p - roundHalfEven p| ≤ 1e-8) (hp : Covers p) (m : Fin d → ℤ) :
    ‖interpolate X fun a => (m a : ℝ) / 2‖ ≤ ‖(findPeak hN X (∏ a, (N a : ℂ)) p).max‖ := by
  unfold findPeak
  rw [if_neg hi]
  split_ifs with h2
  · obtain ⟨-, h | h | ⟨n, hn⟩⟩ := hp
    · exact absurd h hi
    · exact absurd h2.1 (not_lt.2 h)
    · exact (halfPeak_largest hN X m).trans (refine_largest hN X p h2.2 n hn)
  · exact halfPeak_largest hN X m

/-- **C60 (half pixels).** For all images, shifts by half pixels, and factors: a displaced and multiplied copy of the reference is registered without error, its registered image is the reference,
and the factor has the same magnitude.  Missing: as for `C60_recovers_partial`, with other fractions of pixels. -/
theorem C60_half_partial (hN : ∀ a, 0 < N a) (reference : Idx N → ℂ) (c : ℂ) (m : Fin d → ℤ) (p : ℝ) (hi : ¬|p - roundHalfEven p| ≤ 1e-8) (hp : Covers p) (hr : Resolves N p) (hc : 1e-8 < ‖c‖)
    (hc' : 1e-8 < ‖c‖ * Real.sqrt (energy reference)) :
    (register hN reference (fun x => c * displaced reference (fun a => (m a : ℝ) / 2) x) p).error = 0 ∧
      (register hN reference (fun x => c * displaced reference (fun a => (m a : ℝ) / 2) x) p).readImage.1 = .ok reference ∧
      ∃ z, (register hN reference (fun x => c * displaced reference (fun a => (m a : ℝ) / 2) x) p).factor = .finite z ∧ ‖z‖ = ‖c‖ :=
  recovers_of_peak hN reference c _ p hr hc hc' (findPeak_largest_half hN _ p hi hp m)

/-- The search around the half pixel covers all multiples of the precision at less than three quarters of a pixel. -/
theorem refine_covers (hN : ∀ a, 0 < N a) (X : Idx N → ℂ) (p : ℝ) (hp : 0 < p) (n : ℕ) (hn : n * p = 1 / 2) (j : Fin d → ℤ) (hj : ∀ a, |(j a : ℝ) * p| < 3 / 4) :
    ‖interpolate X fun a => (halfPeak hN X).shift a + j a * p‖ ≤ ‖(refine X (∏ a, (N a : ℂ)) p hp (halfPeak hN X)).max‖ := by
  have hs := halfPeak_shift hN X
  unfold refine
  dsimp only
  have hM : 0 < ⌈1.5 / p⌉.toNat := Int.lt_toNat.2 (Int.ceil_pos.2 (by positivity))
  generalize hshift : (fun a => roundHalfEven ((halfPeak hN X).shift a / p) * p) = shift
  have hr : shift = (halfPeak hN X).shift := by
    rw [← hshift]
    funext a
    obtain ⟨m, hm⟩ := hs a
    rw [hm]
    have : (m : ℝ) * (1 / 2) / p = ((m * n : ℤ) : ℝ) := by rw [← hn]; push_cast; field_simp
    rw [this, roundHalfEven_int, ← this]
    field_simp
  have hMn : ⌈1.5 / p⌉.toNat = 3 * n := by
    have : (1.5 : ℝ) / p = ((3 * n : ℕ) : ℝ) := by
      rw [div_eq_iff hp.ne']
      push_cast
      linear_combination -3 * hn
    rw [this, Int.ceil_natCast, Int.toNat_natCast]
  have hjn : ∀ a, |2 * j a| < 3 * n := fun a => by
    have h := hj a
    rw [abs_mul, abs_of_pos hp] at h
    have h2 : |(j a : ℝ)| * 2 < 3 * n := by
      have : |(j a : ℝ)| * p * 2 < 3 * n * p := by linarith [hn]
      nlinarith
    have h3 : |(2 * j a : ℤ)| = 2 * |j a| := by rw [abs_mul]; rfl
    rw [h3]
    have h4 : ((|j a| : ℤ) : ℝ) * 2 < 3 * n := by rw [Int.cast_abs]; exact h2
    have h5 : |j a| * 2 < 3 * (n : ℤ) := by exact_mod_cast h4
    omega
  have hc := fun a => congrFun hshift a
  simp only [hc]
  have hlt : ∀ a, (((3 * n / 2 : ℕ) : ℤ) - j a).toNat < ⌈1.5 / p⌉.toNat ∧ 0 ≤ ((3 * n / 2 : ℕ) : ℤ) - j a := fun a => by
    have := abs_lt.1 (hjn a)
    rw [hMn]
    omega
  refine le_trans (le_of_eq ?_) (argmax_max (N := fun _ : Fin d => ⌈1.5 / p⌉.toNat) (fun _ => hM)
    (fun j => ‖zoomFt X ⌈1.5 / p⌉.toNat p (fun a => ((⌈1.5 / p⌉.toNat / 2 : ℕ) : ℝ) + shift a / p) j / (∏ a, (N a : ℂ))‖) fun a => ⟨(((3 * n / 2 : ℕ) : ℤ) - j a).toNat, (hlt a).1⟩)
  rw [zoomFt_eq X _ p hp.ne', interpolate_eq]
  refine congrArg _ ?_
  congr 1
  refine Finset.sum_congr rfl fun k _ => ?_
  congr 3
  rw [hr]
  funext a
  have h1 : (((((3 * n / 2 : ℕ) : ℤ) - j a).toNat : ℕ) : ℝ) = ((3 * n / 2 : ℕ) : ℝ) - j a := by
    have h := Int.toNat_of_nonneg (hlt a).2
    have h' := congrArg (fun z : ℤ => (z : ℝ)) h
    simpa only [Int.cast_sub, Int.cast_natCast] using h'
  show _ = (((⌈1.5 / p⌉.toNat / 2 : ℕ) : ℝ) + (halfPeak hN X).shift a / p - (((((3 * n / 2 : ℕ) : ℤ) - j a).toNat : ℕ) : ℝ)) * p
  rw [hMn, h1]
  field_simp
  ring

/-- **C60 (fractions of pixels).** For all images, shifts by multiples of the precision, and factors: a displaced and multiplied copy of the reference is recovered, if the correlation of the
reference with itself is such that each of the half pixels at which it is largest is less than three quarters of a pixel from the shift.  Missing: images that do not meet this condition, for
which recovery can fail (`C60_fraction_violates`). -/
theorem C60_fraction_partial (hN : ∀ a, 0 < N a) (reference : Idx N → ℂ) (c : ℂ) (p : ℝ) (hp0 : 0 < p) (n : ℕ) (hn2 : 2 ≤ n) (hn : n * p = 1 / 2) (hr : Resolves N p) (hi : 1e-8 < p) (hc : 1e-8 < ‖c‖)
    (hc' : 1e-8 < ‖c‖ * Real.sqrt (energy reference)) (i : Fin d → ℤ)
    (h : ∀ t : Fin d → ℤ, (∀ t' : Fin d → ℤ, ‖correlation reference fun a => (t' a : ℝ) / 2 - i a * p‖ ≤ ‖correlation reference fun a => (t a : ℝ) / 2 - i a * p‖) →
      ∃ m : Fin d → ℤ, ∀ a, |(t a : ℝ) / 2 - i a * p - N a * m a| < 3 / 4) :
    (register hN reference (fun x => c * displaced reference (fun a => i a * p) x) p).error = 0 ∧
      (register hN reference (fun x => c * displaced reference (fun a => i a * p) x) p).readImage.1 = .ok reference ∧
      ∃ z, (register hN reference (fun x => c * displaced reference (fun a => i a * p) x) p).factor = .finite z ∧ ‖z‖ = ‖c‖ := by
  refine recovers_of_peak hN reference c _ p hr hc hc' ?_
  set X := crossFt (ft reference) (ft fun x => c * displaced reference (fun a => i a * p) x) with hX
  have hp4 : p ≤ 1 / 4 := by
    have : (2 : ℝ) ≤ n := by exact_mod_cast hn2
    nlinarith
  have hround : ¬|p - roundHalfEven p| ≤ 1e-8 := by
    have hr : roundHalfEven p = 0 := by
      unfold roundHalfEven
      have : ⌊p⌋ = 0 := by rw [Int.floor_eq_zero_iff]; constructor <;> linarith
      rw [this, if_pos (by push_cast; linarith)]
      norm_num
    rw [hr, sub_zero, abs_of_pos hp0, not_le]
    exact hi
  unfold findPeak
  rw [if_neg hround, dif_pos ⟨by linarith, hp0⟩]
  choose t ht using halfPeak_shift hN X
  have hts : (halfPeak hN X).shift = fun a => (t a : ℝ) / 2 := funext fun a => by rw [ht a]; ring
  have hrp : 0 < norm (ft reference) := by
    rw [norm_eq_energy hN]
    by_contra h0
    have := le_antisymm (not_lt.1 h0) (Real.sqrt_nonneg _)
    rw [this, mul_zero] at hc'
    norm_num at hc'
  have hcp : 0 < ‖c‖ := lt_trans (by norm_num) hc
  obtain ⟨m, hm⟩ := h t fun t' => by
    have h1 := halfPeak_largest hN X t'
    rw [halfPeak_max, hts, hX, interpolate_displaced, interpolate_displaced, norm_mul, norm_mul] at h1
    exact le_of_mul_le_mul_left h1 (by rw [norm_div, Complex.norm_real, Real.norm_of_nonneg hrp.le]; positivity)
  have hk : ∀ a, (t a : ℝ) / 2 = (t a * n : ℤ) * p := fun a => by push_cast; linear_combination -(t a : ℝ) * hn
  have hNk : ∀ a, (N a : ℝ) * m a = (2 * (N a * m a * n) : ℤ) * p := fun a => by push_cast; linear_combination -2 * (N a : ℝ) * m a * hn
  have h2 := refine_covers hN X p hp0 n hn (fun a => i a - t a * n + 2 * (N a * m a * n)) fun a => by
    have := hm a
    rw [hk, hNk, ← abs_neg] at this
    refine lt_of_eq_of_lt (congrArg _ ?_) this
    push_cast
    ring
  refine le_trans (le_of_eq (congrArg _ ?_)) h2
  refine (interpolate_period hN X _ _ m fun a => ?_).symm
  rw [hts]
  dsimp only
  rw [hk a, hNk a]
  push_cast
  ring

/-- **C60 (uniqueness, fractions of pixels).** Whenever the registered image of a displaced and multiplied copy is the reference, and no displacement, other than by a whole number of periods,
makes the reference a multiple of itself, the shift and the factor are those of the copy. -/
theorem C60_unique_partial (hN : ∀ a, 0 < N a) (reference : Idx N → ℂ) (c : ℂ) (s : Fin d → ℝ) (p : ℝ) (hr : Resolves N p) (hc : 1e-8 < ‖c‖) (hE : energy reference ≠ 0)
    (himage : (register hN reference (fun x => c * displaced reference s x) p).readImage.1 = .ok reference)
    (z : ℂ) (hz : (register hN reference (fun x => c * displaced reference s x) p).factor = .finite z) (hzc : ‖z‖ = ‖c‖)
    (hu : ∀ (t : Fin d → ℝ) (w : ℂ), (∀ x : Idx N, displaced reference t x = w * reference x) → ∃ m : Fin d → ℤ, ∀ a, t a = N a * m a) :
    z = c ∧ ∃ m : Fin d → ℤ, ∀ a, (register hN reference (fun x => c * displaced reference s x) p).shift a = s a + N a * m a := by
  have he := effective_register hN reference (fun x => c * displaced reference s x) p hr
  obtain ⟨g, hg, hg', -⟩ := C60_error_partial hN reference (fun x => c * displaced reference s x) p z hz (by rw [hzc]; exact hc) he
  have hgr : g = reference := Except.ok.inj (hg.symm.trans himage)
  subst hgr
  have hcp : 0 < ‖c‖ := lt_trans (by norm_num) hc
  have hc0 : c ≠ 0 := norm_pos_iff.1 hcp
  have hz0 : z ≠ 0 := norm_pos_iff.1 (by rw [hzc]; exact hcp)
  set shift := (register hN g (fun x => c * displaced g s x) p).shift with hshift
  have hroll : roll (fun x => c * displaced g s x) (-shift) = fun x => z * g x := by
    funext x
    have := congrFun hg' x
    rw [eq_div_iff hz0] at this
    rw [← this]
    ring
  have hft := congrArg ft hroll
  rw [ft_roll, effective_neg he, ft_scale, ft_displaced, ft_scale] at hft
  have hk : ∀ k, ft g k * phase (s - shift) k = z / c * ft g k := fun k => by
    have := congrFun hft k
    dsimp only at this
    rw [sub_eq_add_neg, phase_add]
    field_simp
    linear_combination this
  have hin : ∀ x : Idx N, displaced g (s - shift) x = z / c * g x := fun x => by
    have h1 : ft (displaced g (s - shift)) = ft fun x => z / c * g x := by
      rw [ft_displaced, ft_scale]
      exact funext hk
    exact congrFun (ft_injective h1) x
  obtain ⟨m, hm⟩ := hu _ _ hin
  have hph : ∀ k : Idx N, phase (s - shift) k = 1 := fun k => by rw [show s - shift = fun a => (N a : ℝ) * m a from funext hm]; exact phase_period hN m k
  refine ⟨?_, fun a => -m a, fun a => ?_⟩
  · by_contra hne
    have hall : ∀ k, ft g k = 0 := fun k => by
      have := hk k
      rw [hph, mul_one] at this
      have h2 : (z - c) * ft g k = 0 := by field_simp at this; linear_combination -this
      exact (mul_eq_zero.1 h2).resolve_left (sub_ne_zero.2 hne)
    apply hE
    rw [energy_ft hN]
    simp [hall]
  · have := hm a
    simp only [Pi.sub_apply] at this
    push_cast
    linarith

theorem not_whole_default : ¬|defaultPrecision - roundHalfEven defaultPrecision| ≤ 1e-8 := by
  have hr : roundHalfEven defaultPrecision = 0 := by
    unfold roundHalfEven defaultPrecision
    have : ⌊(1 / 128 : ℝ)⌋ = 0 := by rw [Int.floor_eq_zero_iff]; constructor <;> norm_num
    rw [this]
    norm_num
  rw [hr]
  unfold defaultPrecision
  rw [sub_zero, abs_of_pos] <;> norm_num

/-- The hypotheses of `C60_half_partial` and `C60_unique_partial` are met by dots of 4 by 5 pixels that are displaced by half pixels, with the default precision. -/
example (m : Fin 2 → ℤ) : ∃ k : Fin 2 → ℤ, ∀ a, (register (N := ![4, 5]) (fun a => by fin_cases a <;> norm_num) (dot ![4, 5]) (fun x => 2 * displaced (dot ![4, 5]) (fun a => (m a : ℝ) / 2) x)
    defaultPrecision).shift a = m a / 2 + (![4, 5] a : ℕ) * k a := by
  have hN : ∀ a : Fin 2, 0 < (![4, 5] : Fin 2 → ℕ) a := fun a => by fin_cases a <;> norm_num
  have hr : Resolves (![4, 5] : Fin 2 → ℕ) defaultPrecision := ⟨by rw [unit_default]; norm_num, fun a => by rw [unit_default]; fin_cases a <;> norm_num⟩
  obtain ⟨-, h2, z, hz, hzc⟩ := C60_half_partial hN (dot _) 2 m defaultPrecision not_whole_default covers_default hr (by norm_num) (by rw [energy_dot hN]; norm_num)
  exact (C60_unique_partial hN (dot _) 2 _ defaultPrecision hr (by norm_num) (by rw [energy_dot hN]; norm_num) h2 z hz hzc (dot_unique fun a => by fin_cases a <;> norm_num)).2

/-! ### An image of which a copy is not recovered -/

/-- The size of the image. -/
abbrev ten : Fin 1 → ℕ := fun _ => 10

/-- A constant and a wave with a period of 5/2 pixels. -/
noncomputable def wave (a b : ℂ) : Idx ten → ℂ := fun k => if k 0 = 0 then a else if k 0 = 4 ∨ k 0 = 6 then b else 0

theorem interpolate_wave (a b : ℂ) (x : Fin 1 → ℝ) : interpolate (wave a b) x = (a + 2 * b * (Real.cos (4 / 5 * Real.pi * x 0) : ℝ)) / 10 := by
  unfold interpolate wave
  rw [Fintype.sum_equiv (Equiv.funUnique (Fin 1) (Fin 10)) _ (fun k : Fin 10 => (if k = 0 then a else if k = 4 ∨ k = 6 then b else 0) * exp (2 * Real.pi * I * (((cycles 10 k : ℝ) * x 0 / 10 : ℝ) : ℂ)))
    fun k => by simp]
  rw [← Finset.sum_subset (Finset.subset_univ ({0, 4, 6} : Finset (Fin 10))) fun k _ hk => by
    rw [Finset.mem_insert, Finset.mem_insert, Finset.mem_singleton, not_or] at hk
    rw [if_neg hk.1, if_neg hk.2, zero_mul]]
  rw [Finset.sum_insert (by decide), Finset.sum_insert (by decide), Finset.sum_singleton, if_pos rfl, if_neg (by decide), if_pos (.inl rfl), if_neg (by decide), if_pos (.inr rfl)]
  have h0 : cycles 10 (0 : Fin 10) = 0 := rfl
  have h4 : cycles 10 (4 : Fin 10) = 4 := rfl
  have h6 : cycles 10 (6 : Fin 10) = -4 := rfl
  rw [h0, h4, h6, Complex.ofReal_cos, Complex.cos]
  have e1 : 2 * Real.pi * I * ((((4 : ℤ) : ℝ) * x 0 / 10 : ℝ) : ℂ) = ((4 / 5 * Real.pi * x 0 : ℝ) : ℂ) * I := by push_cast; ring
  have e2 : 2 * Real.pi * I * ((((-4 : ℤ) : ℝ) * x 0 / 10 : ℝ) : ℂ) = -((4 / 5 * Real.pi * x 0 : ℝ) : ℂ) * I := by push_cast; ring
  rw [e1, e2]
  simp
  ring

/-- An image of which all copies are recovered: a constant and a wave that fits once. -/
noncomputable def swell : Idx ten → ℂ := ift fun k => if k 0 = 0 ∨ k 0 = 1 then 1 else 0

theorem correlation_swell (s : Fin 1 → ℝ) : ‖correlation swell s‖ ^ 2 = (1 + Real.cos (Real.pi * s 0 / 5)) / 50 := by
  unfold correlation swell interpolate
  rw [C23_ft_ift]
  rw [Fintype.sum_equiv (Equiv.funUnique (Fin 1) (Fin 10)) _ (fun k : Fin 10 => (if k = 0 ∨ k = 1 then 1 else 0) * exp (2 * Real.pi * I * (((cycles 10 k : ℝ) * s 0 / 10 : ℝ) : ℂ)))
    fun k => by by_cases h : k 0 = 0 ∨ k 0 = 1 <;> simp [h]]
  rw [← Finset.sum_subset (Finset.subset_univ ({0, 1} : Finset (Fin 10))) fun k _ hk => by
    rw [Finset.mem_insert, Finset.mem_singleton] at hk
    rw [if_neg hk, zero_mul]]
  rw [Finset.sum_insert (by decide), Finset.sum_singleton, if_pos (.inl rfl), if_pos (.inr rfl)]
  have h0 : cycles 10 (0 : Fin 10) = 0 := rfl
  have h1 : cycles 10 (1 : Fin 10) = 1 := rfl
  rw [h0, h1, norm_div, div_pow, Complex.sq_norm, Complex.sq_norm]
  have e1 : 2 * Real.pi * I * ((((1 : ℤ) : ℝ) * s 0 / 10 : ℝ) : ℂ) = ((Real.pi * s 0 / 5 : ℝ) : ℂ) * I := by push_cast; ring
  rw [e1, exp_mul_I, ← Complex.ofReal_cos, ← Complex.ofReal_sin]
  have h2 := Real.sin_sq_add_cos_sq (Real.pi * s 0 / 5)
  generalize Real.cos (Real.pi * s 0 / 5) = C at *
  generalize Real.sin (Real.pi * s 0 / 5) = S at *
  simp [Complex.normSq_apply]
  linear_combination 1 / 100 * h2

/-- The hypotheses of `C60_fraction_partial` are met for all shifts by multiples of the default precision. -/
example (i : ℤ) : (register (N := ten) (fun _ => by norm_num) swell (fun x => 3 * displaced swell (fun _ => i * defaultPrecision) x) defaultPrecision).error = 0 := by
  have hN : ∀ a, 0 < ten a := fun _ => by norm_num
  have hE : energy swell = 1 / 5 := by
    have h0 : 0 ≤ energy swell := Finset.sum_nonneg fun _ _ => by positivity
    have h := correlation_zero hN swell
    have h2 := correlation_swell fun _ => 0
    rw [h, Complex.norm_real, Real.norm_of_nonneg (sq_nonneg _), norm_eq_energy hN, Real.sq_sqrt h0] at h2
    norm_num at h2
    rw [← Real.sqrt_sq h0, h2, show (1 / 25 : ℝ) = (1 / 5) ^ 2 by norm_num, Real.sqrt_sq (by norm_num)]
  refine (C60_fraction_partial hN swell 3 defaultPrecision (by unfold defaultPrecision; norm_num) 64 (by norm_num) (by unfold defaultPrecision; norm_num)
    ⟨by rw [unit_default]; norm_num, fun a => by rw [unit_default]; norm_num⟩ (by unfold defaultPrecision; norm_num) (by norm_num) ?_ (fun _ => i) fun t ht => ?_).1
  · rw [hE]
    have : (1 / 10 : ℝ) < Real.sqrt (1 / 5) := by apply Real.lt_sqrt_of_sq_lt; norm_num
    have h3 : ‖(3 : ℂ)‖ = 3 := by norm_num
    rw [h3]
    linarith
  · set s := (i : ℝ) * defaultPrecision with hs
    have h1 := ht fun _ => round (2 * s)
    rw [← sq_le_sq₀ (_root_.norm_nonneg _) (_root_.norm_nonneg _), correlation_swell, correlation_swell, div_le_div_iff_of_pos_right (by norm_num), add_le_add_iff_left] at h1
    have h2 := abs_sub_round (2 * s)
    refine ⟨fun _ => round (((t 0 : ℝ) / 2 - s) / 10), fun a => ?_⟩
    have ha : a = 0 := Subsingleton.elim _ _
    subst ha
    have h3 := abs_sub_round (((t 0 : ℝ) / 2 - s) / 10)
    generalize round (((t 0 : ℝ) / 2 - s) / 10) = m at *
    generalize round (2 * s) = r at *
    push_cast
    have hy : |(t 0 : ℝ) / 2 - s - 10 * m| ≤ 5 := by
      have := abs_le.1 h3
      rw [abs_le]
      constructor <;> linarith [this.1, this.2]
    have hz : |(r : ℝ) / 2 - s| ≤ 1 / 4 := by
      have := abs_le.1 h2
      rw [abs_le]
      constructor <;> linarith [this.1, this.2]
    by_contra hge
    rw [not_lt] at hge
    have e1 : Real.cos (Real.pi * ((t 0 : ℝ) / 2 - s) / 5) = Real.cos (Real.pi / 5 * |(t 0 : ℝ) / 2 - s - 10 * m|) := by
      rw [← Real.cos_sub_int_mul_two_pi _ m, ← Real.cos_abs]
      rw [show Real.pi * ((t 0 : ℝ) / 2 - s) / 5 - m * (2 * Real.pi) = Real.pi / 5 * ((t 0 : ℝ) / 2 - s - 10 * m) by ring, abs_mul, abs_of_pos (by positivity)]
    have e2 : Real.cos (Real.pi * ((r : ℝ) / 2 - s) / 5) = Real.cos (Real.pi / 5 * |(r : ℝ) / 2 - s|) := by
      rw [← Real.cos_abs, show Real.pi * ((r : ℝ) / 2 - s) / 5 = Real.pi / 5 * ((r : ℝ) / 2 - s) by ring, abs_mul, abs_of_pos (by positivity)]
    rw [e1, e2] at h1
    refine absurd h1 (not_le.2 (Real.cos_lt_cos_of_nonneg_of_le_pi (by positivity) ?_ ?_))
    · nlinarith [Real.pi_pos]
    · exact mul_lt_mul_of_pos_left (by linarith) (by positivity)

/-- The image: a faint background of 1/40 with a wave. -/
noncomputable def ripple : Idx ten → ℂ := ift (wave (1 / 4) 1)

example (x : Idx ten) : ripple x = ((1 / 4 + 2 * Real.cos (4 / 5 * Real.pi * (x 0 : ℕ))) / 10 : ℝ) := by
  unfold ripple
  rw [ift_eq_interpolate, interpolate_wave]
  push_cast
  ring

theorem correlation_ripple (s : Fin 1 → ℝ) : correlation ripple s = ((1 / 16 + 2 * Real.cos (4 / 5 * Real.pi * s 0)) / 10 : ℝ) := by
  unfold correlation ripple
  rw [C23_ft_ift]
  have : (fun k => ((‖wave (1 / 4) 1 k‖ ^ 2 : ℝ) : ℂ)) = wave (1 / 16) 1 := by
    funext k
    unfold wave
    split_ifs <;> norm_num
  rw [this, interpolate_wave]
  push_cast
  ring

theorem cos_fifths (t : ℤ) : Real.cos (Real.pi * (2 * t - 1) / 5) = -1 ∨ |1 / 16 + 2 * Real.cos (Real.pi * (2 * t - 1) / 5)| < 31 / 16 := by
  set θ := Real.pi * (2 * t - 1) / 5 with hθ
  have h5 : Real.cos (5 * θ) = -1 := by
    rw [hθ, show 5 * (Real.pi * (2 * t - 1) / 5) = -Real.pi + t * (2 * Real.pi) by ring, Real.cos_add_int_mul_two_pi, Real.cos_neg, Real.cos_pi]
  have hs := Real.sin_sq_add_cos_sq θ
  have h : (Real.cos θ + 1) * (4 * Real.cos θ ^ 2 - 2 * Real.cos θ - 1) ^ 2 = 0 := by
    rw [show 5 * θ = 2 * θ + 3 * θ by ring, Real.cos_add, Real.cos_two_mul, Real.cos_three_mul, Real.sin_two_mul, Real.sin_three_mul] at h5
    have e : 2 * Real.sin θ * Real.cos θ * (3 * Real.sin θ - 4 * Real.sin θ ^ 3) = 2 * Real.cos θ * (1 - Real.cos θ ^ 2) * (3 - 4 * (1 - Real.cos θ ^ 2)) := by
      rw [← show Real.sin θ ^ 2 = 1 - Real.cos θ ^ 2 by linarith]
      ring
    rw [e] at h5
    linear_combination h5
  rcases mul_eq_zero.1 h with h | h
  · left
    linarith
  · right
    have h' := pow_eq_zero_iff two_ne_zero |>.1 h
    rw [abs_lt]
    constructor <;> nlinarith

/-- The refined peak is at most three quarters of a pixel from the half pixel. -/
theorem refine_within (hN : ∀ a, 0 < N a) (X : Idx N → ℂ) (total : ℂ) (p : ℝ) (hp : 0 < p) (n : ℕ) (hn : n * p = 1 / 2) (a : Fin d) :
    |(refine X total p hp (halfPeak hN X)).shift a - (halfPeak hN X).shift a| ≤ 3 / 4 := by
  obtain ⟨m, hm⟩ := halfPeak_shift hN X a
  have hMn : ⌈1.5 / p⌉.toNat = 3 * n := by
    have : (1.5 : ℝ) / p = ((3 * n : ℕ) : ℝ) := by
      rw [div_eq_iff hp.ne']
      push_cast
      linear_combination -3 * hn
    rw [this, Int.ceil_natCast, Int.toNat_natCast]
  unfold refine
  dsimp only
  generalize argmax (N := fun _ : Fin d => ⌈1.5 / p⌉.toNat) _ _ = l
  have hl := lt_of_lt_of_eq (l a).isLt hMn
  generalize ((l a : Fin _) : ℕ) = j at hl
  rw [hMn]
  have : (m : ℝ) * (1 / 2) / p = ((m * n : ℤ) : ℝ) := by rw [← hn]; push_cast; field_simp
  rw [hm, this, roundHalfEven_int, ← this, div_mul_cancel₀ _ hp.ne', add_sub_cancel_left, abs_mul, abs_of_pos hp]
  obtain ⟨D, hD, hD1, hD2⟩ : ∃ D, 3 * n / 2 = D ∧ 2 * D ≤ 3 * n ∧ 3 * n ≤ 2 * D + 1 := ⟨_, rfl, by omega, by omega⟩
  rw [hD]
  have h1 : (j : ℝ) + 1 ≤ 3 * n := by exact_mod_cast hl
  have h2 : 2 * (D : ℝ) ≤ 3 * n := by exact_mod_cast hD1
  have h3 : 3 * (n : ℝ) ≤ 2 * D + 1 := by exact_mod_cast hD2
  have h4 : |-(j : ℝ) + D| ≤ 3 * n / 2 := by
    have := Nat.cast_nonneg (α := ℝ) j
    rw [abs_le]
    constructor <;> linarith
  nlinarith

/-- **C60 (violation: fractions of pixels).** With the default precision of 1/128, a copy of the image that is displaced by a quarter of a pixel is not recovered: an error of more than a third remains. -/
theorem C60_fraction_violates : 1 / 3 < (register (N := ten) (fun _ => by norm_num) ripple (displaced ripple fun _ => 1 / 4) defaultPrecision).error := by
  have hN : ∀ a, 0 < ten a := fun _ => by norm_num
  set X := crossFt (ft ripple) (ft (displaced ripple fun _ => 1 / 4)) with hX
  have hXi : ∀ t, interpolate X t = 1 / norm (ft ripple) * correlation ripple fun a => t a - 1 / 4 := fun t => by
    have := interpolate_displaced ripple 1 (fun _ => 1 / 4) t
    simp only [one_mul] at this
    exact this
  have hp0 : (0 : ℝ) < defaultPrecision := by unfold defaultPrecision; norm_num
  have hn : ((64 : ℕ) : ℝ) * defaultPrecision = 1 / 2 := by unfold defaultPrecision; norm_num
  have hfp : findPeak hN X (∏ a, (ten a : ℂ)) defaultPrecision = refine X (∏ a, (ten a : ℂ)) defaultPrecision hp0 (halfPeak hN X) := by
    have hr : roundHalfEven defaultPrecision = 0 := by
      unfold roundHalfEven defaultPrecision
      have : ⌊(1 / 128 : ℝ)⌋ = 0 := by rw [Int.floor_eq_zero_iff]; constructor <;> norm_num
      rw [this]
      norm_num
    unfold findPeak
    rw [if_neg (by rw [hr]; unfold defaultPrecision; rw [sub_zero, abs_of_pos] <;> norm_num), dif_pos ⟨by unfold defaultPrecision; norm_num, hp0⟩]
  have hR2 : norm (ft ripple) ^ 2 = 33 / 160 := by
    have h1 := correlation_zero hN ripple
    rw [correlation_ripple] at h1
    have h2 := Complex.ofReal_injective h1
    rw [← h2]
    norm_num
  have hRp : 0 < norm (ft ripple) := lt_of_le_of_ne (norm_nonneg' _) fun h => by rw [← h] at hR2; norm_num at hR2
  have hS : norm (ft (displaced ripple fun _ => 1 / 4)) = norm (ft ripple) := by
    unfold norm
    rw [ft_displaced]
    simp_rw [norm_mul, norm_phase, mul_one]
  obtain ⟨t, ht⟩ := halfPeak_shift hN X 0
  have hcos : Real.cos (Real.pi * (2 * t - 1) / 5) = -1 := by
    refine (cos_fifths t).resolve_right fun hlt => ?_
    have h1 := halfPeak_largest hN X fun _ => 3
    rw [halfPeak_max, hXi, hXi, norm_mul, norm_mul] at h1
    have h2 := le_of_mul_le_mul_left h1 (by rw [norm_div, Complex.norm_real, Real.norm_of_nonneg hRp.le]; simpa using hRp)
    rw [correlation_ripple, correlation_ripple, Complex.norm_real, Complex.norm_real, Real.norm_eq_abs, Real.norm_eq_abs, abs_div, abs_div, ht] at h2
    have e1 : (4 / 5 * Real.pi * (((3 : ℤ) : ℝ) / 2 - 1 / 4)) = Real.pi := by push_cast; ring
    have e2 : (4 / 5 * Real.pi * ((t : ℝ) * (1 / 2) - 1 / 4)) = Real.pi * (2 * t - 1) / 5 := by ring
    rw [e1, e2, Real.cos_pi, div_le_div_iff_of_pos_right (by norm_num)] at h2
    have h3 := lt_of_le_of_lt h2 hlt
    norm_num at h3
  have hsin : Real.sin (Real.pi * (2 * t - 1) / 5) = 0 := by
    have := Real.sin_sq_add_cos_sq (Real.pi * (2 * t - 1) / 5)
    rw [hcos] at this
    exact pow_eq_zero_iff two_ne_zero |>.1 (by linarith)
  set peak := findPeak hN X (∏ a, (ten a : ℂ)) defaultPrecision with hpeak
  have hδ : |peak.shift 0 - t * (1 / 2)| ≤ 3 / 4 := by
    rw [hfp, ← ht]
    exact refine_within hN X _ _ hp0 64 hn 0
  have hmax : ‖peak.max‖ * norm (ft ripple) ≤ 31 / 160 := by
    rw [hpeak, findPeak_max, ← hpeak, hXi, norm_mul, norm_div, Complex.norm_real, Real.norm_of_nonneg hRp.le, correlation_ripple, Complex.norm_real, Real.norm_eq_abs, abs_div]
    have e : 4 / 5 * Real.pi * (peak.shift 0 - 1 / 4) = Real.pi * (2 * t - 1) / 5 + 4 / 5 * Real.pi * (peak.shift 0 - t * (1 / 2)) := by ring
    rw [e, Real.cos_add, hcos, hsin]
    have hb := abs_le.1 hδ
    have hc : -(1 / 2) ≤ Real.cos (4 / 5 * Real.pi * (peak.shift 0 - t * (1 / 2))) := by
      rw [← Real.cos_abs, abs_mul, abs_of_pos (by positivity)]
      have h1 : Real.cos (Real.pi - Real.pi / 3) = -(1 / 2) := by rw [Real.cos_pi_sub, Real.cos_pi_div_three]
      rw [← h1]
      refine Real.cos_le_cos_of_nonneg_of_le_pi (by positivity) (by linarith [Real.pi_pos]) ?_
      nlinarith [Real.pi_pos]
    have hc1 := Real.cos_le_one (4 / 5 * Real.pi * (peak.shift 0 - t * (1 / 2)))
    have habs : |1 / 16 + 2 * (-1 * Real.cos (4 / 5 * Real.pi * (peak.shift 0 - t * (1 / 2))) - 0 * Real.sin (4 / 5 * Real.pi * (peak.shift 0 - t * (1 / 2))))| ≤ 31 / 16 := by
      rw [abs_le]
      constructor <;> linarith
    rw [norm_one, abs_of_pos (by norm_num : (0 : ℝ) < 10)]
    rw [show ∀ y : ℝ, 1 / norm (ft ripple) * y * norm (ft ripple) = y from fun y => by field_simp]
    rw [div_le_iff₀ (by norm_num)]
    linarith
  have hratio : ‖peak.max‖ / norm (ft ripple) ≤ 31 / 33 := by
    rw [div_le_iff₀ hRp]
    have : ‖peak.max‖ * norm (ft ripple) ≤ 31 / 33 * norm (ft ripple) * norm (ft ripple) := by rw [mul_assoc, ← sq, hR2]; linarith
    exact le_of_mul_le_mul_right this hRp
  show 1 / 3 < Real.sqrt (1 - (min 1 |‖peak.max‖ / norm (ft (displaced ripple fun _ => 1 / 4))|) ^ 2)
  rw [hS, abs_of_nonneg (by positivity), min_eq_right (hratio.trans (by norm_num))]
  apply Real.lt_sqrt_of_sq_lt
  have h0 : 0 ≤ ‖peak.max‖ / norm (ft ripple) := by positivity
  nlinarith

end Verif.Subpixel
