import Verif.Model.SubpixelModule
import Verif.Props.SubpixelFraction

/-!
# Property C113: registration without a reference or without a subject
-/

namespace Verif.Subpixel

open Verif.Fourier Verif.Spec.Subpixel Complex

variable {d : ℕ} {N : Fin d → ℕ}

/-- The brightest pixel; the first of them in raster order. -/
def Brightest (f : Idx N → ℂ) (q : Idx N) : Prop := (∀ x, ‖f x‖ ≤ ‖f q‖) ∧ ∀ x, Spec.Modes.RasterLT (fun a => (x a : ℕ)) (fun a => (q a : ℕ)) → ‖f x‖ < ‖f q‖

theorem norm_ft_ne_zero (hN : ∀ a, 0 < N a) (f : Idx N → ℂ) (x : Idx N) (hx : f x ≠ 0) : norm (ft f) ≠ 0 := by
  rw [norm_eq_energy hN]
  refine (Real.sqrt_pos.2 (lt_of_lt_of_le (pow_pos (norm_pos_iff.2 hx) 2) ?_)).ne'
  exact Finset.single_le_sum (f := fun x => ‖f x‖ ^ 2) (fun _ _ => by positivity) (Finset.mem_univ x)

theorem norm_ft_zero (hN : ∀ a, 0 < N a) : norm (ft fun _ : Idx N => (0 : ℂ)) = 0 := by
  rw [norm_eq_energy hN]
  simp [energy]

theorem pointLike_eq (image : Image N) (h : RowMajor N image.order) : pointLike image = dot N := by
  funext x
  unfold pointLike dot
  simp only [h, true_and]

theorem pointLike_zero (image : Image N) (h : ¬RowMajor N image.order) : pointLike image = fun _ => 0 := by
  funext x
  unfold pointLike
  rw [if_neg fun h' => h h'.1]

/-- The order of the elements of an array with one axis. -/
theorem rowMajor_one (N : Fin 1 → ℕ) (order : Fin 1 ≃ Fin 1) : RowMajor N order := fun i j h _ _ => absurd (Subsingleton.elim i j) h.ne

/-- The order of the elements of an image that is transposed. -/
theorem rowMajor_transposed (N : Fin 2 → ℕ) : RowMajor N (Equiv.swap 0 1) ↔ N 0 ≤ 1 ∨ N 1 ≤ 1 := by
  constructor
  · intro h
    by_contra hc
    rw [not_or, not_le, not_le] at hc
    have := h 0 1 (by decide) (by simpa using hc.2) (by simpa using hc.1)
    simp at this
  · intro h i j hij h1 h2
    have hi : i = 0 := by fin_cases i <;> fin_cases j <;> simp_all
    have hj : j = 1 := by fin_cases i <;> fin_cases j <;> simp_all
    subst hi hj
    simp at h1 h2
    omega

/-- **C113 (two images).** For all subjects and references that are not zero: the shift, factor, and error are those of the `Reference`. -/
theorem C113_both (hN : ∀ a, 0 < N a) (subject reference : Image N) (x y : Idx N) (hx : subject.value x ≠ 0) (hy : reference.value y ≠ 0) (p : Option ℝ) :
    registerModule hN (.both subject reference) p = ⟨(register hN reference.value subject.value (p.getD (1 / 128))).shift, some (register hN reference.value subject.value (p.getD (1 / 128))).factor,
      some (register hN reference.value subject.value (p.getD (1 / 128))).error⟩ := by
  show registerImages hN _ _ (p.getD defaultPrecision) = _
  unfold registerImages
  rw [if_neg (norm_ft_ne_zero hN _ y hy), if_neg (norm_ft_ne_zero hN _ x hx)]
  rfl

/-- To the nearest pixel, the peak is the brightest pixel of the correlation. -/
theorem integerPeak_brightest (hN : ∀ a, 0 < N a) (X : Idx N → ℂ) (p : ℝ) (hp : p ≠ 0) : ∃ q, Brightest (ift X) q ∧ (integerPeak hN X p).max = ift X q ∧
    ∀ a, (integerPeak hN X p).shift a = (q a : ℕ) + N a * (if N a / 2 < (q a : ℕ) then 1 else 0 : ℤ) := by
  refine ⟨argmax hN fun x => ‖ift X x‖, ⟨argmax_max hN _, argmax_first hN _⟩, ?_, fun a => ?_⟩
  · unfold integerPeak
    rw [if_neg hp]
  · unfold integerPeak
    rw [if_neg hp]
    dsimp only
    split_ifs <;> simp

/-- **C113 (no reference).** For all subjects in raster order that are not zero, and precisions of whole pixels other than 0: the shift is the position of the brightest pixel, modulo the size of
the image, and the factor has the phase of that pixel. -/
theorem C113_point (hN : ∀ a, 0 < N a) (subject : Image N) (hr : RowMajor N subject.order) (p : ℝ) (hp : p ≠ 0) (hi : |p - roundHalfEven p| ≤ 1e-8) : ∃ q, Brightest subject.value q ∧
    (∀ a, (registerModule hN (.subject subject) (some p)).shift a = (q a : ℕ) + N a * (if N a / 2 < (q a : ℕ) then 1 else 0 : ℤ)) ∧
    (1e-8 < ‖subject.value q‖ → (registerModule hN (.subject subject) (some p)).factor = some (.finite (energy subject.value / (starRingEnd ℂ) (subject.value q)))) := by
  obtain ⟨q, hq, hm, hs⟩ := integerPeak_brightest hN (crossFt (ft (dot N)) (ft subject.value)) p hp
  rw [ift_cross_dot hN] at hq hm
  have hpk : findPeak hN (crossFt (ft (dot N)) (ft subject.value)) (∏ a, (N a : ℂ)) p = integerPeak hN (crossFt (ft (dot N)) (ft subject.value)) p := by
    unfold findPeak
    rw [if_pos hi]
  have hR : norm (ft (dot N)) = 1 := by rw [ft_dot hN, norm_ones hN]
  have e : registerModule hN (.subject subject) (some p) = ⟨(register hN (dot N) subject.value p).shift, some (register hN (dot N) subject.value p).factor,
      if norm (ft subject.value) = 0 then none else some (register hN (dot N) subject.value p).error⟩ := by
    show registerImages hN (pointLike subject) _ p = _
    unfold registerImages
    rw [pointLike_eq subject hr, hR, if_neg one_ne_zero]
  rw [e]
  refine ⟨q, hq, fun a => ?_, fun hb => ?_⟩
  · show (findPeak hN (crossFt (ft (dot N)) (ft subject.value)) (∏ a, (N a : ℂ)) p).shift a = _
    rw [hpk]
    exact hs a
  · show some (conclude (ft (dot N)) (ft subject.value) (findPeak hN (crossFt (ft (dot N)) (ft subject.value)) (∏ a, (N a : ℂ)) p)).factor = _
    rw [hpk]
    unfold conclude
    dsimp only [Registration.init]
    rw [hm, if_neg (not_le.2 hb), hR, norm_eq_energy hN, ← Complex.ofReal_pow, Real.sq_sqrt (show 0 ≤ energy subject.value from Finset.sum_nonneg fun _ _ => by positivity)]
    simp

/-- **C113 (no reference, fractions of pixels).** For all subjects in raster order, and precisions of which half a pixel is a multiple, such as the default: at the position of the shift, the
interpolated subject is at least as bright as any of its pixels. -/
theorem C113_fine (hN : ∀ a, 0 < N a) (subject : Image N) (hr : RowMajor N subject.order) (p : Option ℝ) (hp : Covers (p.getD (1 / 128))) (x : Idx N) :
    ‖subject.value x‖ ≤ ‖interpolate (ft subject.value) (registerModule hN (.subject subject) p).shift‖ := by
  have hR : norm (ft (dot N)) = 1 := by rw [ft_dot hN, norm_ones hN]
  have hX : crossFt (ft (dot N)) (ft subject.value) = ft subject.value := by
    funext k
    unfold crossFt
    rw [ft_dot hN, norm_ones hN]
    simp
  have e : (registerModule hN (.subject subject) p).shift = (findPeak hN (ft subject.value) (∏ a, (N a : ℂ)) (p.getD (1 / 128))).shift := by
    show (registerImages hN (pointLike subject) _ (p.getD (1 / 128))).shift = _
    unfold registerImages
    rw [pointLike_eq subject hr, hR, if_neg one_ne_zero]
    show (findPeak hN (crossFt (ft (dot N)) (ft subject.value)) (∏ a, (N a : ℂ)) (p.getD (1 / 128))).shift = _
    rw [hX]
  rw [e, ← findPeak_max]
  have h := findPeak_largest hN (ft subject.value) _ hp fun a => ((x a : ℕ) : ℤ)
  refine le_trans (le_of_eq ?_) h
  conv_lhs => rw [← C23_ift_ft subject.value, ift_eq_interpolate]
  simp

/-- The value of the interpolation at a whole number of pixels. -/
theorem interpolate_int (hN : ∀ a, 0 < N a) (X : Idx N → ℂ) (m : Fin d → ℤ) : interpolate X (fun a => (m a : ℝ)) = ift X fun a => wrap (N a) (hN a) (m a) := by
  rw [ift_eq_interpolate]
  refine interpolate_period hN X _ _ (fun a => m a / N a) fun a => ?_
  have h1 : ((wrap (N a) (hN a) (m a) : ℕ) : ℤ) = m a % N a := by
    show (((m a % N a).toNat : ℕ) : ℤ) = _
    rw [Int.toNat_of_nonneg (Int.emod_nonneg _ (by have := hN a; omega))]
  have h2 : ((wrap (N a) (hN a) (m a) : ℕ) : ℝ) = ((m a % N a : ℤ) : ℝ) := by rw [← h1]; simp
  rw [h2]
  have := Int.emod_add_mul_ediv (m a) (N a)
  exact_mod_cast this.symm

theorem interpolate_conj (F : Idx N → ℂ) (s : Fin d → ℝ) : interpolate (fun k => (starRingEnd ℂ) (F k)) s = (starRingEnd ℂ) (interpolate F (-s)) := by
  rw [interpolate_eq, interpolate_eq, map_div₀, map_sum, map_prod]
  simp_rw [map_mul, map_natCast, ← phase_neg, neg_neg]

/-- **C113 (no subject).** For all references in raster order that are not zero, and precisions of whole pixels other than 0: the shift is opposite to the position of a brightest pixel of the
reference, modulo the size of the image. -/
theorem C113_template (hN : ∀ a, 0 < N a) (reference : Image N) (y : Idx N) (hy : reference.value y ≠ 0) (hr : RowMajor N reference.order) (p : ℝ) (hp : p ≠ 0) (hi : |p - roundHalfEven p| ≤ 1e-8) :
    ∃ q : Idx N, (∀ x, ‖reference.value x‖ ≤ ‖reference.value q‖) ∧ ∃ m : Fin d → ℤ, ∀ a, (registerModule hN (.reference reference) (some p)).shift a = -((q a : ℕ) : ℝ) + N a * m a := by
  set R := ft reference.value with hR
  have hn := norm_ft_ne_zero hN _ y hy
  obtain ⟨q', hq', -, hs⟩ := integerPeak_brightest hN (crossFt R (ft (dot N))) p hp
  have hX : ∀ t, ‖interpolate (crossFt R (ft (dot N))) t‖ = ‖interpolate R (-t)‖ / norm R := fun t => by
    have h1 : crossFt R (ft (dot N)) = fun k => (starRingEnd ℂ) ((fun k => R k / norm R) k) := by
      funext k
      unfold crossFt
      rw [ft_dot hN]
      simp
    rw [h1, interpolate_conj, RCLike.norm_conj, interpolate_eq, interpolate_eq, norm_div, norm_div, div_right_comm]
    congr 1
    have h2 : ∑ k, (fun k => R k / (norm R : ℂ)) k * phase (- -t) k = (∑ k, R k * phase (- -t) k) / (norm R : ℂ) := by
      rw [Finset.sum_div]
      exact Finset.sum_congr rfl fun k _ => by ring
    rw [h2, norm_div, Complex.norm_real, Real.norm_of_nonneg (norm_nonneg' R)]
  have hpos : 0 < norm R := lt_of_le_of_ne (norm_nonneg' R) (Ne.symm hn)
  have hneg : ∀ x : Idx N, -(fun a => ((x a : ℕ) : ℝ)) = fun a => ((-((x a : ℕ) : ℤ) : ℤ) : ℝ) := fun x => funext fun a => by simp
  refine ⟨fun a => wrap (N a) (hN a) (-((q' a : ℕ) : ℤ)), fun x => ?_, fun a => -((-((q' a : ℕ) : ℤ)) / N a) + (if N a / 2 < (q' a : ℕ) then 1 else 0), fun a => ?_⟩
  · have h1 : reference.value x = interpolate R fun a => (x a : ℕ) := by rw [← ift_eq_interpolate, hR, C23_ift_ft]
    have h2 := hq'.1 fun a => wrap (N a) (hN a) (-((x a : ℕ) : ℤ))
    rw [← interpolate_int hN, hX, ift_eq_interpolate, hX, div_le_div_iff_of_pos_right hpos, hneg q', interpolate_int hN R, hR, C23_ift_ft, ← hR, ← hneg x, neg_neg, ← h1] at h2
    exact h2
  · have hsh : (registerModule hN (.reference reference) (some p)).shift a = (integerPeak hN (crossFt R (ft (dot N))) p).shift a := by
      show (registerImages hN reference.value (pointLike reference) p).shift a = _
      unfold registerImages
      rw [pointLike_eq reference hr, if_neg hn]
      show (findPeak hN (crossFt R (ft (dot N))) (∏ a, (N a : ℂ)) p).shift a = _
      unfold findPeak
      rw [if_pos hi]
    rw [hsh, hs a]
    have h1 : ((wrap (N a) (hN a) (-((q' a : ℕ) : ℤ)) : ℕ) : ℤ) = (-((q' a : ℕ) : ℤ)) % N a := by
      show ((((-((q' a : ℕ) : ℤ)) % N a).toNat : ℕ) : ℤ) = _
      rw [Int.toNat_of_nonneg (Int.emod_nonneg _ (by have := hN a; omega))]
    have h2 : ((wrap (N a) (hN a) (-((q' a : ℕ) : ℤ)) : ℕ) : ℝ) = (((-((q' a : ℕ) : ℤ)) % N a : ℤ) : ℝ) := by rw [← h1]; simp
    have h3 := congrArg (fun z : ℤ => (z : ℝ)) (Int.emod_add_mul_ediv (-((q' a : ℕ) : ℤ)) (N a))
    simp only [Int.cast_add, Int.cast_mul, Int.cast_natCast, Int.cast_neg] at h3
    rw [h2, Int.cast_add, Int.cast_neg]
    linear_combination h3

/-- **C113 (violation: order in memory).** Without a reference, all subjects of which the elements are not in raster order, such as transposed images, give the same shift of 3/4 pixel along each axis,
with a factor and an error that are not numbers. -/
theorem C113_order_violates (hN : ∀ a, 0 < N a) (subject : Image N) (h : ¬RowMajor N subject.order) : registerModule hN (.subject subject) none = ⟨fun _ => 3 / 4, none, none⟩ := by
  show registerImages hN (pointLike subject) _ defaultPrecision = _
  unfold registerImages
  rw [pointLike_zero subject h, if_pos (norm_ft_zero hN)]
  unfold undefinedOutcome
  congr 1
  funext a
  rw [if_neg not_whole_default, if_pos ⟨by unfold defaultPrecision; norm_num, by unfold defaultPrecision; norm_num⟩, zero_div]
  have h0 : roundHalfEven (0 : ℝ) = 0 := by simpa using roundHalfEven_int 0
  have hM : ⌈1.5 / defaultPrecision⌉.toNat = 192 := by
    have : (1.5 : ℝ) / defaultPrecision = ((192 : ℕ) : ℝ) := by unfold defaultPrecision; norm_num
    rw [this, Int.ceil_natCast, Int.toNat_natCast]
  rw [h0, hM]
  unfold defaultPrecision
  norm_num

/-- **C113 (violation: order in memory, no subject).** Without a subject, references of which the elements are not in raster order give an infinite factor and an error that is not a number. -/
theorem C113_template_violates (hN : ∀ a, 0 < N a) (reference : Image N) (y : Idx N) (hy : reference.value y ≠ 0) (h : ¬RowMajor N reference.order) (p : Option ℝ) :
    (registerModule hN (.reference reference) p).factor = some .inf ∧ (registerModule hN (.reference reference) p).error = none := by
  have e : registerModule hN (.reference reference) p = registerImages hN reference.value (fun _ => 0) (p.getD defaultPrecision) := by
    show registerImages hN reference.value (pointLike reference) _ = _
    rw [pointLike_zero reference h]
  rw [e]
  unfold registerImages
  rw [if_neg (norm_ft_ne_zero hN _ y hy)]
  refine ⟨congrArg some (C60_tiny_violates hN _ _ ?_ _).1, if_pos (norm_ft_zero hN)⟩
  simp [energy]
  norm_num

/-- A transposed image of 2 by 2 pixels. -/
example : ¬RowMajor (fun _ : Fin 2 => 2) (Equiv.swap 0 1) := by
  rw [rowMajor_transposed]
  decide

/-- The hypotheses of `C113_both`, `C113_point`, and `C113_template` are met by an image with a bright pixel. -/
example (N : Fin 2 → ℕ) (hN : ∀ a, 0 < N a) : RowMajor N (Equiv.refl _) ∧ dot N (fun a => ⟨0, hN a⟩) ≠ 0 ∧ |(1 : ℝ) - roundHalfEven 1| ≤ 1e-8 := by
  refine ⟨fun i j h _ _ => h, by unfold dot; simp, ?_⟩
  have := roundHalfEven_int 1
  rw [Int.cast_one] at this
  rw [this]
  norm_num

end Verif.Subpixel
