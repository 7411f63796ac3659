import Verif.Lemmas.SubpixelPeak
import Verif.Props.SubpixelRegistration

/-!
# Property C60: registration
-/

namespace Verif.Subpixel

open Verif.Fourier Verif.Spec.Subpixel Complex

variable {d : ℕ} {N : Fin d → ℕ}

/-- Completing the square. -/
theorem least_squares {ι : Type} [Fintype ι] (R T : ι → ℂ) (a : ℂ) (hT : ∑ k, ‖T k‖ ^ 2 ≠ 0) :
    ∑ k, ‖R k - a * T k‖ ^ 2 = ∑ k, ‖R k‖ ^ 2 - ‖∑ k, (starRingEnd ℂ) (R k) * T k‖ ^ 2 / ∑ k, ‖T k‖ ^ 2 +
      (∑ k, ‖T k‖ ^ 2) * ‖a - (starRingEnd ℂ) (∑ k, (starRingEnd ℂ) (R k) * T k) / ((∑ k, ‖T k‖ ^ 2 : ℝ) : ℂ)‖ ^ 2 := by
  set W : ℝ := ∑ k, ‖T k‖ ^ 2 with hW
  set J : ℂ := ∑ k, (starRingEnd ℂ) (R k) * T k with hJ
  have h1 : ∀ k, ‖R k - a * T k‖ ^ 2 = ‖R k‖ ^ 2 + ‖a‖ ^ 2 * ‖T k‖ ^ 2 - 2 * (a * ((starRingEnd ℂ) (R k) * T k)).re := fun k => by
    rw [Complex.sq_norm, Complex.sq_norm, Complex.sq_norm, Complex.sq_norm, normSq_sub, normSq_mul]
    congr 2
    rw [← conj_re (a * _)]
    congr 1
    simp only [map_mul, conj_conj]
    ring
  simp_rw [h1]
  rw [Finset.sum_sub_distrib, Finset.sum_add_distrib, ← Finset.mul_sum, ← Finset.mul_sum, ← re_sum, ← Finset.mul_sum, ← hW, ← hJ]
  have h2 : ‖a - (starRingEnd ℂ) J / (W : ℂ)‖ ^ 2 = ‖a‖ ^ 2 + ‖J‖ ^ 2 / W ^ 2 - 2 * (a * J).re / W := by
    rw [Complex.sq_norm, normSq_sub, normSq_div, normSq_conj, normSq_ofReal, Complex.sq_norm, Complex.sq_norm, map_div₀, conj_conj, conj_ofReal, ← mul_div_assoc, div_ofReal_re]
    ring
  rw [h2]
  field_simp
  ring

/-- The shifted subject in Fourier space. -/
noncomputable def moved (S : Idx N → ℂ) (s : Fin d → ℝ) : Idx N → ℂ := fun k => S k * phase (-s) k

theorem sum_moved (S : Idx N → ℂ) (s : Fin d → ℝ) : ∑ k, ‖moved S s k‖ ^ 2 = ∑ k, ‖S k‖ ^ 2 := Finset.sum_congr rfl fun k _ => by unfold moved; rw [norm_mul, norm_phase, mul_one]

theorem interpolate_cross (R S : Idx N → ℂ) (s : Fin d → ℝ) : interpolate (crossFt R S) s = (∑ k, (starRingEnd ℂ) (R k) * moved S s k) / ((norm R : ℂ) * ∏ a, (N a : ℂ)) := by
  rw [interpolate_eq, div_mul_eq_div_div]
  have : ∀ k, crossFt R S k * phase (-s) k = (starRingEnd ℂ) (R k) * moved S s k / (norm R : ℂ) := fun k => by unfold crossFt moved; ring
  simp_rw [this]
  rw [← Finset.sum_div]

theorem total_pos (hN : ∀ a, 0 < N a) : 0 < ∏ a, (N a : ℝ) := Finset.prod_pos fun a _ => by exact_mod_cast hN a

theorem norm_sq (hN : ∀ a, 0 < N a) (F : Idx N → ℂ) : norm F ^ 2 = (∑ k, ‖F k‖ ^ 2) / ∏ a, (N a : ℝ) :=
  Real.sq_sqrt (div_nonneg (Finset.sum_nonneg fun _ _ => by positivity) (total_pos hN).le)

theorem norm_nonneg' (F : Idx N → ℂ) : 0 ≤ norm F := Real.sqrt_nonneg _

theorem factor_finite {R S : Idx N → ℂ} {peak : Peak d} {z : ℂ} (h : (conclude R S peak).factor = .finite z) : 1e-8 < ‖peak.max‖ ∧ z = (norm S : ℂ) ^ 2 / ((starRingEnd ℂ) peak.max * norm R) := by
  change (if ‖peak.max‖ ≤ 1e-8 then Factor.inf else .finite ((norm S : ℂ) ^ 2 / ((starRingEnd ℂ) peak.max * norm R))) = .finite z at h
  split_ifs at h with h1
  exact ⟨not_le.1 h1, (Factor.finite.inj h).symm⟩

/-- What is concluded from a peak, in Fourier space. -/
theorem conclude_spec (hN : ∀ a, 0 < N a) (R S : Idx N → ℂ) (peak : Peak d) (hpeak : peak.max = interpolate (crossFt R S) peak.shift) (z : ℂ) (hz : (conclude R S peak).factor = .finite z) :
    z ≠ 0 ∧ norm R ≠ 0 ∧ ∑ k, ‖S k‖ ^ 2 ≠ 0 ∧
      (conclude R S peak).error ^ 2 * ∑ k, ‖R k‖ ^ 2 = ∑ k, ‖R k‖ ^ 2 - (norm R * (∏ a, (N a : ℝ)) * ‖peak.max‖) ^ 2 / ∑ k, ‖S k‖ ^ 2 ∧
      ∀ a : ℂ, ∑ k, ‖R k - a * moved S peak.shift k‖ ^ 2 = (conclude R S peak).error ^ 2 * ∑ k, ‖R k‖ ^ 2 + (∑ k, ‖S k‖ ^ 2) * ‖a - 1 / z‖ ^ 2 := by
  obtain ⟨h1, rfl⟩ := factor_finite hz
  have hn := total_pos hN
  have hnc : (∏ a, (N a : ℂ)) = ((∏ a, (N a : ℝ) : ℝ) : ℂ) := by push_cast; rfl
  set n : ℝ := ∏ a, (N a : ℝ) with hndef
  set J : ℂ := ∑ k, (starRingEnd ℂ) (R k) * moved S peak.shift k with hJ
  have hm0 : peak.max ≠ 0 := fun h => by rw [h, norm_zero] at h1; norm_num at h1
  have hmax : peak.max = J / ((norm R : ℂ) * (n : ℂ)) := by rw [hpeak, interpolate_cross, hnc]
  have hr0 : norm R ≠ 0 := fun h => by rw [h] at hmax; simp at hmax; exact hm0 hmax
  have hJ0 : J ≠ 0 := fun h => by rw [h, zero_div] at hmax; exact hm0 hmax
  have hS0 : ∑ k, ‖S k‖ ^ 2 ≠ 0 := by
    intro h
    apply hJ0
    rw [hJ]
    refine Finset.sum_eq_zero fun k _ => ?_
    have := (Finset.sum_eq_zero_iff_of_nonneg fun k _ => by positivity).1 h k (Finset.mem_univ k)
    have : S k = 0 := by simpa using this
    unfold moved
    rw [this, zero_mul, mul_zero]
  have hR2 := norm_sq hN R
  have hS2 := norm_sq hN S
  rw [← hndef] at hR2 hS2
  have hrC : (norm R : ℂ) ≠ 0 := by exact_mod_cast hr0
  have hnC : (n : ℂ) ≠ 0 := by exact_mod_cast hn.ne'
  have hconj : (starRingEnd ℂ) J ≠ 0 := (map_ne_zero _).2 hJ0
  have hS0C : ((∑ k, ‖S k‖ ^ 2 : ℝ) : ℂ) ≠ 0 := by exact_mod_cast hS0
  have hz' : (norm S : ℂ) ^ 2 / ((starRingEnd ℂ) peak.max * norm R) = ((∑ k, ‖S k‖ ^ 2 : ℝ) : ℂ) / (starRingEnd ℂ) J := by
    rw [hmax, map_div₀, map_mul, conj_ofReal, conj_ofReal]
    have : (norm S : ℂ) ^ 2 = ((∑ k, ‖S k‖ ^ 2 : ℝ) : ℂ) / n := by rw [← ofReal_pow, hS2]; push_cast; rfl
    rw [this]
    field_simp
  have hR0 : ∑ k, ‖R k‖ ^ 2 ≠ 0 := by
    intro h
    rw [h, zero_div] at hR2
    exact hr0 (pow_eq_zero_iff (two_ne_zero)|>.1 hR2)
  have hTW := sum_moved S peak.shift
  have hls := fun a => least_squares R (moved S peak.shift) a (by rw [hTW]; exact hS0)
  rw [hTW] at hls
  simp only [← hJ] at hls
  have hSpos : 0 < ∑ k, ‖S k‖ ^ 2 := lt_of_le_of_ne (Finset.sum_nonneg fun _ _ => by positivity) (Ne.symm hS0)
  have hRpos : 0 < ∑ k, ‖R k‖ ^ 2 := lt_of_le_of_ne (Finset.sum_nonneg fun _ _ => by positivity) (Ne.symm hR0)
  -- Cauchy-Schwarz
  have hcs : ‖J‖ ^ 2 / ∑ k, ‖S k‖ ^ 2 ≤ ∑ k, ‖R k‖ ^ 2 := by
    have h := hls ((starRingEnd ℂ) J / ((∑ k, ‖S k‖ ^ 2 : ℝ) : ℂ))
    rw [sub_self, norm_zero] at h
    have h0 : 0 ≤ ∑ k, ‖R k - (starRingEnd ℂ) J / ((∑ k, ‖S k‖ ^ 2 : ℝ) : ℂ) * moved S peak.shift k‖ ^ 2 := Finset.sum_nonneg fun _ _ => by positivity
    rw [h] at h0
    linarith [h0]
  have hSn : 0 < norm S := by
    refine lt_of_le_of_ne (norm_nonneg' S) fun h => ?_
    rw [← h] at hS2
    have := (div_pos hSpos hn).ne'
    rw [← hS2] at this
    simp at this
  have hcos : |‖peak.max‖ / norm S| ^ 2 = ‖J‖ ^ 2 / ((∑ k, ‖R k‖ ^ 2) * ∑ k, ‖S k‖ ^ 2) := by
    rw [sq_abs, div_pow, hS2, hmax, norm_div, div_pow, norm_mul, mul_pow]
    have e1 : ‖(norm R : ℂ)‖ ^ 2 = (∑ k, ‖R k‖ ^ 2) / n := by rw [Complex.norm_real, Real.norm_eq_abs, sq_abs, hR2]
    have e2 : ‖(n : ℂ)‖ ^ 2 = n ^ 2 := by rw [Complex.norm_real, Real.norm_eq_abs, sq_abs]
    rw [e1, e2]
    field_simp
  have hle : |‖peak.max‖ / norm S| ≤ 1 := by
    rw [← abs_of_nonneg (abs_nonneg (‖peak.max‖ / norm S)), ← sq_le_one_iff_abs_le_one, hcos, div_le_one (by positivity)]
    rw [div_le_iff₀ hSpos] at hcs
    exact hcs
  have herr : (conclude R S peak).error ^ 2 = 1 - ‖J‖ ^ 2 / ((∑ k, ‖R k‖ ^ 2) * ∑ k, ‖S k‖ ^ 2) := by
    show Real.sqrt (1 - (min 1 |‖peak.max‖ / norm S|) ^ 2) ^ 2 = _
    rw [min_eq_right hle, Real.sq_sqrt (by nlinarith [abs_nonneg (‖peak.max‖ / norm S)]), hcos]
  have hJn : norm R * n * ‖peak.max‖ = ‖J‖ := by
    rw [hmax, norm_div, norm_mul, Complex.norm_real, Real.norm_of_nonneg (norm_nonneg' R), Complex.norm_real, Real.norm_of_nonneg hn.le]
    field_simp
  refine ⟨by rw [hz']; exact div_ne_zero hS0C hconj, hr0, hS0, by rw [hJn, herr]; field_simp, fun a => ?_⟩
  rw [hls, herr, hz', one_div_div]
  congr 1
  field_simp

/-- The difference of images in Fourier space. -/
theorem energy_sub (hN : ∀ a, 0 < N a) (f g : Idx N → ℂ) : energy (fun x => f x - g x) = (∑ k, ‖ft f k - ft g k‖ ^ 2) / ∏ a, (N a : ℝ) := by
  have h := C23_energy (fun x => f x - g x)
  have e : ft (fun x => f x - g x) = fun k => ft f k - ft g k := by
    have := C23_ft_linear 1 (-1) f g
    simp only [one_mul, neg_one_mul, ← sub_eq_add_neg] at this
    exact this
  rw [e] at h
  rw [h, mul_div_cancel_left₀ _ (total_pos hN).ne']
  rfl

theorem energy_ft (hN : ∀ a, 0 < N a) (f : Idx N → ℂ) : energy f = (∑ k, ‖ft f k‖ ^ 2) / ∏ a, (N a : ℝ) := by
  rw [C23_energy, mul_div_cancel_left₀ _ (total_pos hN).ne']
  rfl

theorem ft_scale (a : ℂ) (f : Idx N → ℂ) : ft (fun x => a * f x) = fun k => a * ft f k := by
  have := C23_ft_linear a 0 f f
  simpa using this

theorem register_holds (hN : ∀ a, 0 < N a) (reference subject : Idx N → ℂ) (p : ℝ) (z : ℂ) (hz : (register hN reference subject p).factor = .finite z) :
    Holds (register hN reference subject p) (ft subject) z :=
  ⟨hz, fun _ h => (Option.some.inj h).symm, fun _ h => (nomatch h), fun h => (nomatch h)⟩

/-- **C60 (identity).** For all images and precisions: the distance of the reference to any multiple `a` of the shifted subject, in terms of the error and the factor of the registration. -/
theorem C60_distance (hN : ∀ a, 0 < N a) (reference subject : Idx N → ℂ) (p : ℝ) (z : ℂ) (hz : (register hN reference subject p).factor = .finite z)
    (he : Effective N (register hN reference subject p).shift) (a : ℂ) :
    energy (fun x => reference x - a * roll subject (-(register hN reference subject p).shift) x) =
      (register hN reference subject p).error ^ 2 * energy reference + energy subject * ‖a - 1 / z‖ ^ 2 := by
  have h := (conclude_spec hN (ft reference) (ft subject) _ (findPeak_max hN _ p) z hz).2.2.2.2 a
  rw [energy_sub hN, energy_ft hN, energy_ft hN subject, ft_scale, ft_roll, effective_neg he]
  dsimp only
  have e : ∑ k, ‖ft reference k - a * (ft subject k * phase (-(register hN reference subject p).shift) k)‖ ^ 2 = _ := h
  rw [e, add_div, mul_div_assoc, mul_div_right_comm]
  rfl

/-- **C60 (error).** For all images and precisions: the image of the registration is the shifted subject divided by the factor, and its relative root-mean-square difference with the reference is
the error.  Missing: factors of at most 10⁻⁸ (see `C61_violates`). -/
theorem C60_error_partial (hN : ∀ a, 0 < N a) (reference subject : Idx N → ℂ) (p : ℝ) (z : ℂ) (hz : (register hN reference subject p).factor = .finite z) (h1 : 1e-8 < ‖z‖)
    (he : Effective N (register hN reference subject p).shift) : ∃ g, (register hN reference subject p).readImage.1 = .ok g ∧
      (g = fun x => roll subject (-(register hN reference subject p).shift) x / z) ∧ energy (fun x => reference x - g x) = (register hN reference subject p).error ^ 2 * energy reference := by
  refine ⟨_, (images_of_holds h1 (register_holds hN reference subject p z hz)).2, rfl, ?_⟩
  have h := C60_distance hN reference subject p z hz he (1 / z)
  rw [sub_self, norm_zero] at h
  simp only [one_div, ne_eq, OfNat.ofNat_ne_zero, not_false_eq_true, zero_pow, mul_zero, add_zero] at h
  rw [← h]
  simp only [div_eq_inv_mul]

/-- **C60 (factor).** For all images and precisions: no other factor brings the shifted subject closer to the reference. -/
theorem C60_factor_partial (hN : ∀ a, 0 < N a) (reference subject : Idx N → ℂ) (p : ℝ) (z : ℂ) (hz : (register hN reference subject p).factor = .finite z) (h1 : 1e-8 < ‖z‖)
    (he : Effective N (register hN reference subject p).shift) (g : Idx N → ℂ) (hg : (register hN reference subject p).readImage.1 = .ok g) (a : ℂ) :
    energy (fun x => reference x - g x) ≤ energy fun x => reference x - a * roll subject (-(register hN reference subject p).shift) x := by
  obtain ⟨g', hg', -, h⟩ := C60_error_partial hN reference subject p z hz h1 he
  have : g = g' := Except.ok.inj (hg.symm.trans hg')
  subst this
  rw [h, C60_distance hN reference subject p z hz he a]
  have : 0 ≤ energy subject * ‖a - 1 / z‖ ^ 2 := mul_nonneg (Finset.sum_nonneg fun _ _ => by positivity) (by positivity)
  linarith

/-- The precisions for which the search includes all shifts by whole pixels: whole pixels, half pixels, and parts of half pixels. -/
def Covers (p : ℝ) : Prop := p ≠ 0 ∧ (|p - roundHalfEven p| ≤ 1e-8 ∨ 1 / 2 ≤ p ∨ ∃ n : ℕ, n * p = 1 / 2)

theorem covers_default : Covers defaultPrecision := ⟨by unfold defaultPrecision; norm_num, .inr (.inr ⟨64, by unfold defaultPrecision; norm_num⟩)⟩

theorem findPeak_largest (hN : ∀ a, 0 < N a) (X : Idx N → ℂ) (p : ℝ) (hp : Covers p) (m : Fin d → ℤ) : ‖interpolate X fun a => (m a : ℝ)‖ ≤ ‖(findPeak hN X (∏ a, (N a : ℂ)) p).max‖ := by
  unfold findPeak
  have hhalf : ‖interpolate X fun a => (m a : ℝ)‖ ≤ ‖(halfPeak hN X).max‖ := by
    have := halfPeak_largest hN X fun a => 2 * m a
    refine le_trans (le_of_eq (congrArg _ (congrArg _ (funext fun a => ?_)))) this
    push_cast
    ring
  split_ifs with h1 h2
  · exact integerPeak_largest hN X p hp.1 m
  · obtain ⟨-, h | h | ⟨n, hn⟩⟩ := hp
    · exact absurd h h1
    · exact absurd h2.1 (not_lt.2 h)
    · exact hhalf.trans (refine_largest hN X p h2.2 n hn)
  · exact hhalf

/-- **C60 (optimal).** For all images: no shift by whole pixels, with any factor, brings the subject closer to the reference than the registration. -/
theorem C60_optimal_partial (hN : ∀ a, 0 < N a) (reference subject : Idx N → ℂ) (p : ℝ) (hp : Covers p) (z : ℂ) (hz : (register hN reference subject p).factor = .finite z) (h1 : 1e-8 < ‖z‖)
    (he : Effective N (register hN reference subject p).shift) (g : Idx N → ℂ) (hg : (register hN reference subject p).readImage.1 = .ok g) (a : ℂ) (m : Fin d → ℤ) :
    energy (fun x => reference x - g x) ≤ energy fun x => reference x - a * circular subject m x := by
  have hf := C60_factor_partial hN reference subject p z hz h1 he g hg
  refine (hf (1 / z)).trans ?_
  rw [C60_distance hN reference subject p z hz he, sub_self, norm_zero]
  obtain ⟨-, hr0, hS0, herr, -⟩ := conclude_spec hN (ft reference) (ft subject) _ (findPeak_max hN _ p) z hz
  have hn := total_pos hN
  rw [energy_sub hN, energy_ft hN reference, ft_scale, ft_circular hN]
  have hlarge := findPeak_largest hN (crossFt (ft reference) (ft subject)) p hp (-m)
  have hm : (fun a => ((-m) a : ℝ)) = -fun a => (m a : ℝ) := by funext a; simp
  have hmoved : (fun k => ft reference k - a * (ft subject k * phase (fun a => (m a : ℝ)) k)) = fun k => ft reference k - a * moved (ft subject) (fun a => ((-m) a : ℝ)) k := by
    funext k
    unfold moved
    rw [hm, neg_neg]
  have hls := least_squares (ft reference) (moved (ft subject) fun a => ((-m) a : ℝ)) a (by rw [sum_moved]; exact hS0)
  rw [sum_moved] at hls
  have hJ : ‖∑ k, (starRingEnd ℂ) (ft reference k) * moved (ft subject) (fun a => ((-m) a : ℝ)) k‖ =
      norm (ft reference) * (∏ a, (N a : ℝ)) * ‖interpolate (crossFt (ft reference) (ft subject)) fun a => ((-m) a : ℝ)‖ := by
    rw [interpolate_cross, norm_div, norm_mul, Complex.norm_real, Real.norm_of_nonneg (norm_nonneg' _)]
    have e : ‖∏ a, (N a : ℂ)‖ = ∏ a, (N a : ℝ) := by rw [norm_prod]; exact Finset.prod_congr rfl fun a _ => Complex.norm_natCast _
    rw [e]
    field_simp
  rw [hJ] at hls
  have hSpos : 0 < ∑ k, ‖ft subject k‖ ^ 2 := lt_of_le_of_ne (Finset.sum_nonneg fun _ _ => by positivity) (Ne.symm hS0)
  have hsq : (norm (ft reference) * (∏ a, (N a : ℝ)) * ‖interpolate (crossFt (ft reference) (ft subject)) fun a => ((-m) a : ℝ)‖) ^ 2 / (∑ k, ‖ft subject k‖ ^ 2) ≤
      (norm (ft reference) * (∏ a, (N a : ℝ)) * ‖(findPeak hN (crossFt (ft reference) (ft subject)) (∏ a, (N a : ℂ)) p).max‖) ^ 2 / ∑ k, ‖ft subject k‖ ^ 2 := by
    refine div_le_div_of_nonneg_right (pow_le_pow_left₀ ?_ (mul_le_mul_of_nonneg_left hlarge ?_) 2) hSpos.le
    · exact mul_nonneg (mul_nonneg (norm_nonneg' _) hn.le) (_root_.norm_nonneg _)
    · exact mul_nonneg (norm_nonneg' _) hn.le
  have hb : 0 ≤ (∑ k, ‖ft subject k‖ ^ 2) * ‖a - (starRingEnd ℂ) (∑ k, (starRingEnd ℂ) (ft reference k) * moved (ft subject) (fun a => ((-m) a : ℝ)) k) / ((∑ k, ‖ft subject k‖ ^ 2 : ℝ) : ℂ)‖ ^ 2 :=
    mul_nonneg hSpos.le (by positivity)
  have hmain : (register hN reference subject p).error ^ 2 * ∑ k, ‖ft reference k‖ ^ 2 ≤ ∑ k, ‖ft reference k - a * (ft subject k * phase (fun a => (m a : ℝ)) k)‖ ^ 2 := by
    have e : ∑ k, ‖ft reference k - a * (ft subject k * phase (fun a => (m a : ℝ)) k)‖ ^ 2 = ∑ k, ‖ft reference k - a * moved (ft subject) (fun a => ((-m) a : ℝ)) k‖ ^ 2 :=
      Finset.sum_congr rfl fun k _ => by rw [congrFun hmoved k]
    rw [e, hls]
    refine le_trans (le_of_eq herr) ?_
    linarith
  rw [show (0 : ℝ) ^ 2 = 0 by norm_num, mul_zero, add_zero, ← mul_div_assoc]
  exact div_le_div_of_nonneg_right hmain hn.le

end Verif.Subpixel
