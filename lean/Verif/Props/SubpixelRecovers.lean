import Verif.Props.SubpixelRegister

/-!
# Property C60: registration of shifted copies
-/

namespace Verif.Subpixel

open Verif.Fourier Verif.Spec.Subpixel Complex

variable {d : ℕ} {N : Fin d → ℕ}

theorem circular_neg (f : Idx N → ℂ) (s : Fin d → ℤ) : circular (circular f s) (-s) = f := by
  funext x
  unfold circular
  congr 1
  funext a
  apply Fin.ext
  have hn := pos_of_idx x a
  have key : ∀ i : ℤ, ((wrap (N a) hn i : ℕ) : ℤ) = i % N a := fun i => by
    show (((i % N a).toNat : ℕ) : ℤ) = _
    exact Int.toNat_of_nonneg (Int.emod_nonneg i (by omega))
  have h : ((wrap (N a) hn (((wrap (N a) hn (((x a : ℕ) : ℤ) - (-s) a) : ℕ) : ℤ) - s a) : ℕ) : ℤ) = (x a : ℕ) := by
    rw [key, key, Int.emod_sub_emod]
    have : ((x a : ℕ) : ℤ) - (-s) a - s a = (x a : ℕ) := by simp
    rw [this]
    exact Int.emod_eq_of_lt (by omega) (by have := (x a).isLt; omega)
  exact_mod_cast h

open Classical in
/-- The unit of the shifts that are found. -/
noncomputable def unit (p : ℝ) : ℝ := if |p - roundHalfEven p| ≤ 1e-8 then 1 else if p < 1 / 2 ∧ 0 < p then p else 1 / 2

/-- The shifts that are found are multiples of the precision. -/
theorem findPeak_shift (hN : ∀ a, 0 < N a) (X : Idx N → ℂ) (total : ℂ) (p : ℝ) (a : Fin d) : ∃ m : ℤ, (findPeak hN X total p).shift a = m * unit p := by
  unfold findPeak unit
  split_ifs with h1 h2
  · unfold integerPeak
    split_ifs
    · exact ⟨0, by simp⟩
    · dsimp only
      split_ifs
      · exact ⟨(argmax hN (fun x => ‖ift X x‖) a : ℕ) + (N a : ℕ), by push_cast; ring⟩
      · exact ⟨(argmax hN (fun x => ‖ift X x‖) a : ℕ), by push_cast; ring⟩
  · unfold refine
    dsimp only
    generalize (argmax (N := fun _ : Fin d => ⌈1.5 / p⌉.toNat) _ _ a : ℕ) = l
    obtain ⟨q, hq⟩ : ∃ q : ℤ, roundHalfEven ((halfPeak hN X).shift a / p) = q := by
      unfold roundHalfEven
      split_ifs
      · exact ⟨_, rfl⟩
      · exact ⟨⌊(halfPeak hN X).shift a / p⌋ + 1, by push_cast; rfl⟩
      · exact ⟨_, rfl⟩
      · exact ⟨⌊(halfPeak hN X).shift a / p⌋ + 1, by push_cast; rfl⟩
    exact ⟨q + (-(l : ℤ) + (⌈1.5 / p⌉.toNat / 2 : ℕ)), by rw [hq, Int.cast_add, Int.cast_add, Int.cast_neg, Int.cast_natCast, Int.cast_natCast]; ring⟩
  · exact halfPeak_shift hN X a

/-- The precision is not so fine, or the image so large, that shifts by the precision are mistaken for zero. -/
def Resolves (N : Fin d → ℕ) (p : ℝ) : Prop := 1e-8 < unit p ∧ ∀ a, N a * 1e-8 < 6 * unit p

theorem effective_register (hN : ∀ a, 0 < N a) (reference subject : Idx N → ℂ) (p : ℝ) (h : Resolves N p) : Effective N (register hN reference subject p).shift := by
  have hs := findPeak_shift hN (crossFt (ft reference) (ft subject)) (∏ a, (N a : ℂ)) p
  have hu : 0 < unit p := lt_trans (by norm_num) h.1
  have key : ∀ a, (register hN reference subject p).shift a = 0 ∨ unit p ≤ |(register hN reference subject p).shift a| := fun a => by
    obtain ⟨m, hm⟩ := hs a
    by_cases h0 : m = 0
    · left
      exact hm.trans (by rw [h0]; simp)
    · right
      rw [show (register hN reference subject p).shift a = m * unit p from hm, abs_mul, abs_of_pos hu]
      have : (1 : ℝ) ≤ |(m : ℝ)| := by exact_mod_cast Int.one_le_abs h0
      nlinarith
  refine effective_of (fun a => (key a).imp_right fun h' => lt_of_lt_of_le h.1 h') fun a => (key a).imp_right fun h' => ?_
  have hNa : (0 : ℝ) < N a := by exact_mod_cast hN a
  rw [abs_div, abs_mul, abs_of_pos (by positivity : (0 : ℝ) < 2 * Real.pi), abs_of_pos hNa, lt_div_iff₀ hNa]
  have := h.2 a
  nlinarith [Real.pi_gt_three]

theorem norm_eq_energy (hN : ∀ a, 0 < N a) (f : Idx N → ℂ) : norm (ft f) = Real.sqrt (energy f) := by rw [energy_ft hN]; rfl

/-- **C60 (recovery).** For all images, shifts by whole pixels, and factors: a shifted and multiplied copy of the reference is registered without error, its registered image is the reference,
and the factor has the same magnitude.  Missing: shifts by fractions of pixels (see `C60_half_partial`, `C60_fraction_partial`), precisions of which half a pixel is not a multiple, and copies that are very weak (see `C60_tiny_violates`). -/
theorem C60_recovers_partial (hN : ∀ a, 0 < N a) (reference : Idx N → ℂ) (c : ℂ) (s : Fin d → ℤ) (p : ℝ) (hp : Covers p) (hr : Resolves N p) (hc : 1e-8 < ‖c‖) (hc' : 1e-8 < ‖c‖ * Real.sqrt (energy reference)) :
    (register hN reference (fun x => c * circular reference s x) p).error = 0 ∧ (register hN reference (fun x => c * circular reference s x) p).readImage.1 = .ok reference ∧
      ∃ z, (register hN reference (fun x => c * circular reference s x) p).factor = .finite z ∧ ‖z‖ = ‖c‖ := by
  set subject : Idx N → ℂ := fun x => c * circular reference s x with hsub
  set R := ft reference with hR
  have hS : ft subject = fun k => c * (R k * phase (fun a => (s a : ℝ)) k) := by rw [hsub, ft_scale, ft_circular hN]
  have hn := total_pos hN
  have hn0 := total_ne_zero hN
  rw [← norm_eq_energy hN, ← hR] at hc'
  have hrp : 0 < norm R := by
    refine lt_of_le_of_ne (norm_nonneg' R) fun h => ?_
    rw [← h, mul_zero] at hc'
    norm_num at hc'
  have hcp : 0 < ‖c‖ := lt_trans (by norm_num) hc
  have hr2 := norm_sq hN R
  have hRsum : ∑ k, ‖R k‖ ^ 2 = norm R ^ 2 * ∏ a, (N a : ℝ) := by rw [hr2]; field_simp
  have hSsum : ∑ k, ‖ft subject k‖ ^ 2 = ‖c‖ ^ 2 * ∑ k, ‖R k‖ ^ 2 := by
    rw [hS, Finset.mul_sum]
    refine Finset.sum_congr rfl fun k _ => ?_
    rw [norm_mul, norm_mul, norm_phase, mul_one, mul_pow]
  have hSn : norm (ft subject) = ‖c‖ * norm R := by
    unfold norm
    rw [hSsum, mul_div_assoc, Real.sqrt_mul (by positivity), Real.sqrt_sq hcp.le]
  -- the correlation at the shift of the subject
  have hat : ‖interpolate (crossFt R (ft subject)) fun a => (s a : ℝ)‖ = ‖c‖ * norm R := by
    rw [interpolate_cross]
    have : ∑ k, (starRingEnd ℂ) (R k) * moved (ft subject) (fun a => (s a : ℝ)) k = c * ((∑ k, ‖R k‖ ^ 2 : ℝ) : ℂ) := by
      push_cast
      rw [Finset.mul_sum]
      refine Finset.sum_congr rfl fun k _ => ?_
      unfold moved
      rw [hS]
      dsimp only
      have h1 := phase_neg_mul (fun a => (s a : ℝ)) k
      have h2 : (starRingEnd ℂ) (R k) * R k = ((‖R k‖ : ℝ) : ℂ) ^ 2 := by rw [← Complex.normSq_eq_conj_mul_self, ← Complex.sq_norm]; push_cast; rfl
      rw [← h2]
      linear_combination c * ((starRingEnd ℂ) (R k) * R k) * h1
    rw [this, hRsum, norm_div, norm_mul, norm_mul, Complex.norm_real, Complex.norm_real, Real.norm_of_nonneg hrp.le, Real.norm_of_nonneg (by positivity)]
    have e : ‖∏ a, (N a : ℂ)‖ = ∏ a, (N a : ℝ) := by rw [norm_prod]; exact Finset.prod_congr rfl fun a _ => Complex.norm_natCast _
    rw [e]
    field_simp
  set peak := findPeak hN (crossFt R (ft subject)) (∏ a, (N a : ℂ)) p with hpeak
  have hge : ‖c‖ * norm R ≤ ‖peak.max‖ := hat ▸ findPeak_largest hN (crossFt R (ft subject)) p hp s
  have hbig : 1e-8 < ‖peak.max‖ := lt_of_lt_of_le hc' hge
  have hfac : (register hN reference subject p).factor = .finite ((norm (ft subject) : ℂ) ^ 2 / ((starRingEnd ℂ) peak.max * norm R)) := if_neg (not_le.2 hbig)
  obtain ⟨-, -, hS0, herr, -⟩ := conclude_spec hN R (ft subject) peak (findPeak_max hN _ p) _ hfac
  have hle : ‖peak.max‖ ≤ ‖c‖ * norm R := by
    have h0 : 0 ≤ (conclude R (ft subject) peak).error ^ 2 * ∑ k, ‖R k‖ ^ 2 := mul_nonneg (sq_nonneg _) (Finset.sum_nonneg fun _ _ => by positivity)
    rw [herr, hSsum, hRsum, sub_nonneg, div_le_iff₀ (by positivity)] at h0
    have h1 : (norm R * ∏ a, (N a : ℝ)) ^ 2 * ‖peak.max‖ ^ 2 ≤ (norm R * ∏ a, (N a : ℝ)) ^ 2 * (‖c‖ * norm R) ^ 2 := by
      calc _ = (norm R * (∏ a, (N a : ℝ)) * ‖peak.max‖) ^ 2 := by ring
        _ ≤ _ := h0
        _ = _ := by ring
    have h2 := le_of_mul_le_mul_left h1 (by positivity)
    exact (sq_le_sq₀ (_root_.norm_nonneg _) (by positivity)).1 h2
  have hmax : ‖peak.max‖ = ‖c‖ * norm R := le_antisymm hle hge
  have hz : ‖(norm (ft subject) : ℂ) ^ 2 / ((starRingEnd ℂ) peak.max * norm R)‖ = ‖c‖ := by
    rw [norm_div, norm_pow, norm_mul, RCLike.norm_conj, hmax, Complex.norm_real, Complex.norm_real, Real.norm_of_nonneg hrp.le, hSn, Real.norm_of_nonneg (by positivity)]
    field_simp
  have he := effective_register hN reference subject p hr
  obtain ⟨g, hg, -, hge'⟩ := C60_error_partial hN reference subject p _ hfac (by rw [hz]; exact hc) he
  have hopt := C60_optimal_partial hN reference subject p hp _ hfac (by rw [hz]; exact hc) he g hg (1 / c) (-s)
  have hsc : circular subject (-s) = fun x => c * reference x := by
    funext x
    have := congrFun (circular_neg reference s) x
    rw [← this]
    rfl
  have hc0 : c ≠ 0 := norm_pos_iff.1 hcp
  have hzero : energy (fun x => reference x - 1 / c * circular subject (-s) x) = 0 := by
    rw [hsc]
    unfold energy
    refine Finset.sum_eq_zero fun x _ => ?_
    dsimp only
    rw [← mul_assoc, one_div_mul_cancel hc0, one_mul, sub_self, norm_zero]
    norm_num
  rw [hzero] at hopt
  have hg0 : energy (fun x => reference x - g x) = 0 := le_antisymm hopt (Finset.sum_nonneg fun _ _ => by positivity)
  have hgr : g = reference := by
    funext x
    have := (Finset.sum_eq_zero_iff_of_nonneg fun x _ => by positivity).1 hg0 x (Finset.mem_univ x)
    have h0 : reference x - g x = 0 := by simpa using this
    exact (sub_eq_zero.1 h0).symm
  have hE : energy reference ≠ 0 := by
    intro h0
    have := norm_eq_energy hN reference
    rw [h0, Real.sqrt_zero] at this
    exact hrp.ne' this
  refine ⟨?_, by rw [hg, hgr], _, hfac, hz⟩
  rw [hg0] at hge'
  rcases mul_eq_zero.1 hge'.symm with h | h
  · exact pow_eq_zero_iff two_ne_zero |>.1 h
  · exact absurd h hE

/-- **C60 (uniqueness).** If furthermore no displacement, other than by a whole number of periods, makes the reference a multiple of itself, then the shift and the factor are those of the subject. -/
theorem C60_shift_partial (hN : ∀ a, 0 < N a) (reference : Idx N → ℂ) (c : ℂ) (s : Fin d → ℤ) (p : ℝ) (hp : Covers p) (hr : Resolves N p) (hc : 1e-8 < ‖c‖) (hc' : 1e-8 < ‖c‖ * Real.sqrt (energy reference))
    (hu : ∀ (t : Fin d → ℝ) (w : ℂ), (∀ x : Idx N, interpolate (ft reference) (fun a => (x a : ℕ) - t a) = w * reference x) → ∃ m : Fin d → ℤ, ∀ a, t a = N a * m a) :
    (register hN reference (fun x => c * circular reference s x) p).factor = .finite c ∧
      ∃ m : Fin d → ℤ, ∀ a, (register hN reference (fun x => c * circular reference s x) p).shift a = s a + N a * m a := by
  obtain ⟨-, himage, z, hz, hzc⟩ := C60_recovers_partial hN reference c s p hp hr hc hc'
  have he := effective_register hN reference (fun x => c * circular reference s x) p hr
  obtain ⟨g, hg, hg', -⟩ := C60_error_partial hN reference (fun x => c * circular reference s x) p z hz (by rw [hzc]; exact hc) he
  have hgr : g = reference := Except.ok.inj (hg.symm.trans himage)
  subst hgr
  have hcp : 0 < ‖c‖ := lt_trans (by norm_num) hc
  have hc0 : c ≠ 0 := norm_pos_iff.1 hcp
  have hz0 : z ≠ 0 := norm_pos_iff.1 (by rw [hzc]; exact hcp)
  set shift := (register hN g (fun x => c * circular g s x) p).shift with hshift
  have hroll : roll (fun x => c * circular g s x) (-shift) = fun x => z * g x := by
    funext x
    have := congrFun hg' x
    rw [eq_div_iff hz0] at this
    rw [← this]
    ring
  have hft := congrArg ft hroll
  rw [ft_roll, effective_neg he, ft_scale, ft_circular hN, ft_scale] at hft
  have hk : ∀ k, ft g k * phase ((fun a => (s a : ℝ)) - shift) k = z / c * ft g k := fun k => by
    have := congrFun hft k
    dsimp only at this
    rw [sub_eq_add_neg, phase_add]
    field_simp
    linear_combination this
  have hin : ∀ x : Idx N, interpolate (ft g) (fun a => (x a : ℕ) - ((fun a => (s a : ℝ)) - shift) a) = z / c * g x := fun x => by
    have h1 : g x = interpolate (ft g) fun a => (x a : ℕ) := by rw [← ift_eq_interpolate, C23_ift_ft]
    rw [h1, interpolate_eq, interpolate_eq, ← mul_div_assoc, Finset.mul_sum]
    refine congrArg (· / _) (Finset.sum_congr rfl fun k _ => ?_)
    have e : (-fun a => ((x a : ℕ) : ℝ) - ((fun a => (s a : ℝ)) - shift) a) = ((fun a => (s a : ℝ)) - shift) + -fun a => ((x a : ℕ) : ℝ) := by
      funext a
      simp only [Pi.neg_apply, Pi.add_apply]
      ring
    rw [e, phase_add, ← mul_assoc, hk]
    ring
  obtain ⟨m, hm⟩ := hu _ _ hin
  have hph : ∀ k : Idx N, phase ((fun a => (s a : ℝ)) - shift) k = 1 := fun k => by rw [show ((fun a => (s a : ℝ)) - shift) = fun a => (N a : ℝ) * m a from funext hm]; exact phase_period hN m k
  have hzc' : z = c := by
    by_contra hne
    have hall : ∀ k, ft g k = 0 := fun k => by
      have := hk k
      rw [hph, mul_one] at this
      have h2 : (z - c) * ft g k = 0 := by field_simp at this; linear_combination -this
      exact (mul_eq_zero.1 h2).resolve_left (sub_ne_zero.2 hne)
    rw [← norm_eq_energy hN] at hc'
    have : norm (ft g) = 0 := by unfold norm; simp [hall]
    rw [this, mul_zero] at hc'
    norm_num at hc'
  refine ⟨by rw [hz, hzc'], fun a => -m a, fun a => ?_⟩
  have := hm a
  simp only [Pi.sub_apply] at this
  push_cast
  linarith

end Verif.Subpixel
