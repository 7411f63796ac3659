import Verif.Lemmas.ScatteringModes
import Mathlib.Analysis.Real.Pi.Bounds

/-!
# C53: the modes of a scattering matrix
-/

namespace Verif.Scattering

open Verif.Fourier Verif.Spec.Modes

variable {d : ℕ}

/-- **C53**: every mode is a propagating plane wave. -/
theorem C53_sound (s : Setup d) (htol : 0 ≤ s.tol) (hk : 0 < s.k0) (q : Idx s.shape) (h : q ∈ s.modes) : Propagating s.k0 (s.wavevector q) :=
  propagating_of_mem s htol hk h

/-- **C53**, for zero tolerance: the modes are exactly the propagating plane waves, each once. -/
theorem C53_members_partial (s : Setup d) (htol : s.tol = 0) (hk : 0 < s.k0) : s.modes.Nodup ∧ ∀ q, q ∈ s.modes ↔ Propagating s.k0 (s.wavevector q) := by
  refine ⟨modes_nodup s, fun q => ?_⟩
  rw [mem_modes, htol, propagatesFrom_zero _ _ hk, List.map_ofFn, List.sum_ofFn]
  rfl

/-- The modes of a two-dimensional calculation, exactly. -/
theorem C53_members_one (s : Setup 1) (q : Idx s.shape) : q ∈ s.modes ↔ |s.wavevector q 0| < s.k0 - s.tol := by
  rw [mem_modes]
  simp [List.ofFn_succ, propagatesFrom]

/-- The modes of a three-dimensional calculation, exactly. -/
theorem C53_members_two (s : Setup 2) (q : Idx s.shape) :
    q ∈ s.modes ↔ |s.wavevector q 0| < s.k0 - s.tol ∧ |s.wavevector q 1| < Real.sqrt (max (s.k0 ^ 2 - s.wavevector q 0 ^ 2) 0) - s.tol := by
  rw [mem_modes]
  simp [List.ofFn_succ, propagatesFrom]

/-- A one-dimensional calculation has one mode. -/
theorem C53_members_zero (s : Setup 0) : ∃ q, s.modes = [q] := by
  have h : ∀ q : Idx s.shape, q ∈ s.modes := fun q => by rw [mem_modes]; simp [propagatesFrom]
  have hsub : ∀ p q : Idx s.shape, p = q := fun p q => by funext a; exact a.elim0
  have q0 : Idx s.shape := fun a => a.elim0
  have hnd := modes_nodup s
  match hm : s.modes with
  | [] => have := h q0; rw [hm] at this; simp at this
  | [q] => exact ⟨q, rfl⟩
  | p :: q :: rest => rw [hm] at hnd; simp [hsub p q] at hnd

/-- **C53** is violated when the tolerance is not 0: the tolerance has the unit of a wavenumber, so if the wavenumber is not larger, then there are no modes although the wave along the
propagation axis propagates. -/
theorem C53_tolerance_violates (s : Setup (d + 1)) (hk : 0 < s.k0) (htol : s.k0 ≤ s.tol) (hn : ∀ a, 0 < s.shape a) :
    s.modes = [] ∧ ∃ q, Propagating s.k0 (s.wavevector q) := by
  constructor
  · rw [List.eq_nil_iff_forall_not_mem]
    intro q h
    rw [mem_modes, List.ofFn_succ] at h
    have := h.1
    have := abs_nonneg (s.wavevector q 0)
    linarith
  · refine ⟨fun a => ⟨0, hn a⟩, ?_⟩
    have : s.wavevector (fun a => ⟨0, hn a⟩) = fun _ => 0 := by
      funext a
      have := hn a
      simp [Setup.wavevector, Setup.kFft, centred, this]
    rw [this, Propagating]
    simpa using pow_pos hk 2

/-- **C53**: the modes are in increasing raster order of their wavevectors. -/
theorem C53_order (s : Setup d) (hstep : ∀ a, 0 < s.step a) : (s.modes.map s.wavevector).Pairwise RasterLT := by
  rw [List.pairwise_map]
  refine (modes_sorted s).imp ?_
  intro p q h
  obtain ⟨a, h1, h2⟩ := h
  refine ⟨a, fun b hb => ?_, ?_⟩
  · have := h1 b hb
    simp only [periods] at this
    simp only [Setup.wavevector, Setup.kFft, this]
  · simp only [periods] at h2
    simp only [Setup.wavevector, Setup.kFft]
    have hN : (0 : ℝ) < s.shape a := by exact_mod_cast (Nat.zero_le _).trans_lt (p a).2
    have h3 : ((centred (s.shape a) (p a) : ℤ) : ℝ) < (centred (s.shape a) (q a) : ℤ) := by exact_mod_cast h2
    have h4 : 0 < (s.shape a : ℝ) * s.step a := mul_pos hN (hstep a)
    exact mul_lt_mul_of_pos_left ((div_lt_div_iff_of_pos_right h4).mpr h3) (by positivity)

/-- **C53**, when there are at least two samples per wavelength, or an odd number of samples, along each transverse axis: reversing the list negates the wavevectors. -/
theorem C53_reverse_partial (s : Setup d) (htol : 0 ≤ s.tol) (hk : 0 < s.k0) (hstep : ∀ a, s.step a ≠ 0) (hs : s.Sampled) :
    s.modes.reverse.map s.wavevector = s.modes.map fun q a => -s.wavevector q a := by
  have hn : ∀ q ∈ s.modes, ∀ a, 2 * (q a : ℕ) ≠ s.shape a := fun q hq a => not_nyquist s htol hk hstep hs hq a
  rw [modes_reverse s hn, List.map_map]
  exact List.map_congr_left fun q hq => wavevector_opposite s q (hn q hq)

/-- **C53** is violated for an even number of samples that are further apart than half a wavelength: reversing the list does not negate the wavevectors. -/
theorem C53_reverse_violates (s : Setup 1) (hN : s.shape 0 % 2 = 0) (hpos : 0 < s.shape 0) (hstep : 0 < s.step 0) (hs : Real.pi / s.step 0 < s.k0 - s.tol) :
    s.modes.reverse.map s.wavevector ≠ s.modes.map fun q a => -s.wavevector q a := by
  intro h
  have hlt : s.shape 0 / 2 < s.shape 0 := by omega
  let q : Idx s.shape := Fin.cons ⟨s.shape 0 / 2, hlt⟩ fun a => a.elim0
  have hn : (0 : ℝ) < s.shape 0 := by exact_mod_cast hpos
  have hhalf : ((s.shape 0 / 2 : ℕ) : ℝ) = s.shape 0 / 2 := by
    have h2 : 2 * (s.shape 0 / 2) = s.shape 0 := by omega
    have : (2 : ℝ) * ((s.shape 0 / 2 : ℕ) : ℝ) = s.shape 0 := by exact_mod_cast h2
    linarith
  have hq : s.wavevector q 0 = -(Real.pi / s.step 0) := by
    have : s.wavevector q 0 = 2 * Real.pi * (((centred (s.shape 0) (s.shape 0 / 2) : ℤ) : ℝ) / (s.shape 0 * s.step 0)) := rfl
    rw [this, centred, if_neg (by omega), Int.cast_sub, Int.cast_natCast, Int.cast_natCast, hhalf]
    field_simp
    ring
  have hpi : 0 < Real.pi / s.step 0 := div_pos Real.pi_pos hstep
  have hmem : q ∈ s.modes := by
    rw [C53_members_one, hq, abs_neg, abs_of_pos hpi]
    exact hs
  have h1 : (fun a => -s.wavevector q a) ∈ s.modes.map fun q a => -s.wavevector q a := List.mem_map.mpr ⟨q, hmem, rfl⟩
  rw [← h, List.mem_map] at h1
  obtain ⟨p, -, hp⟩ := h1
  have hp0 := congrFun hp 0
  rw [hq, neg_neg] at hp0
  have hplt := (p 0).2
  simp only [Setup.wavevector, Setup.kFft] at hp0
  have h5 : ((centred (s.shape 0) (p 0) : ℤ) : ℝ) = s.shape 0 / 2 := by
    field_simp at hp0
    linarith
  have h6 : 2 * centred (s.shape 0) (p 0) = s.shape 0 := by
    have : (2 : ℝ) * ((centred (s.shape 0) (p 0) : ℤ) : ℝ) = ((s.shape 0 : ℕ) : ℤ) := by rw [h5]; push_cast; ring
    exact_mod_cast this
  unfold centred at h6
  split_ifs at h6 <;> omega

/-- A grid with 4 transverse samples, a quarter of a wavelength apart; the modes have transverse wavenumber 0 only (those with one period have exactly the wavenumber). -/
noncomputable def demo : Setup 1 := ⟨20, 1 / 4, 0, fun _ => 4, fun _ => 1 / 2, fun _ => 0, 2 * Real.pi, 1e-8⟩

example : 0 ≤ demo.tol ∧ 0 < demo.k0 ∧ (∀ a, demo.step a ≠ 0) ∧ demo.Sampled := by
  refine ⟨by norm_num [demo], by simp only [demo]; positivity, fun a => by norm_num [demo], fun a => .inr ?_⟩
  simp only [demo]
  rw [abs_of_pos (by norm_num)]
  linarith

/-- With samples a wavelength apart the hypotheses of the refutation are met. -/
example : ∃ s : Setup 1, s.shape 0 % 2 = 0 ∧ 0 < s.shape 0 ∧ 0 < s.step 0 ∧ Real.pi / s.step 0 < s.k0 - s.tol ∧ 0 < s.tol :=
  ⟨⟨20, 1 / 4, 0, fun _ => 4, fun _ => 1, fun _ => 0, 2 * Real.pi, 1e-8⟩, rfl, by norm_num, by norm_num, by have := Real.pi_gt_three; norm_num; linarith, by norm_num⟩

end Verif.Scattering
