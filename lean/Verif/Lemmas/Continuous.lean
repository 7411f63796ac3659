import Verif.Spec.Continuous
import Verif.Props.Backend
import Verif.Props.Fourier
import Verif.Props.Grid02

/-!
# Sums of plane waves, and their samples
-/

namespace Verif.Continuous

open Verif Verif.Fourier Verif.Backend Verif.Spec.Continuous Verif.Spec.Backend Complex

variable {d : ℕ}

/-- The wavevector of a spatial frequency of the grid. -/
noncomputable def waveVector (g : Grid.Obj d ℝ) (q : Idx g.shape) : Point := fun c => if h : (c : ℕ) < d then kOf g ⟨c, h⟩ q else 0

theorem kVector_waveVector (g : Grid.Obj d ℝ) (q : Idx g.shape) (c : Fin 3) : kVector (kOf g) q c = ((waveVector g q c : ℝ) : ℂ) := by
  unfold kVector waveVector
  split_ifs <;> simp

section
variable {g : Grid.Obj d ℝ} (hs : ∀ a, g.step a ≠ 0)
include hs

theorem resolved_waveVector (q : Idx g.shape) : Resolved g.shape g.step (waveVector g q) := by
  intro c
  refine ⟨fun h => ?_, fun h => by unfold waveVector; rw [dif_neg (by omega)]⟩
  unfold waveVector
  rw [dif_pos h, C24_kOf g fun a _ => hs a]
  have hq : (q ⟨c, h⟩ : ℕ) < g.shape ⟨c, h⟩ := (q ⟨c, h⟩).isLt
  split_ifs with h2
  · exact ⟨(q ⟨c, h⟩ : ℕ), by omega, by omega, by push_cast; ring⟩
  · exact ⟨(q ⟨c, h⟩ : ℕ) - (g.shape ⟨c, h⟩ : ℕ), by omega, by omega, by push_cast; ring⟩

theorem waveVector_of_resolved (hd : d ≤ 3) {kappa : Point} (h : Resolved g.shape g.step kappa) : ∃ q, waveVector g q = kappa := by
  have key : ∀ a : Fin d, ∃ q : Fin (g.shape a), kappa (Fin.castLE hd a) = 2 * Real.pi * ((if 2 * (q : ℕ) < g.shape a then ((q : ℕ) : ℝ) else ((q : ℕ) : ℝ) - g.shape a) / (g.shape a * g.step a)) := by
    intro a
    obtain ⟨j, h1, h2, h3⟩ := (h (Fin.castLE hd a)).1 a.isLt
    change -((g.shape a : ℕ) : ℤ) ≤ 2 * j at h1
    change 2 * j < ((g.shape a : ℕ) : ℤ) at h2
    change kappa (Fin.castLE hd a) = 2 * Real.pi * j / (g.shape a * g.step a) at h3
    by_cases hj : 0 ≤ j
    · obtain ⟨m, rfl⟩ := Int.eq_ofNat_of_zero_le hj
      refine ⟨⟨m, by omega⟩, ?_⟩
      rw [h3, if_pos (by simp only; omega)]
      push_cast
      ring
    · obtain ⟨m, hm⟩ := Int.eq_ofNat_of_zero_le (show 0 ≤ j + (g.shape a : ℕ) by omega)
      refine ⟨⟨m, by omega⟩, ?_⟩
      rw [h3, if_neg (by simp only; omega)]
      have : (j : ℝ) = (m : ℝ) - g.shape a := by
        have h4 : j = (m : ℤ) - (g.shape a : ℕ) := by omega
        rw [h4]
        push_cast
        ring
      rw [this]
      ring
  choose q hq using key
  refine ⟨q, funext fun c => ?_⟩
  unfold waveVector
  split_ifs with hc
  · rw [C24_kOf g fun a _ => hs a, ← hq ⟨c, hc⟩]
    rfl
  · exact ((h c).2 (by omega)).symm

/-- The sum of the waves of the grid with given coefficients. -/
noncomputable def series (g : Grid.Obj d ℝ) (a : Idx g.shape → ℂ) (r : Point) : ℂ := ∑ q, a q * wave (waveVector g q) r

theorem bandLimited_iff (hd : d ≤ 3) (f : Point → ℂ) : f ∈ BandLimited g.shape g.step ↔ ∃ a, f = series g a := by
  have e : wave '' {kappa | Resolved g.shape g.step kappa} = Set.range fun q => wave (waveVector g q) := by
    ext w
    constructor
    · rintro ⟨kappa, hk, rfl⟩
      obtain ⟨q, rfl⟩ := waveVector_of_resolved hs hd hk
      exact ⟨q, rfl⟩
    · rintro ⟨q, rfl⟩
      exact ⟨_, resolved_waveVector hs q, rfl⟩
  unfold BandLimited
  rw [e, Submodule.mem_span_range_iff_exists_fun]
  refine exists_congr fun a => ?_
  rw [eq_comm]
  refine Eq.congr_right ?_
  funext r
  unfold series
  rw [Finset.sum_apply]
  rfl

end

/-! ### Derivatives -/

theorem wave_update (kappa r : Point) (a : Fin 3) (t : ℝ) : wave kappa (Function.update r a t) = exp (I * ((kappa a * t : ℝ) : ℂ)) * wave kappa (Function.update r a 0) := by
  unfold wave
  rw [← exp_add]
  congr 1
  rw [← mul_add, ← ofReal_add]
  congr 2
  rw [← Finset.add_sum_erase _ _ (Finset.mem_univ a), ← Finset.add_sum_erase _ (fun c => kappa c * Function.update r a 0 c) (Finset.mem_univ a)]
  simp only [Function.update_self, mul_zero, zero_add]
  congr 1
  refine Finset.sum_congr rfl fun c hc => ?_
  have := Finset.ne_of_mem_erase hc
  rw [Function.update_of_ne this, Function.update_of_ne this]

theorem wave_hasDerivAt (kappa r : Point) (a : Fin 3) (t : ℝ) :
    HasDerivAt (fun t => wave kappa (Function.update r a t)) (I * (kappa a : ℂ) * wave kappa (Function.update r a t)) t := by
  have e : (fun t => wave kappa (Function.update r a t)) = fun t : ℝ => exp (I * ((kappa a * t : ℝ) : ℂ)) * wave kappa (Function.update r a 0) := funext fun t => wave_update kappa r a t
  rw [e, wave_update kappa r a t, ← mul_assoc]
  refine HasDerivAt.mul_const ?_ _
  have h1 : HasDerivAt (fun t : ℝ => I * ((kappa a * t : ℝ) : ℂ)) (I * (kappa a : ℂ)) t := by
    have h2 : HasDerivAt (fun t : ℝ => kappa a * t) (kappa a) t := by simpa using (hasDerivAt_id t).const_mul (kappa a)
    exact (h2.ofReal_comp).const_mul I
  have := h1.cexp
  rw [mul_comm] at this
  exact this

theorem series_hasDerivAt (g : Grid.Obj d ℝ) (a : Idx g.shape → ℂ) (c : Fin 3) (r : Point) (t : ℝ) :
    HasDerivAt (fun t => series g a (Function.update r c t)) (series g (fun q => I * (waveVector g q c : ℂ) * a q) (Function.update r c t)) t := by
  unfold series
  have h := HasDerivAt.fun_sum (u := Finset.univ) (A := fun q t => a q * wave (waveVector g q) (Function.update r c t))
    (A' := fun q => a q * (I * (waveVector g q c : ℂ) * wave (waveVector g q) (Function.update r c t))) fun q _ => (wave_hasDerivAt (waveVector g q) r c t).const_mul (a q)
  exact h.congr_deriv (Finset.sum_congr rfl fun q _ => by ring)

theorem partialDeriv_series (g : Grid.Obj d ℝ) (a : Idx g.shape → ℂ) (c : Fin 3) : partialDeriv c (series g a) = series g fun q => I * (waveVector g q c : ℂ) * a q := by
  funext r
  unfold partialDeriv
  rw [(series_hasDerivAt g a c r (r c)).deriv, Function.update_eq_self]

theorem series_sub (g : Grid.Obj d ℝ) (a b : Idx g.shape → ℂ) (r : Point) : series g a r - series g b r = series g (fun q => a q - b q) r := by
  unfold series
  rw [← Finset.sum_sub_distrib]
  exact Finset.sum_congr rfl fun q _ => by ring

theorem series_sum {ι : Type} (s : Finset ι) (g : Grid.Obj d ℝ) (a : ι → Idx g.shape → ℂ) (r : Point) : ∑ i ∈ s, series g (a i) r = series g (fun q => ∑ i ∈ s, a i q) r := by
  unfold series
  rw [Finset.sum_comm]
  exact Finset.sum_congr rfl fun q _ => by rw [Finset.sum_mul]

/-! ### Samples -/

/-- The coordinate of the sample with index `x`, up to a number of periods. -/
noncomputable def origin0 (g : Grid.Obj d ℝ) (a : Fin d) : ℝ :=
  Spec.Grid.firstSample (g.shape a) (g.step a) (g.center a) (g.centerAtIndex a) + (if g.originAtCenter a then 0 else (g.shape a / 2 : ℕ)) * g.step a

theorem coords_periodic (g : Grid.Obj d ℝ) (a : Fin d) {j : ℕ} (hj : j < g.shape a) : ∃ z : ℤ, (g.coords a)[j]? = some (origin0 g a + j * g.step a + z * (g.shape a * g.step a)) := by
  rw [Grid.coords_eq, List.getElem?_map]
  unfold origin0
  split_ifs with h
  · refine ⟨0, ?_⟩
    rw [List.getElem?_range hj]
    simp
  · unfold Spec.Grid.fftOrder
    rw [List.getElem?_map, List.getElem?_range hj]
    simp only [Option.map_some]
    refine ⟨-(((j + g.shape a / 2) / g.shape a : ℕ) : ℤ), ?_⟩
    congr 1
    have h1 : (((j + g.shape a / 2) % g.shape a : ℕ) : ℝ) = (j : ℝ) + ((g.shape a / 2 : ℕ) : ℝ) - (g.shape a : ℝ) * (((j + g.shape a / 2) / g.shape a : ℕ) : ℝ) := by
      have h2 := Nat.mod_add_div (j + g.shape a / 2) (g.shape a)
      rw [eq_sub_iff_add_eq]
      exact_mod_cast h2
    rw [h1]
    generalize (j + g.shape a / 2) / g.shape a = z
    generalize g.shape a / 2 = w
    push_cast
    ring

/-- The phase of a wave at the first sample. -/
noncomputable def phase (g : Grid.Obj d ℝ) (q : Idx g.shape) : ℂ := exp (I * ((∑ a, kOf g a q * origin0 g a : ℝ) : ℂ))

theorem phase_ne_zero (g : Grid.Obj d ℝ) (q : Idx g.shape) : phase g q ≠ 0 := exp_ne_zero _

theorem wave_axes (hd : d ≤ 3) (g : Grid.Obj d ℝ) (q : Idx g.shape) (r : Point) : ∑ c, waveVector g q c * r c = ∑ a : Fin d, kOf g a q * r (Fin.castLE hd a) := by
  refine (Fintype.sum_of_injective (Fin.castLE hd) (Fin.castLE_injective hd) _ _ (fun c hc => ?_) fun a => ?_).symm
  · unfold waveVector
    rw [dif_neg, zero_mul]
    exact fun h => hc ⟨⟨c, h⟩, rfl⟩
  · unfold waveVector
    rw [dif_pos (show ((Fin.castLE hd a : Fin 3) : ℕ) < d from a.isLt)]
    rfl

theorem wave_sample (hd : d ≤ 3) {g : Grid.Obj d ℝ} (hs : ∀ a, g.step a ≠ 0) (q x : Idx g.shape) {r : Point} (h : AtSample g x r) :
    wave (waveVector g q) r = phase g q * ∏ a, untwiddle (g.shape a) (q a) (x a) := by
  have hr : ∀ a : Fin d, ∃ z : ℤ, r (Fin.castLE hd a) = origin0 g a + (x a : ℕ) * g.step a + z * (g.shape a * g.step a) := by
    intro a
    obtain ⟨z, hz⟩ := coords_periodic g a (x a).isLt
    have h1 := h (Fin.castLE hd a) a.isLt
    have h2 : (g.coords a)[(x a : ℕ)]? = some (r (Fin.castLE hd a)) := h1
    exact ⟨z, Option.some.inj (h2.symm.trans hz)⟩
  unfold wave phase
  rw [wave_axes hd, ofReal_sum, ofReal_sum, Finset.mul_sum, Finset.mul_sum, exp_sum, exp_sum, ← Finset.prod_mul_distrib]
  refine Finset.prod_congr rfl fun a _ => ?_
  obtain ⟨z, hz⟩ := hr a
  have hN : (g.shape a : ℝ) ≠ 0 := by
    have := (x a).isLt
    exact_mod_cast (by omega : g.shape a ≠ 0)
  obtain ⟨j, hj⟩ : ∃ j : ℤ, kOf g a q = 2 * Real.pi * ((q a : ℕ) - j * g.shape a) / (g.shape a * g.step a) := by
    rw [C24_kOf g fun a _ => hs a]
    split_ifs
    · exact ⟨0, by push_cast; ring⟩
    · exact ⟨1, by push_cast; ring⟩
  have e : kOf g a q * r (Fin.castLE hd a) = kOf g a q * origin0 g a + 2 * Real.pi * ((q a : ℕ) * (x a : ℕ) / g.shape a) + ((((q a : ℕ) : ℤ) - j * (g.shape a : ℕ)) * z - j * (x a : ℕ) : ℤ) * (2 * Real.pi) := by
    rw [hz, hj]
    have := hs a
    push_cast
    field_simp
    ring
  rw [e]
  unfold untwiddle
  rw [← exp_add, ofReal_add, ofReal_add, mul_add, mul_add, exp_add _ (I * (((_ : ℤ) : ℝ) * _ : ℝ))]
  rw [show I * (((((((q a : ℕ) : ℤ) - j * (g.shape a : ℕ)) * z - j * (x a : ℕ) : ℤ) : ℝ) * (2 * Real.pi) : ℝ) : ℂ) = ((((q a : ℕ) : ℤ) - j * (g.shape a : ℕ)) * z - j * (x a : ℕ) : ℤ) * (2 * Real.pi * I) by push_cast; ring,
    exp_int_mul_two_pi_mul_I, mul_one]
  congr 2
  push_cast
  ring

theorem exists_atSample (_hd : d ≤ 3) (g : Grid.Obj d ℝ) (x : Idx g.shape) : ∃ r, AtSample g x r := by
  have h : ∀ a : Fin d, ∃ t, (g.coords a)[(x a : ℕ)]? = some t := fun a => by
    obtain ⟨z, hz⟩ := coords_periodic g a (x a).isLt
    exact ⟨_, hz⟩
  choose t ht using h
  exact ⟨fun c => if h : (c : ℕ) < d then t ⟨c, h⟩ else 0, fun c h => by simp only [dif_pos h]; exact ht _⟩

theorem series_sample (hd : d ≤ 3) {g : Grid.Obj d ℝ} (hs : ∀ a, g.step a ≠ 0) (a : Idx g.shape → ℂ) {x : Idx g.shape} {r : Point} (h : AtSample g x r) :
    series g a r = ift (fun q => a q * phase g q * ∏ b, (g.shape b : ℂ)) x := by
  unfold series ift
  have hN := prod_ne_zero_of_idx x
  rw [Finset.sum_div]
  refine Finset.sum_congr rfl fun q _ => ?_
  rw [wave_sample hd hs q x h]
  field_simp

/-- The coefficients follow from the samples. -/
theorem series_interpolates (hd : d ≤ 3) {g : Grid.Obj d ℝ} (hs : ∀ a, g.step a ≠ 0) (a : Idx g.shape → ℂ) (s : Idx g.shape → ℂ) :
    (∀ x r, AtSample g x r → series g a r = s x) ↔ ∀ q, ft s q = a q * phase g q * ∏ b, (g.shape b : ℂ) := by
  constructor
  · intro h q
    have e : s = ift fun q => a q * phase g q * ∏ b, (g.shape b : ℂ) := by
      funext x
      obtain ⟨r, hr⟩ := exists_atSample hd g x
      rw [← h x r hr, series_sample hd hs a hr]
    rw [e, C23_ft_ift]
  · intro h x r hr
    rw [series_sample hd hs a hr, ← funext h, C23_ift_ft]

end Verif.Continuous
