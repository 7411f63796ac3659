import Verif.Props.BeamWaves

/-!
# Properties C58 (thin slices), C72 (grid of a beam), and C73 (energy)
-/

namespace Verif.Beam

open Verif.Fourier Verif.Backend Verif.Spec.Modes Complex

variable {o : Optics} {P : Projection}

/-! ### C73 -/

/-- The energy in Fourier space. -/
noncomputable def energyFt (F : Arr o P) : ℝ := (∑ c, ∑ q, ‖F c q‖ ^ 2) / ∏ a, (o.grid.shape a : ℝ)

theorem energyFt_nonneg (F : Arr o P) : 0 ≤ energyFt F := by unfold energyFt; positivity

theorem energy_of_significant (hs : o.Stepped) {F : Arr o P} (h : Significant F) : energy (fieldOf F) = energyFt F := by
  unfold energy energyFt
  rw [Finset.sum_div]
  refine Finset.sum_congr rfl fun c _ => ?_
  rw [fieldOf_eq hs h, energy_ift]
  simp only [norm_mul, norm_shift, mul_one]

theorem energy_fieldOf_le (hs : o.Stepped) (F : Arr o P) : energy (fieldOf F) ≤ energyFt F := by
  by_cases h : Significant F
  · exact (energy_of_significant hs h).le
  · unfold Significant at h
    push Not at h
    have : fieldOf F = fun _ _ => 0 := by unfold fieldOf; rw [if_pos h.1, if_pos h.2]
    rw [this]
    unfold energy
    simpa using energyFt_nonneg F

theorem energyFt_transform (f : Arr o P) : energyFt (fun c q => ft (f c) q * (starRingEnd ℂ) (o.shift q) : Arr o P) = energy f := by
  by_cases hq : Nonempty (Idx o.grid.shape)
  · obtain ⟨q⟩ := hq
    have hp : (∏ a, (o.grid.shape a : ℝ)) ≠ 0 := by
      refine Finset.prod_ne_zero_iff.2 fun a _ => ?_
      have := (q a).isLt
      exact_mod_cast (by omega : o.grid.shape a ≠ 0)
    unfold energy energyFt
    simp only [norm_mul, RCLike.norm_conj, norm_shift, mul_one, C23_energy]
    rw [← Finset.mul_sum]
    field_simp
  · rw [not_nonempty_iff] at hq
    unfold energy energyFt
    simp

/-- A projection that does not increase the length of a vector. -/
def Projection.Contracting (P : Projection) : Prop := ∀ (k : Fin 3 → ℝ) (f : Fin P.c → ℂ), ∑ a, k a ^ 2 = 1 → ∑ c, ‖P.project k f c‖ ^ 2 ≤ ∑ c, ‖f c‖ ^ 2

theorem scalar_contracting : scalar.Contracting := fun _ _ _ => le_rfl

/-- The energy that is lost is that of the longitudinal component. -/
theorem projectTransverse_energy (k : Fin 3 → ℝ) (f : Fin 3 → ℂ) (hk : ∑ a, k a ^ 2 = 1) :
    ∑ c, ‖projectTransverse k f c‖ ^ 2 + ‖∑ a, (k a : ℂ) * f a‖ ^ 2 = ∑ c, ‖f c‖ ^ 2 := by
  unfold projectTransverse
  simp only [← normSq_eq_norm_sq, Fin.sum_univ_three, normSq_apply, sub_re, sub_im, mul_re, mul_im, ofReal_re, ofReal_im, zero_mul, sub_zero, add_zero, add_re, add_im] at *
  linear_combination (((k 0 * (f 0).re + k 1 * (f 1).re + k 2 * (f 2).re) ^ 2 + (k 0 * (f 0).im + k 1 * (f 1).im + k 2 * (f 2).im) ^ 2)) * hk

theorem vectorial_contracting : vectorial.Contracting := by
  intro k f hk
  have := projectTransverse_energy k f hk
  have h2 := sq_nonneg ‖∑ a, (k a : ℂ) * f a‖
  show ∑ c, ‖projectTransverse k f c‖ ^ 2 ≤ _
  linarith

theorem energyFt_update (ho : o.Proper) (hP : P.Contracting) (F : Arr o P) : energyFt (update F).fieldFt ≤ energyFt F := by
  unfold energyFt
  refine div_le_div_of_nonneg_right ?_ (by positivity)
  rw [Finset.sum_comm, Finset.sum_comm (γ := Fin P.c)]
  exact Finset.sum_le_sum fun q _ => hP (o.kDir q) (fun c => F c q) (sum_kDir ho q)

theorem energy_mul_le {f : Arr o P} {w : Idx o.grid.shape → ℂ} (h : ∀ x, ‖w x‖ ≤ 1) : energy (fun c x => f c x * w x) ≤ energy f := by
  unfold energy
  refine Finset.sum_le_sum fun c _ => Finset.sum_le_sum fun x _ => ?_
  rw [norm_mul]
  exact pow_le_pow_left₀ (by positivity) (mul_le_of_le_one_right (norm_nonneg _) (h x)) 2

theorem norm_phase_le {o : Optics} {n : ℂ} {d : ℝ} (h : 0 ≤ o.k * d * (n / o.index).im) : ‖exp (I * o.k * (n / o.index - 1) * d)‖ ≤ 1 := by
  rw [norm_exp]
  refine Real.exp_le_one_iff.2 ?_
  have : (I * o.k * (n / o.index - 1) * d).re = -(o.k * d * (n / o.index).im) := by
    simp only [mul_re, mul_im, I_re, I_im, ofReal_re, ofReal_im, sub_re, sub_im, one_re, one_im]
    ring
  rw [this]
  linarith

theorem energy_readFt (s : Section o P) : energy (read s).1 = energy (fieldOf s.fieldFt) := energy_fieldOf fun c q => norm_readFt s c q

/-- **C73 (passive).** In materials without gain, uniform or not, the energy of the field does not increase, for scalar and vectorial fields, for all states and distances. -/
theorem C73_passive (ho : o.Proper) (hP : P.Contracting) (h : ∀ a, 0 < o.grid.shape a) (s : Section o P) (d : ℝ) (n : Idx o.grid.shape → ℂ)
    (hn : ∀ x, 0 ≤ o.k * d * (n x / o.index).im) : energy (read (propagate h s d (some n))).1 ≤ energy (read s).1 := by
  rw [propagate_some, C55_energy, ← C55_energy h s (min d 0)]
  generalize propagate h s (min d 0) none = s
  unfold interact
  dsimp only
  split_ifs with h1 h2
  · exact le_rfl
  · rw [energy_readFt, energy_readFt]
    have hw := norm_phase_le (hn (origin o h))
    set w := exp (I * o.k * (n (origin o h) / o.index - 1) * d)
    have hle : ∀ c q, ‖s.fieldFt c q * w‖ ≤ ‖s.fieldFt c q‖ := fun c q => by
      rw [norm_mul]; exact mul_le_of_le_one_right (norm_nonneg _) hw
    by_cases hsig : Significant s.fieldFt
    · refine (energy_fieldOf_le ho.stepped _).trans ?_
      rw [energy_of_significant ho.stepped hsig]
      unfold energyFt
      refine div_le_div_of_nonneg_right ?_ (by positivity)
      exact Finset.sum_le_sum fun c _ => Finset.sum_le_sum fun q _ => pow_le_pow_left₀ (norm_nonneg _) (hle c q) 2
    · unfold Significant at hsig
      push Not at hsig
      have h0 : AllClose0 (fun c q => s.fieldFt c q * w : Arr o P) := fun c q => (hle c q).trans (hsig.2 c q)
      have e : fieldOf (fun c q => s.fieldFt c q * w : Arr o P) = fieldOf s.fieldFt := by
        unfold fieldOf
        rw [if_pos hsig.1, if_pos hsig.1, if_pos h0, if_pos hsig.2]
      rw [e]
  · rw [energy_readFt, write_eq ho.stepped]
    refine (energy_fieldOf_le ho.stepped _).trans ((energyFt_update ho hP _).trans ?_)
    rw [energyFt_transform (fun c x => (read s).1 c x * exp (I * o.k * (n x / o.index - 1) * d))]
    exact energy_mul_le fun x => norm_phase_le (hn x)

/-- **C73 (transparent, partial).** In transparent materials the energy of scalar fields is conserved, unless the field is taken to be zero afterwards.  Missing: vectorial fields,
and small fields. -/
theorem C73_partial (ho : o.Proper) (h : ∀ a, 0 < o.grid.shape a) (s : Section o scalar) (d : ℝ) (n : Idx o.grid.shape → ℂ) (hn : ∀ x, (n x / o.index).im = 0)
    (h1 : Significant (propagate h s d (some n)).fieldFt) : energy (read (propagate h s d (some n))).1 = energy (read s).1 := by
  have hphase : ∀ x, ‖exp (I * o.k * (n x / o.index - 1) * d)‖ = 1 := by
    intro x
    rw [norm_exp]
    have : (I * o.k * (n x / o.index - 1) * d).re = 0 := by
      simp only [mul_re, mul_im, I_re, I_im, ofReal_re, ofReal_im, sub_re, sub_im, one_re, one_im, hn]
      ring
    rw [this, Real.exp_zero]
  rw [propagate_some] at h1 ⊢
  rw [C55_energy, ← C55_energy h s (min d 0)]
  rw [propagate_none] at h1
  change Significant (interact (propagate h s (min d 0) none) d (n (origin o h)) n).fieldFt at h1
  generalize propagate h s (min d 0) none = s at h1 ⊢
  unfold interact at h1 ⊢
  dsimp only at h1 ⊢
  split_ifs at h1 ⊢ with h2 h3
  · rfl
  · rw [energy_readFt, energy_readFt]
    exact energy_fieldOf fun c q => by rw [norm_mul, hphase, mul_one]
  · rw [energy_readFt, energy_of_significant ho.stepped h1, write_eq ho.stepped]
    refine (energyFt_transform (fun c x => (read s).1 c x * exp (I * o.k * (n x / o.index - 1) * d))).trans ?_
    unfold energy
    simp only [norm_mul, hphase, mul_one]

/-- **C73** is violated by vectorial fields: all energy of a plane wave is lost in a transparent slice of one micrometre. -/
theorem C73_violates : (∀ x, (step' x / pair.index).im = 0) ∧ energy (read (writeFt polarizedWave)).1 = 2 ∧
    energy (read (propagate pair_shape (writeFt polarizedWave) 1e-6 (some step'))).1 = 0 := by
  refine ⟨fun x => ?_, ?_, ?_⟩
  · show (step' x / ((1 : ℝ) : ℂ)).im = 0
    unfold step'
    rw [ofReal_one, div_one]
    split_ifs
    · rw [← ofReal_one, ← ofReal_ofNat, ← ofReal_div, ← ofReal_add, ofReal_im]
    · rfl
  · rw [energy_readFt, show (writeFt polarizedWave).fieldFt = polarizedWave from polarizedWave_update, energy_of_significant pair_proper.stepped fun _ => polarizedWave_big]
    unfold energyFt
    simp only [Fin.sum_univ_three, Fin.prod_univ_three, sum_pair]
    unfold polarizedWave
    simp only [along_at]
    show _ / (((1 : ℕ) : ℝ) * ((1 : ℕ) : ℝ) * ((2 : ℕ) : ℝ)) = 2
    rw [if_neg (by decide), if_neg (by decide), if_neg (by decide), if_neg (by decide), if_pos (by decide), if_neg (by decide)]
    norm_num
  · have h := C57_vectorial_violates.2.1
    unfold read
    obtain ⟨lag, -, hl, -⟩ := readFt_lag (propagate pair_shape (writeFt polarizedWave) 1e-6 (some step'))
    rw [hl, h]
    have : fieldOf (advance (-lag) (fun _ _ => 0 : Arr pair vectorial)) = fun _ _ => 0 := fieldOf_zero fun c q => zero_mul _
    rw [this]
    unfold energy
    simp

/-- The hypotheses of `C73_partial` can be met. -/
example : energy (read (propagate pair_shape (write (wave 1)) 1e-6 (some step'))).1 = energy (read (write (wave 1))).1 :=
  C73_partial pair_proper pair_shape _ _ _ C73_violates.1 fun he h => interact_significant (a := 1) (by simp) he ((allClose0_advance _ _).2 h)

/-! ### C58: thin slices -/

/-- The Fourier transform of a field. -/
noncomputable def transform (f : Arr o scalar) : Arr o scalar := fun c q => ft (f c) q * (starRingEnd ℂ) (o.shift q)

theorem propagate_thin (hs : o.Stepped) (h : ∀ a, 0 < o.grid.shape a) {step : ℝ} (h0 : 0 < step) {f : Arr o scalar} (h1 : Significant (transform f)) {s : Section o scalar}
    (hf : s.fieldFt = transform f) (hd : |s.distance| ≤ 1e-8) (n : Idx o.grid.shape → ℂ) (hn : ¬ NearUniform (n (origin o h)) n) :
    propagate h s step (some n) = ⟨transform fun c x => f c x * exp (I * o.k * (n x / o.index - 1) * step), step⟩ := by
  rw [propagate_some, min_eq_right h0.le, max_eq_left h0.le, C55_zero, propagate_none]
  unfold interact read readFt
  rw [if_neg hn, if_pos hd, hf]
  have e : fieldOf (transform f) = f := fieldOf_transform hs f h1
  dsimp only
  rw [e, write_eq hs]
  show (⟨_, 0 + step⟩ : Section o scalar) = _
  rw [zero_add]
  rfl

/-- **C58 (thin slices).** The property does not hold in heterogeneous materials for steps of at most 1e-8: the field is not propagated at all.  In each slice it is
the field at the entrance, multiplied with the phase changes in that and the preceding slices. -/
theorem C58_thin (hs : o.Stepped) (h : ∀ a, 0 < o.grid.shape a) (step : ℝ) (h0 : 0 < step) (hthin : step ≤ 1e-8) (slices : List (Idx o.grid.shape → ℂ)) :
    ∀ (f : Arr o scalar) (s : Section o scalar), s.fieldFt = transform f → |s.distance| ≤ 1e-8 → (∀ n ∈ slices, ¬ NearUniform (n (origin o h)) n) →
      (∀ l, Significant (transform (fun c x => f c x * ((slices.take l).map fun n => exp (I * o.k * (n x / o.index - 1) * step)).prod))) →
      (evaluate h step s (slices.map some)).1 = (List.range slices.length).map fun j c x => f c x * ((slices.take (j + 1)).map fun n => exp (I * o.k * (n x / o.index - 1) * step)).prod := by
  induction slices with
  | nil => exact fun _ _ _ _ _ _ => rfl
  | cons n ns ih =>
    intro f s hf hd hn hsig
    have hf0 : Significant (transform f) := by have := hsig 0; simpa using this
    have hf1 : Significant (transform fun c x => f c x * exp (I * o.k * (n x / o.index - 1) * step)) := by have := hsig 1; simpa using this
    have hp := propagate_thin hs h h0 hf0 hf hd n (hn n List.mem_cons_self)
    have hstep : |step| ≤ 1e-8 := by rwa [abs_of_pos h0]
    have hr : read (propagate h s step (some n)) = (fun c x => f c x * exp (I * o.k * (n x / o.index - 1) * step), propagate h s step (some n)) := by
      unfold read readFt
      rw [hp, if_pos hstep]
      exact Prod.ext (fieldOf_transform hs _ hf1) rfl
    have hrec := ih (fun c x => f c x * exp (I * o.k * (n x / o.index - 1) * step)) (propagate h s step (some n)) (by rw [hp]) (by rw [hp]; exact hstep)
      (fun m hm => hn m (List.mem_cons_of_mem _ hm)) (fun l => by
        have := hsig (l + 1)
        simp only [List.take_succ_cons, List.map_cons, List.prod_cons, ← mul_assoc] at this
        exact this)
    show (read (propagate h s step (some n))).1 :: (evaluate h step (read (propagate h s step (some n))).2 (ns.map some)).1 = _
    rw [hr, hrec, List.length_cons, List.range_succ_eq_map, List.map_cons, List.map_map]
    congr 1
    · funext c x
      simp
    · refine List.map_congr_left fun j _ => ?_
      funext c x
      simp only [Function.comp, List.take_succ_cons, List.map_cons, List.prod_cons, mul_assoc]

theorem thin_significant : Significant (transform (fun c x => wave 1 c x * exp (I * pair.k * (step' x / pair.index - 1) * (1e-8 : ℝ)))) := by
  intro _ h
  have h1 := h (0 : Fin 1) (at' 0)
  unfold transform at h1
  rw [(ft_pair _).1, shift_zero, map_one, mul_one] at h1
  have hn : ∀ z w : ℂ, z = 1 → 0 ≤ w.re → 1 ≤ ‖z + w‖ := by
    intro z w hz hw
    refine le_trans ?_ (Complex.re_le_norm _)
    rw [add_re, hz, one_re]
    linarith
  have h2 : 1 ≤ ‖wave 1 (0 : Fin 1) (at' 0) * exp (I * pair.k * (step' (at' 0) / pair.index - 1) * (1e-8 : ℝ)) +
      wave 1 (0 : Fin 1) (at' 1) * exp (I * pair.k * (step' (at' 1) / pair.index - 1) * (1e-8 : ℝ))‖ := by
    refine hn _ _ ?_ ?_
    · unfold step' wave
      rw [along_at, if_neg (by decide)]
      show 1 * exp (I * pair.k * (1 / ((1 : ℝ) : ℂ) - 1) * _) = 1
      simp
    · unfold step' wave
      rw [along_at, if_pos rfl, one_mul, pair_k]
      have e : I * ((1e7 : ℝ) : ℂ) * ((1 + (Real.pi : ℂ) / 10) / ((1 : ℝ) : ℂ) - 1) * ((1e-8 : ℝ) : ℂ) = ((Real.pi / 100 : ℝ) : ℂ) * I := by
        push_cast
        norm_num
        ring
      show 0 ≤ (exp (I * ((1e7 : ℝ) : ℂ) * ((1 + (Real.pi : ℂ) / 10) / ((1 : ℝ) : ℂ) - 1) * ((1e-8 : ℝ) : ℂ))).re
      rw [e, exp_ofReal_mul_I_re]
      have := Real.pi_pos
      exact Real.cos_nonneg_of_neg_pi_div_two_le_of_le (by linarith) (by linarith)
  linarith

/-- The hypotheses of `C58_thin` can be met. -/
example : (evaluate pair_shape 1e-8 (⟨transform (wave 1), 0⟩ : Section pair scalar) [some step']).1 =
    [fun c x => wave 1 c x * exp (I * pair.k * (step' x / pair.index - 1) * (1e-8 : ℝ))] := by
  have h := C58_thin pair_proper.stepped pair_shape 1e-8 (by norm_num) le_rfl [step'] (wave 1) ⟨transform (wave 1), 0⟩ rfl (by norm_num)
    (fun n hn => by rw [List.mem_singleton] at hn; subst hn; exact step_not_uniform) (fun l => by
      cases l with
      | zero =>
        have : transform (wave 1) = waveFt 1 := by rw [← current_wave, current_write_scalar pair_proper.stepped]; rfl
        have h := waveFt_significant (a := 1) (by simp)
        rw [← this] at h
        simpa using h
      | succ l => simpa using thin_significant)
  simpa using h

/-! ### C72 -/

theorem pad_three {α : Type} (x : α) (f : Fin 3 → α) : pad (le_refl 3) x f = f := by
  funext a
  unfold pad
  rw [dif_pos (by omega)]
  rfl

/-- The grid of a beam. -/
def centredGrid (g : Grid.Obj 3 ℝ) : Grid.Obj 3 ℝ := ⟨g.shape, g.step, g.center, g.dt.promote g.dt, fun _ => false, fun _ => true, fun _ => true, true, false⟩

/-- The grid of a section. -/
def collapsedGrid (g : Grid.Obj 3 ℝ) (axis : Fin 3) : Grid.Obj 3 ℝ :=
  ⟨Function.update g.shape axis 1, g.step, Function.update g.center axis 0, g.dt.promote .float, fun _ => false, fun _ => true, fun _ => true, true, false⟩

theorem beamGrid_eq (g : Grid.Obj 3 ℝ) (hN : ∀ a, 1 ≤ g.shape a) : beamGrid (le_refl 3) g = .ok (centredGrid g) := by
  unfold beamGrid
  rw [pad_three, pad_three, pad_three, Grid.rebuild_eq hN]
  rfl

theorem sectionGrid_eq (g : Grid.Obj 3 ℝ) (hN : ∀ a, 1 ≤ g.shape a) (axis : Fin 3) : sectionGrid g axis = .ok (collapsedGrid g axis) := by
  have h : ∀ a, 1 ≤ Function.update g.shape axis 1 a := by
    intro a
    by_cases h : a = axis
    · subst h; rw [Function.update_self]
    · rw [Function.update_of_ne h]; exact hN a
  unfold sectionGrid
  rw [Grid.rebuild_eq h]
  rfl

/-- **C72 (shape).** The grid of a beam and that of its sections, for all grids with three axes. -/
theorem C72_grids (g : Grid.Obj 3 ℝ) (hN : ∀ a, 1 ≤ g.shape a) (axis : Fin 3) : ∃ b s, beamGrid (le_refl 3) g = .ok b ∧ sectionGrid b axis = .ok s ∧
    b.shape = g.shape ∧ b.step = g.step ∧ b.center = g.center ∧ (∀ a, b.originAtCenter a = true) ∧
    s.shape axis = 1 ∧ s.step = g.step ∧ s.coords axis = [0] ∧ ∀ a ≠ axis, s.shape a = g.shape a ∧ s.coords a = b.coords a := by
  refine ⟨_, _, beamGrid_eq g hN, sectionGrid_eq (centredGrid g) hN axis, rfl, rfl, rfl, fun _ => rfl, Function.update_self _ _ _, rfl, ?_, fun a ha => ⟨Function.update_of_ne ha _ _, ?_⟩⟩
  · rw [Grid.C02_ordered _ _ rfl]
    simp [Spec.Grid.samples, Spec.Grid.firstSample, Spec.Grid.centerPos, collapsedGrid]
  · rw [Grid.C02_ordered _ _ rfl, Grid.C02_ordered _ _ rfl]
    simp only [collapsedGrid, centredGrid, Function.update_of_ne ha]

/-- **C72 (partial).** The samples of a beam are those of the grid that it is constructed with, if the origin and the centre of this grid are placed as they are by default, or for axes with
an odd number of samples.  Missing: other positions of the origin, and `center_at_index=False`. -/
theorem C72_partial (g : Grid.Obj 3 ℝ) (hN : ∀ a, 1 ≤ g.shape a) (a : Fin 3) (ho : g.originAtCenter a = true) (hc : g.centerAtIndex a = true ∨ g.shape a % 2 = 1) :
    ∃ b, beamGrid (le_refl 3) g = .ok b ∧ b.coords a = g.coords a := by
  refine ⟨_, beamGrid_eq g hN, ?_⟩
  rw [Grid.C02_ordered _ _ rfl, Grid.C02_ordered _ _ ho]
  simp only [Spec.Grid.samples, Spec.Grid.firstSample, centredGrid]
  rcases hc with hc | hc
  · rw [hc]
  · have : Spec.Grid.centerPos (K := ℝ) (g.shape a) true = Spec.Grid.centerPos (g.shape a) (g.centerAtIndex a) := by
      unfold Spec.Grid.centerPos
      rw [if_pos rfl]
      split_ifs
      · rfl
      · have h2 : ((g.shape a / 2 : ℕ) : ℝ) * 2 + 1 = g.shape a := by exact_mod_cast (by omega : g.shape a / 2 * 2 + 1 = g.shape a)
        linarith
    rw [this]

/-- The hypotheses of `C72_partial` can be met. -/
example : ∃ b, beamGrid (le_refl 3) pairGrid = .ok b ∧ b.coords 2 = pairGrid.coords 2 :=
  C72_partial pairGrid (fun a => by unfold pairGrid; dsimp only; split_ifs <;> omega) 2 rfl (.inl rfl)

/-- **C72 (fewer axes).** For grids with fewer axes, the last axes of the grid of the beam have the same shape, step and centre; the others have a single sample at 0, and step 0. -/
theorem C72_pad {n : ℕ} (hn : n ≤ 3) (g : Grid.Obj n ℝ) (hN : ∀ a, 1 ≤ g.shape a) : ∃ b, beamGrid hn g = .ok b ∧
    (∀ a : Fin n, ∀ i : Fin 3, (i : ℕ) = a + (3 - n) → b.shape i = g.shape a ∧ b.step i = g.step a ∧ b.center i = g.center a) ∧
    ∀ i : Fin 3, (i : ℕ) < 3 - n → b.shape i = 1 ∧ b.step i = 0 ∧ b.coords i = [0] := by
  have hsh : ∀ i, 1 ≤ pad hn 1 g.shape i := by
    intro i
    unfold pad
    split_ifs
    · exact hN _
    · exact le_rfl
  have hpad : ∀ {α : Type} (x : α) (f : Fin n → α) (a : Fin n) (i : Fin 3), (i : ℕ) = a + (3 - n) → pad hn x f i = f a := by
    intro α x f a i hi
    unfold pad
    rw [dif_pos (by omega)]
    congr 1
    exact Fin.ext (by show (i : ℕ) - (3 - n) = a; omega)
  refine ⟨_, Grid.rebuild_eq hsh _ _ _ _ _, fun a i hi => ⟨hpad _ _ a i hi, hpad _ _ a i hi, hpad _ _ a i hi⟩, fun i hi => ?_⟩
  have hz : ∀ {α : Type} (x : α) (f : Fin n → α), pad hn x f i = x := by
    intro α x f
    unfold pad
    rw [dif_neg (by omega)]
  refine ⟨hz _ _, hz _ _, ?_⟩
  rw [Grid.C02_ordered _ _ rfl]
  simp [Spec.Grid.samples, Spec.Grid.firstSample, Spec.Grid.centerPos, hz]

/-- A grid with two samples at ±1/2 along its last axis, as `Grid([1, 1, 2], 1, center_at_index=False)`. -/
noncomputable def halfGrid : Grid.Obj 3 ℝ where
  shape := fun a => if a = 2 then 2 else 1
  step := fun _ => 1
  center := fun _ => 0
  dt := .float
  flat := fun _ => false
  originAtCenter := fun _ => true
  centerAtIndex := fun _ => false
  multidimensional := true
  stepShort := false

/-- **C72** is violated when the centre is not at an index: the samples of the beam are half a step from those of the grid. -/
theorem C72_violates : ∃ b, beamGrid (le_refl 3) halfGrid = .ok b ∧ b.coords 2 = [-1, 0] ∧ halfGrid.coords 2 = [-(1 / 2), 1 / 2] := by
  refine ⟨_, beamGrid_eq halfGrid (fun a => by unfold halfGrid; dsimp only; split_ifs <;> omega), ?_, ?_⟩
  · rw [Grid.C02_ordered _ _ rfl]
    show [(0 : ℝ) - ((2 / 2 : ℕ) : ℝ) * 1 + ((0 : ℕ) : ℝ) * 1, (0 : ℝ) - ((2 / 2 : ℕ) : ℝ) * 1 + ((1 : ℕ) : ℝ) * 1] = _
    norm_num
  · rw [Grid.C02_ordered _ _ rfl]
    show [(0 : ℝ) - (((2 : ℕ) : ℝ) - 1) / 2 * 1 + ((0 : ℕ) : ℝ) * 1, (0 : ℝ) - (((2 : ℕ) : ℝ) - 1) / 2 * 1 + ((1 : ℕ) : ℝ) * 1] = _
    norm_num

end Verif.Beam
