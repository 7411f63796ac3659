import Verif.Model.BeamComplex
import Verif.Props.BeamEnergy
import Mathlib.Analysis.SpecialFunctions.Pow.Real

/-!
# Property C111: complex wavenumbers and background indices
-/

namespace Verif.BeamC

open Verif.Fourier Verif.Backend Complex

variable {m : Medium} {P : Projection}

/-! ### Real backgrounds -/

/-- The real part of the principal square root of a real number. -/
theorem re_sqrt_ofReal (x : ℝ) : ((x : ℂ) ^ (1 / 2 : ℂ)).re = Real.sqrt x := by
  rcases le_total 0 x with h | h
  · have : ((x : ℂ) ^ (1 / 2 : ℂ)) = ((x ^ (1 / 2 : ℝ) : ℝ) : ℂ) := by rw [ofReal_cpow h]; norm_num
    rw [this, ofReal_re, Real.sqrt_eq_rpow]
  · rw [ofReal_cpow_of_nonpos h, Real.sqrt_eq_zero_of_nonpos h]
    have e1 : ((-(x : ℂ)) ^ (1 / 2 : ℂ)) = (((-x) ^ (1 / 2 : ℝ) : ℝ) : ℂ) := by rw [ofReal_cpow (neg_nonneg.2 h)]; norm_num
    have e2 : exp (Real.pi * I * (1 / 2)) = I := by
      rw [show (Real.pi * I * (1 / 2) : ℂ) = Real.pi / 2 * I by ring, exp_pi_div_two_mul_I]
    rw [e1, e2]
    simp

/-- The corresponding projection for real directions. -/
noncomputable abbrev real (P : Projection) : Beam.Projection := ⟨P.c, fun k f => P.project (fun a => k a) f⟩

theorem real_scalar : real scalar = Beam.scalar := rfl

theorem real_vectorial : real vectorial = Beam.vectorial := rfl

/-- A real background. -/
noncomputable abbrev ofOptics (o : Beam.Optics) : Medium := ⟨o.grid, o.axis, o.k0, o.index⟩

/-- The state of a section with a real background. -/
noncomputable def lift {o : Beam.Optics} (s : Beam.Section o (real P)) : Section (ofOptics o) P := ⟨s.fieldFt, s.distance⟩

section Real
variable {o : Beam.Optics}

theorem k_ofOptics : (ofOptics o).k = (o.k : ℝ) := by
  show ((o.k0 : ℂ) * (o.index : ℂ)) = ((o.k0 * o.index : ℝ) : ℂ)
  push_cast; rfl

theorem transverse_ofOptics (a : Fin 3) (q : Idx o.grid.shape) : (ofOptics o).transverse a q = (o.transverse a q : ℝ) := by
  show (if 1 < o.grid.shape a then (kOf o.grid a q : ℂ) / (ofOptics o).k else 0) = _
  unfold Beam.Optics.transverse
  rw [k_ofOptics]
  split_ifs <;> push_cast <;> rfl

theorem kProj_ofOptics (a : Fin 3) (q : Idx o.grid.shape) : (ofOptics o).kProj a q = (o.kProj a q : ℝ) := by
  unfold Medium.kProj Beam.Optics.kProj
  have e : (1 - ∑ b, (ofOptics o).transverse b q ^ 2 : ℂ) = ((1 - ∑ b, o.transverse b q ^ 2 : ℝ) : ℂ) := by
    push_cast
    simp only [transverse_ofOptics]
  by_cases h : a = o.axis
  · rw [if_pos (show a = (ofOptics o).axis from h), if_pos h, e, re_sqrt_ofReal]
  · rw [if_neg (show ¬ a = (ofOptics o).axis from h), if_neg h, transverse_ofOptics]

theorem kDir_ofOptics (q : Idx o.grid.shape) (a : Fin 3) : (ofOptics o).kDir q a = (o.kDir q a : ℝ) := by
  unfold Medium.kDir Beam.Optics.kDir
  have e : ∑ b, ‖(ofOptics o).kProj b q‖ ^ 2 = ∑ b, o.kProj b q ^ 2 :=
    Finset.sum_congr rfl fun b _ => by rw [kProj_ofOptics, norm_real, Real.norm_eq_abs, sq_abs]
  rw [e, kProj_ofOptics]
  push_cast; rfl

theorem propagator_ofOptics (d : ℝ) (q : Idx o.grid.shape) : (ofOptics o).propagator d q = exp (I * (d * o.k * o.kDir q o.axis : ℝ)) := by
  unfold Medium.propagator
  rw [k_ofOptics, show (ofOptics o).axis = o.axis from rfl, kDir_ofOptics]
  push_cast
  ring_nf

theorem advance_ofOptics (d : ℝ) (F : Beam.Arr o (real P)) : advance (m := ofOptics o) (P := P) d F = Beam.advance d F := by
  funext c q
  unfold advance Beam.advance
  rw [propagator_ofOptics]

theorem update_ofOptics (F : Beam.Arr o (real P)) : update (m := ofOptics o) (P := P) F = lift (Beam.update F) := by
  unfold update lift Beam.update
  congr 1
  funext c q
  show P.project ((ofOptics o).kDir q) _ c = P.project (fun a => (o.kDir q a : ℂ)) _ c
  congr 1
  exact funext fun a => kDir_ofOptics q a

theorem readFt_ofOptics (s : Beam.Section o (real P)) : readFt (lift s) = ((Beam.readFt s).1, lift (Beam.readFt s).2) := by
  unfold readFt Beam.readFt
  show (if |s.distance| ≤ 1e-8 then _ else _) = _
  split_ifs
  · rfl
  · show (advance (m := ofOptics o) (P := P) s.distance s.fieldFt, (⟨advance (m := ofOptics o) (P := P) s.distance s.fieldFt, 0⟩ : Section (ofOptics o) P)) = _
    rw [advance_ofOptics]
    rfl

theorem read_ofOptics (s : Beam.Section o (real P)) : read (lift s) = ((Beam.read s).1, lift (Beam.read s).2) := by
  unfold read Beam.read
  rw [readFt_ofOptics]
  rfl

theorem write_ofOptics (f : Beam.Arr o (real P)) : write (m := ofOptics o) (P := P) f = lift (Beam.write f) := by
  unfold write Beam.write
  by_cases h : o.Extended
  · rw [if_pos (show (ofOptics o).Extended from h), if_pos h, ← update_ofOptics]
    rfl
  · rw [if_neg (show ¬ (ofOptics o).Extended from h), if_neg h, update_ofOptics]

theorem interact_ofOptics (s : Beam.Section o (real P)) (d : ℝ) (n0 : ℂ) (n : Idx o.grid.shape → ℂ) : interact (lift s) d n0 n = lift (Beam.interact s d n0 n) := by
  unfold interact Beam.interact
  dsimp only
  by_cases h : Beam.NearUniform n0 n
  · rw [if_pos (show NearUniform n0 n from h), if_pos h]
    by_cases h2 : ‖n0 / (o.index : ℂ) - 1‖ ≤ 1e-8
    · rw [if_pos (show ‖n0 / (ofOptics o).index - 1‖ ≤ 1e-8 from h2), if_pos h2]
    · rw [if_neg (show ¬ ‖n0 / (ofOptics o).index - 1‖ ≤ 1e-8 from h2), if_neg h2, k_ofOptics]
      rfl
  · rw [if_neg (show ¬ NearUniform n0 n from h), if_neg h, ← write_ofOptics, read_ofOptics, k_ofOptics]

theorem propagate_ofOptics (h : ∀ a, 0 < o.grid.shape a) (s : Beam.Section o (real P)) (d : ℝ) (n : Option (Idx o.grid.shape → ℂ)) :
    propagate (m := ofOptics o) h (lift s) d n = lift (Beam.propagate h s d n) := by
  unfold propagate Beam.propagate
  dsimp only
  have e : (if d < 0 then { lift s with distance := (lift s).distance + d } else lift s) = lift (if d < 0 then { s with distance := s.distance + d } else s) := by
    split_ifs <;> rfl
  rw [e]
  generalize (if d < 0 then { s with distance := s.distance + d } else s) = t
  have e2 : ((n.map fun n => interact (lift t) d (n (origin (ofOptics o) h)) n).getD (lift t)) = lift ((n.map fun n => Beam.interact t d (n (Beam.origin o h)) n).getD t) := by
    cases n with
    | none => rfl
    | some n => exact interact_ofOptics t d _ n
  rw [e2]
  split_ifs <;> rfl

/-- **C111 (real).** With a real wavenumber and a real background index, all operations are those of the model for real backgrounds (properties C55–C58, C69–C73), for scalar and vectorial
fields, all states, distances and materials. -/
theorem C111_real (h : ∀ a, 0 < o.grid.shape a) (s : Beam.Section o (real P)) (F : Beam.Arr o (real P)) (d : ℝ) (n : Option (Idx o.grid.shape → ℂ)) :
    propagate (m := ofOptics o) h (lift s) d n = lift (Beam.propagate h s d n) ∧ readFt (lift s) = ((Beam.readFt s).1, lift (Beam.readFt s).2) ∧
    read (lift s) = ((Beam.read s).1, lift (Beam.read s).2) ∧ write (m := ofOptics o) (P := P) F = lift (Beam.write F) ∧ writeFt (m := ofOptics o) (P := P) F = lift (Beam.writeFt F) :=
  ⟨propagate_ofOptics h s d n, readFt_ofOptics s, read_ofOptics s, write_ofOptics F, update_ofOptics F⟩

end Real

/-! ### Distances -/

/-- The field that a section represents, including the propagation that has been deferred. -/
noncomputable def current (s : Section m P) : Arr m P := advance s.distance s.fieldFt

theorem propagator_add (a b : ℝ) (q : Idx m.grid.shape) : m.propagator (a + b) q = m.propagator a q * m.propagator b q := by
  unfold Medium.propagator
  rw [← exp_add]
  congr 1
  push_cast
  ring

theorem propagator_zero (q : Idx m.grid.shape) : m.propagator 0 q = 1 := by
  unfold Medium.propagator
  simp

theorem advance_zero (F : Arr m P) : advance 0 F = F := by
  funext c q
  unfold advance
  rw [propagator_zero, mul_one]

theorem propagate_none (h : ∀ a, 0 < m.grid.shape a) (s : Section m P) (d : ℝ) : propagate h s d none = { s with distance := s.distance + d } := by
  unfold propagate
  simp only [Option.map_none, Option.getD_none]
  rcases lt_trichotomy d 0 with hd | hd | hd
  · rw [if_pos hd, if_neg (not_lt.2 hd.le)]
  · subst hd
    simp
  · rw [if_neg (not_lt.2 hd.le), if_pos hd]

/-- **C111 (distances).** Also with a complex background, propagation over two distances is propagation over their sum, and propagation back restores the section, for all states: "attenuation
becomes gain". -/
theorem C111_distances (h : ∀ a, 0 < m.grid.shape a) (s : Section m P) (a b : ℝ) :
    propagate h (propagate h s a none) b none = propagate h s (a + b) none ∧ propagate h (propagate h s a none) (-a) none = s := by
  simp only [propagate_none, add_assoc, true_and, add_neg_cancel, add_zero]

theorem current_propagate_none (h : ∀ a, 0 < m.grid.shape a) (s : Section m P) (d : ℝ) : current (propagate h s d none) = advance d (current s) := by
  rw [propagate_none]
  funext c q
  unfold current advance
  rw [propagator_add, mul_assoc]

/-- Uniform materials only change the amplitudes by a common factor. -/
theorem current_propagate_uniform (h : ∀ a, 0 < m.grid.shape a) (s : Section m P) (d : ℝ) (n : Idx m.grid.shape → ℂ) (hn : NearUniform (n (origin m h)) n)
    (hd : n (origin m h) = m.index ∨ 1e-8 < ‖n (origin m h) / m.index - 1‖) (hi : m.index ≠ 0) (c : Fin P.c) (q : Idx m.grid.shape) :
    current (propagate h s d (some n)) c q = current s c q * exp (I * m.k0 * (n (origin m h) - m.index) * d) * m.propagator d q := by
  have key : propagate h s d (some n) = ⟨fun c q => s.fieldFt c q * exp (I * m.k0 * (n (origin m h) - m.index) * d), s.distance + d⟩ := by
    have e : ∀ t : Section m P, interact t d (n (origin m h)) n = ⟨fun c q => t.fieldFt c q * exp (I * m.k0 * (n (origin m h) - m.index) * d), t.distance⟩ := by
      intro t
      unfold interact
      rw [if_pos hn]
      dsimp only
      rcases hd with hd | hd
      · rw [hd, div_self hi, sub_self, norm_zero, if_pos (by norm_num)]
        simp
      · rw [if_neg (not_le.2 hd)]
        congr 1
        funext c q
        unfold Medium.k
        congr 2
        field_simp
    unfold propagate
    simp only [Option.map_some, Option.getD_some, e]
    rcases lt_trichotomy d 0 with hd | hd | hd
    · rw [if_pos hd, if_neg (not_lt.2 hd.le)]
    · subst hd
      simp
    · rw [if_neg (not_lt.2 hd.le), if_pos hd]
  rw [key]
  unfold current advance
  dsimp only
  rw [propagator_add]
  ring

/-! ### The directions -/

/-- The transverse components of a Fourier component: the coordinates of `grid.k`. -/
noncomputable def Medium.kappa (m : Medium) (q : Idx m.grid.shape) : Fin 3 → ℝ := fun a => kOf m.grid a q

/-- A section as it is constructed, the propagation axis has a single sample and the other axes are sampled or have a single sample. -/
structure Medium.Proper (m : Medium) : Prop where
  axis : m.grid.shape m.axis = 1
  stepped : ∀ a, 1 < m.grid.shape a → m.grid.step a ≠ 0

/-- The geometry without the optics. -/
noncomputable abbrev geometry (m : Medium) : Beam.Optics := ⟨m.grid, m.axis, 1, 1⟩

theorem kappa_singleton (hm : m.Proper) {a : Fin 3} (h : ¬ 1 < m.grid.shape a) (q : Idx m.grid.shape) : m.kappa q a = 0 :=
  Beam.kOf_singleton (o := geometry m) hm.stepped h q

theorem kappa_axis (hm : m.Proper) (q : Idx m.grid.shape) : m.kappa q m.axis = 0 := kappa_singleton hm (by rw [hm.axis]; omega) q

theorem transverse_eq (hm : m.Proper) (a : Fin 3) (q : Idx m.grid.shape) : m.transverse a q = m.kappa q a / m.k := by
  unfold Medium.transverse
  split_ifs with h
  · rfl
  · rw [kappa_singleton hm h, ofReal_zero, zero_div]

/-- The square of the transverse wavenumber. -/
noncomputable def Medium.kappa2 (m : Medium) (q : Idx m.grid.shape) : ℝ := ∑ a, m.kappa q a ^ 2

theorem kappa2_nonneg (q : Idx m.grid.shape) : 0 ≤ m.kappa2 q := Finset.sum_nonneg fun _ _ => sq_nonneg _

theorem sum_transverse (hm : m.Proper) (q : Idx m.grid.shape) : ∑ b, m.transverse b q ^ 2 = m.kappa2 q / m.k ^ 2 := by
  unfold Medium.kappa2
  push_cast
  rw [Finset.sum_div]
  exact Finset.sum_congr rfl fun b _ => by rw [transverse_eq hm, div_pow]

/-- The component along the propagation axis before normalization. -/
noncomputable def Medium.along (m : Medium) (q : Idx m.grid.shape) : ℝ := ((1 - m.kappa2 q / m.k ^ 2) ^ (1 / 2 : ℂ)).re

theorem re_sqrt_nonneg (z : ℂ) : 0 ≤ (z ^ (1 / 2 : ℂ)).re := by
  by_cases h : z = 0
  · rw [h, zero_cpow (by norm_num)]
    exact le_rfl
  · rw [cpow_def_of_ne_zero h, exp_re]
    refine mul_nonneg (Real.exp_pos _).le (Real.cos_nonneg_of_mem_Icc ?_)
    have e : (log z * (1 / 2 : ℂ)).im = arg z / 2 := by
      rw [show log z * (1 / 2 : ℂ) = log z * ((1 / 2 : ℝ) : ℂ) by push_cast; rfl, im_mul_ofReal, log_im]
      ring
    rw [e]
    have h1 := neg_pi_lt_arg z
    have h2 := arg_le_pi z
    constructor <;> linarith

theorem along_nonneg (q : Idx m.grid.shape) : 0 ≤ m.along q := re_sqrt_nonneg _

theorem kProj_axis (hm : m.Proper) (q : Idx m.grid.shape) : m.kProj m.axis q = m.along q := by
  unfold Medium.kProj Medium.along
  rw [if_pos rfl, sum_transverse hm]

theorem kProj_other (hm : m.Proper) {a : Fin 3} (h : a ≠ m.axis) (q : Idx m.grid.shape) : m.kProj a q = m.kappa q a / m.k := by
  unfold Medium.kProj
  rw [if_neg h, transverse_eq hm]

theorem sum_norm_kProj (hm : m.Proper) (q : Idx m.grid.shape) : ∑ b, ‖m.kProj b q‖ ^ 2 = m.along q ^ 2 + m.kappa2 q / ‖m.k‖ ^ 2 := by
  have e : ∀ b, ‖m.kProj b q‖ ^ 2 = (if b = m.axis then m.along q ^ 2 else 0) + m.kappa q b ^ 2 / ‖m.k‖ ^ 2 := by
    intro b
    by_cases h : b = m.axis
    · rw [h, kProj_axis hm, if_pos rfl, kappa_axis hm, norm_real, Real.norm_eq_abs, sq_abs]
      ring
    · rw [kProj_other hm h, if_neg h, norm_div, norm_real, Real.norm_eq_abs, div_pow, sq_abs, zero_add]
  rw [Finset.sum_congr rfl fun b _ => e b, Finset.sum_add_distrib, Finset.sum_ite_eq' Finset.univ, if_pos (Finset.mem_univ _), ← Finset.sum_div]
  rfl

theorem sum_sq_kProj (hm : m.Proper) (q : Idx m.grid.shape) : ∑ b, m.kProj b q ^ 2 = (m.along q : ℂ) ^ 2 + m.kappa2 q / m.k ^ 2 := by
  have e : ∀ b, m.kProj b q ^ 2 = (if b = m.axis then (m.along q : ℂ) ^ 2 else 0) + (m.kappa q b : ℂ) ^ 2 / m.k ^ 2 := by
    intro b
    by_cases h : b = m.axis
    · rw [h, kProj_axis hm, if_pos rfl, kappa_axis hm]
      simp
    · rw [kProj_other hm h, if_neg h, div_pow, zero_add]
  rw [Finset.sum_congr rfl fun b _ => e b, Finset.sum_add_distrib, Finset.sum_ite_eq' Finset.univ, if_pos (Finset.mem_univ _), ← Finset.sum_div]
  unfold Medium.kappa2
  push_cast
  rfl

/-- The cosine of the angle with the propagation axis. -/
noncomputable def Medium.cosine (m : Medium) (q : Idx m.grid.shape) : ℝ := m.along q / Real.sqrt (m.along q ^ 2 + m.kappa2 q / ‖m.k‖ ^ 2)

theorem kDir_axis (hm : m.Proper) (q : Idx m.grid.shape) : m.kDir q m.axis = m.cosine q := by
  unfold Medium.kDir Medium.cosine
  rw [kProj_axis hm, sum_norm_kProj hm]
  push_cast
  rfl

theorem cosine_nonneg (q : Idx m.grid.shape) : 0 ≤ m.cosine q := div_nonneg (along_nonneg q) (Real.sqrt_nonneg _)

theorem cosine_axial (q : Idx m.grid.shape) (hq : m.kappa2 q = 0) : m.cosine q = 1 := by
  have e : m.along q = 1 := by
    unfold Medium.along
    rw [hq, ofReal_zero, zero_div, sub_zero, one_cpow, one_re]
  unfold Medium.cosine
  rw [e, hq, zero_div, add_zero, one_pow, Real.sqrt_one, div_one]

theorem cosine_lt_one (hk : m.k ≠ 0) (q : Idx m.grid.shape) (hq : 0 < m.kappa2 q) : m.cosine q < 1 := by
  have h1 : 0 < m.kappa2 q / ‖m.k‖ ^ 2 := div_pos hq (pow_pos (norm_pos_iff.2 hk) 2)
  have h2 : m.along q < Real.sqrt (m.along q ^ 2 + m.kappa2 q / ‖m.k‖ ^ 2) := Real.lt_sqrt_of_sq_lt (by linarith)
  unfold Medium.cosine
  exact (div_lt_one ((along_nonneg q).trans_lt h2)).2 h2

theorem norm_propagator (hm : m.Proper) (d : ℝ) (q : Idx m.grid.shape) : ‖m.propagator d q‖ = Real.exp (-(d * m.k.im * m.cosine q)) := by
  unfold Medium.propagator
  rw [norm_exp, kDir_axis hm]
  congr 1
  simp only [mul_re, mul_im, I_re, I_im, ofReal_re, ofReal_im]
  ring

/-! ### Along the propagation axis -/

/-- **C111 (axial).** The Fourier component that propagates along the axis is multiplied with exp(i k₀ n d) by a uniform material with complex refractive index `n`, whatever the complex
background index, for all distances and states; and with exp(i k d) by the background. -/
theorem C111_axial (hm : m.Proper) (h : ∀ a, 0 < m.grid.shape a) (hi : m.index ≠ 0) (s : Section m P) (d : ℝ) (c : Fin P.c) (q : Idx m.grid.shape) (hq : ∀ a, m.kappa q a = 0) :
    current (propagate h s d none) c q = current s c q * exp (I * m.k0 * m.index * d) ∧
    ∀ n : ℂ, n = m.index ∨ 1e-8 < ‖n / m.index - 1‖ → current (propagate h s d (some fun _ => n)) c q = current s c q * exp (I * m.k0 * n * d) := by
  have hq2 : m.kappa2 q = 0 := Finset.sum_eq_zero fun a _ => by rw [hq a]; norm_num
  have e : m.propagator d q = exp (I * m.k0 * m.index * d) := by
    unfold Medium.propagator
    rw [kDir_axis hm, cosine_axial q hq2]
    unfold Medium.k
    congr 1
    push_cast
    ring
  constructor
  · rw [current_propagate_none]
    unfold advance
    rw [e]
  · intro n hn
    rw [current_propagate_uniform h s d (fun _ => n) (fun x => by rw [sub_self, norm_zero]; positivity) hn hi, e, mul_assoc, ← exp_add]
    congr 2
    ring

/-! ### Absorbing backgrounds -/

/-- The energy in a section. -/
noncomputable def energy (f : Arr m P) : ℝ := ∑ c, ∑ x, ‖f c x‖ ^ 2

theorem fieldOf_geometry (F : Arr m P) : fieldOf F = Beam.fieldOf (o := geometry m) (P := real P) F := rfl

theorem energy_mono (hm : m.Proper) {F G : Arr m P} (h : ∀ c q, ‖F c q‖ ≤ ‖G c q‖) : energy (fieldOf F) ≤ energy (fieldOf G) := by
  rw [fieldOf_geometry, fieldOf_geometry]
  show Beam.energy (o := geometry m) (P := real P) _ ≤ Beam.energy (o := geometry m) (P := real P) _
  by_cases hs : Beam.Significant (o := geometry m) (P := real P) G
  · refine (Beam.energy_fieldOf_le (o := geometry m) hm.stepped _).trans ?_
    rw [Beam.energy_of_significant (o := geometry m) hm.stepped hs]
    unfold Beam.energyFt
    refine div_le_div_of_nonneg_right ?_ (by positivity)
    exact Finset.sum_le_sum fun c _ => Finset.sum_le_sum fun q _ => pow_le_pow_left₀ (norm_nonneg _) (h c q) 2
  · unfold Beam.Significant at hs
    push Not at hs
    have h0 : Beam.AllClose0 (o := geometry m) (P := real P) F := fun c q => (h c q).trans (hs.2 c q)
    unfold Beam.fieldOf
    rw [if_pos hs.1, if_pos hs.1, if_pos h0, if_pos hs.2]

open Classical in
/-- The distance that has an effect when the field is read. -/
noncomputable def felt (d : ℝ) : ℝ := if |d| ≤ 1e-8 then 0 else d

theorem felt_mono {a b : ℝ} (h : a ≤ b) : felt a ≤ felt b := by
  unfold felt
  split_ifs with h1 h2 h2
  · exact le_rfl
  · rcases le_or_gt 0 b with hb | hb
    · exact hb
    · rw [abs_of_neg hb] at h2
      rw [abs_le] at h1
      linarith
  · rcases le_or_gt a 0 with ha | ha
    · exact ha
    · rw [abs_of_pos ha] at h1
      rw [abs_le] at h2
      linarith
  · exact h

theorem readFt_felt (s : Section m P) : (readFt s).1 = advance (felt s.distance) s.fieldFt := by
  unfold readFt felt
  split_ifs
  · rw [advance_zero]
  · rfl

/-- **C111 (absorption).** In an absorbing background the energy of the field does not increase as it propagates forward, and it does not decrease as it is propagated backward, for all states,
scalar and vectorial. -/
theorem C111_absorption (hm : m.Proper) (h : ∀ a, 0 < m.grid.shape a) (hk : 0 ≤ m.k.im) (s : Section m P) (d : ℝ) :
    (0 ≤ d → energy (read (propagate h s d none)).1 ≤ energy (read s).1) ∧ (d ≤ 0 → energy (read s).1 ≤ energy (read (propagate h s d none)).1) := by
  have key : ∀ (F : Arr m P) (a b : ℝ), a ≤ b → ∀ c q, ‖advance b F c q‖ ≤ ‖advance a F c q‖ := by
    intro F a b hab c q
    unfold advance
    rw [norm_mul, norm_mul, norm_propagator hm, norm_propagator hm]
    refine mul_le_mul_of_nonneg_left (Real.exp_le_exp.2 ?_) (norm_nonneg _)
    have := mul_le_mul_of_nonneg_right hab (mul_nonneg hk (cosine_nonneg (m := m) q))
    linarith
  rw [propagate_none]
  unfold read
  constructor
  · intro hd
    refine energy_mono hm ?_
    rw [readFt_felt, readFt_felt]
    exact key _ _ _ (felt_mono (by dsimp only; linarith))
  · intro hd
    refine energy_mono hm ?_
    rw [readFt_felt, readFt_felt]
    exact key _ _ _ (felt_mono (by dsimp only; linarith))

/-- The axial components of the wavevectors of plane waves in an absorbing medium: κ² + z² = k², decaying forward. -/
theorem decay_of_exact {k z : ℂ} {t : ℝ} (hr : 0 < k.re) (hi : 0 < k.im) (ht : 0 < t) (hz : z ^ 2 + t = k ^ 2) (hzi : 0 < z.im) : k.im < z.im := by
  have h1 := congrArg re hz
  have h2 := congrArg im hz
  simp only [pow_two, add_re, mul_re, add_im, mul_im, ofReal_re, ofReal_im] at h1 h2
  by_contra hc
  push Not at hc
  -- z.re z.im = k.re k.im, so that z.re ≥ k.re
  have h3 : z.re * z.im = k.re * k.im := by linarith
  have h4 : k.re ≤ z.re := by
    by_contra h5
    push Not at h5
    have h6 : z.re * z.im < k.re * z.im := mul_lt_mul_of_pos_right h5 hzi
    have h7 : k.re * z.im ≤ k.re * k.im := mul_le_mul_of_nonneg_left hc hr.le
    linarith
  nlinarith

/-- There is such a wave. -/
theorem exists_exact {k : ℂ} (hr : 0 < k.re) (hi : 0 < k.im) (t : ℝ) : ∃ z : ℂ, z ^ 2 + t = k ^ 2 ∧ 0 < z.im := by
  obtain ⟨z, hz⟩ : ∃ z : ℂ, z ^ 2 = k ^ 2 - t := ⟨_, cpow_nat_inv_pow (k ^ 2 - t) two_ne_zero⟩
  have h2 := congrArg im hz
  simp only [pow_two, sub_im, mul_im, ofReal_im] at h2
  have h3 : z.im ≠ 0 := fun h0 => by
    rw [h0] at h2
    have := mul_pos hr hi
    linarith
  rcases h3.lt_or_gt with h4 | h4
  · exact ⟨-z, by rw [neg_sq, hz]; ring, by rw [neg_im]; linarith⟩
  · exact ⟨z, by rw [hz]; ring, h4⟩

/-- **C111 (oblique)** is violated in all absorbing backgrounds: "TODO: Keep imaginary part?".  All waves at an angle with the propagation axis decay less than the wave along the axis, whereas
they should decay more: for all solutions z of κ² + z² = k² that decay. -/
theorem C111_oblique_violates (hm : m.Proper) (hr : 0 < m.k.re) (hi : 0 < m.k.im) (q : Idx m.grid.shape) (hq : 0 < m.kappa2 q) (z : ℂ) (hz : z ^ 2 + m.kappa2 q = m.k ^ 2) (hzi : 0 < z.im)
    (d : ℝ) (hd : 0 < d) : ‖exp (I * d * z)‖ < ‖exp (I * d * m.k)‖ ∧ ‖exp (I * d * m.k)‖ < ‖m.propagator d q‖ := by
  have hk : m.k ≠ 0 := fun h0 => by rw [h0] at hr; exact lt_irrefl _ hr
  have e : ∀ w : ℂ, ‖exp (I * d * w)‖ = Real.exp (-(d * w.im)) := by
    intro w
    rw [norm_exp]
    congr 1
    simp only [mul_re, mul_im, I_re, I_im, ofReal_re, ofReal_im]
    ring
  rw [e, e, norm_propagator hm]
  refine ⟨Real.exp_lt_exp.2 ?_, Real.exp_lt_exp.2 ?_⟩
  · have := mul_lt_mul_of_pos_left (decay_of_exact hr hi hq hz hzi) hd
    linarith
  · have := mul_lt_mul_of_pos_left (cosine_lt_one hk q hq) (mul_pos hd hi)
    linarith

/-- **C111 (gain)** is violated in all absorbing backgrounds: all waves at an angle with the propagation axis are amplified by a transparent material. -/
theorem C111_gain_violates (hm : m.Proper) (h : ∀ a, 0 < m.grid.shape a) (k0 : ℝ) (hk0 : 0 < k0) (hmk : m.k0 = k0) (hi : 0 < m.index.im) (s : Section m P) (d : ℝ) (hd : 0 < d) (n : ℝ)
    (hn : 1e-8 < ‖(n : ℂ) / m.index - 1‖) (c : Fin P.c) (q : Idx m.grid.shape) (hq : 0 < m.kappa2 q) (hs : current s c q ≠ 0) :
    ‖current s c q‖ < ‖current (propagate h s d (some fun _ => (n : ℂ))) c q‖ := by
  have hi0 : m.index ≠ 0 := fun h0 => by rw [h0] at hi; exact lt_irrefl _ hi
  have hk : m.k ≠ 0 := mul_ne_zero (by rw [hmk]; exact_mod_cast hk0.ne') hi0
  rw [current_propagate_uniform h s d (fun _ => (n : ℂ)) (fun x => by rw [sub_self, norm_zero]; positivity) (.inr hn) hi0, norm_mul, norm_mul, norm_propagator hm, norm_exp, mul_assoc,
    ← Real.exp_add]
  refine lt_mul_of_one_lt_right (norm_pos_iff.2 hs) (Real.one_lt_exp_iff.2 ?_)
  have e1 : (I * m.k0 * ((n : ℂ) - m.index) * d).re = k0 * m.index.im * d := by
    rw [hmk]
    simp only [mul_re, mul_im, I_re, I_im, ofReal_re, ofReal_im, sub_re, sub_im]
    ring
  have e2 : m.k.im = k0 * m.index.im := by
    unfold Medium.k
    rw [hmk]
    simp only [mul_im, ofReal_re, ofReal_im]
    ring
  rw [e1, e2]
  have := mul_lt_mul_of_pos_left (cosine_lt_one hk q hq) (mul_pos hd (mul_pos hk0 hi))
  linarith

/-! ### Polarization -/

theorem sum_sq_kDir (hm : m.Proper) (hk : m.k ≠ 0) (q : Idx m.grid.shape) (hq : 0 < m.kappa2 q) :
    ∑ b, m.kDir q b ^ 2 = 1 ↔ m.k.im = 0 := by
  have hp : 0 < ‖m.k‖ ^ 2 := pow_pos (norm_pos_iff.2 hk) 2
  have h1 : 0 < m.along q ^ 2 + m.kappa2 q / ‖m.k‖ ^ 2 := add_pos_of_nonneg_of_pos (sq_nonneg _) (div_pos hq hp)
  have e : ∑ b, m.kDir q b ^ 2 = ((m.along q : ℂ) ^ 2 + m.kappa2 q / m.k ^ 2) / ((m.along q ^ 2 + m.kappa2 q / ‖m.k‖ ^ 2 : ℝ) : ℂ) := by
    unfold Medium.kDir
    simp only [div_pow]
    rw [← Finset.sum_div, sum_sq_kProj hm, sum_norm_kProj hm, ← ofReal_pow (Real.sqrt _), Real.sq_sqrt h1.le]
  have h1' : ((m.along q ^ 2 + m.kappa2 q / ‖m.k‖ ^ 2 : ℝ) : ℂ) ≠ 0 := by exact_mod_cast h1.ne'
  have hq' : (m.kappa2 q : ℂ) ≠ 0 := by exact_mod_cast hq.ne'
  have hp' : ((‖m.k‖ ^ 2 : ℝ) : ℂ) ≠ 0 := by exact_mod_cast hp.ne'
  rw [e, div_eq_one_iff_eq h1']
  have e2 : ((m.along q : ℂ) ^ 2 + m.kappa2 q / m.k ^ 2 = ((m.along q ^ 2 + m.kappa2 q / ‖m.k‖ ^ 2 : ℝ) : ℂ)) ↔ m.k ^ 2 = ((‖m.k‖ ^ 2 : ℝ) : ℂ) := by
    push_cast
    rw [add_right_inj]
    have hp'' : ((‖m.k‖ : ℂ) ^ 2) ≠ 0 := by exact_mod_cast hp.ne'
    rw [div_eq_div_iff (pow_ne_zero 2 hk) hp'', mul_right_inj' hq']
    exact eq_comm
  rw [e2, ← normSq_eq_norm_sq]
  constructor
  · intro h
    have := congrArg re h
    simp only [pow_two, mul_re, ofReal_re, normSq_apply] at this
    nlinarith [sq_nonneg m.k.im]
  · intro h
    refine Complex.ext ?_ ?_
    · simp only [pow_two, mul_re, ofReal_re, normSq_apply, h]; ring
    · simp only [pow_two, mul_im, ofReal_im, h]; ring

theorem sum_sq_kDir_axial (hm : m.Proper) (q : Idx m.grid.shape) (hq : m.kappa2 q = 0) : ∑ b, m.kDir q b ^ 2 = 1 := by
  have e : m.along q = 1 := by
    unfold Medium.along
    rw [hq, ofReal_zero, zero_div, sub_zero, one_cpow, one_re]
  unfold Medium.kDir
  simp only [div_pow]
  rw [← Finset.sum_div, sum_sq_kProj hm, sum_norm_kProj hm, e, hq]
  simp

theorem kDir_ne (hm : m.Proper) (hk : m.k ≠ 0) (q : Idx m.grid.shape) {a : Fin 3} (ha : a ≠ m.axis) (h : m.kappa q a ≠ 0) : m.kDir q a ≠ 0 := by
  have h2 : 0 < m.kappa2 q :=
    (pow_pos (abs_pos.2 h) 2).trans_le ((sq_abs _).le.trans (Finset.single_le_sum (f := fun a => m.kappa q a ^ 2) (fun _ _ => sq_nonneg _) (Finset.mem_univ a)))
  unfold Medium.kDir
  rw [sum_norm_kProj hm, kProj_other hm ha]
  refine div_ne_zero (div_ne_zero (by exact_mod_cast h) hk) ?_
  exact_mod_cast (Real.sqrt_pos.2 (add_pos_of_nonneg_of_pos (sq_nonneg _) (div_pos h2 (pow_pos (norm_pos_iff.2 hk) 2)))).ne'

/-- What remains of the longitudinal component. -/
theorem longitudinal_project (k f : Fin 3 → ℂ) : ∑ a, k a * projectTransverse k f a = (1 - ∑ a, k a ^ 2) * ∑ a, k a * f a := by
  unfold projectTransverse
  have e : ∀ a, k a * (f a - k a * ∑ i, k i * f i) = k a * f a - k a ^ 2 * ∑ i, k i * f i := fun a => by ring
  rw [Finset.sum_congr rfl fun a _ => e a, Finset.sum_sub_distrib, ← Finset.sum_mul]
  ring

/-- **C111 (polarization, partial).** The Fourier components of what is assigned are perpendicular to the direction of propagation if that is along the axis, or if the wavenumber is real. -/
theorem C111_polarization_partial (hm : m.Proper) (hk : m.k ≠ 0) (F : Arr m vectorial) (q : Idx m.grid.shape) (h : m.kappa2 q = 0 ∨ m.k.im = 0) :
    ∑ a, m.kDir q a * (writeFt F).fieldFt a q = 0 := by
  have h1 : ∑ b, m.kDir q b ^ 2 = 1 := by
    rcases (kappa2_nonneg (m := m) q).eq_or_lt with h0 | h0
    · exact sum_sq_kDir_axial hm q h0.symm
    · exact (sum_sq_kDir hm hk q h0).2 (h.resolve_left h0.ne')
  have := longitudinal_project (m.kDir q) (fun c => F c q)
  rw [h1, sub_self, zero_mul] at this
  exact this

/-- **C111 (polarization)** is violated in all absorbing backgrounds: all oblique waves keep a part of their longitudinal component, so that a field changes when it is assigned to itself. -/
theorem C111_polarization_violates (hm : m.Proper) (hk : m.k.im ≠ 0) (F : Arr m vectorial) (q : Idx m.grid.shape) (hq : 0 < m.kappa2 q) (hF : ∑ a, m.kDir q a * F a q ≠ 0) :
    ∑ a, m.kDir q a * (writeFt F).fieldFt a q ≠ 0 ∧ ∃ a : Fin 3, (writeFt (writeFt F).fieldFt).fieldFt a q ≠ (writeFt F).fieldFt a q := by
  have hk0 : m.k ≠ 0 := fun h0 => hk (by rw [h0]; rfl)
  have h1 : (1 - ∑ b, m.kDir q b ^ 2) ≠ 0 := fun h => hk ((sum_sq_kDir hm hk0 q hq).1 (sub_eq_zero.1 h).symm)
  have h2 : ∑ a, m.kDir q a * (writeFt F).fieldFt a q ≠ 0 := by
    have := longitudinal_project (m.kDir q) (fun c => F c q)
    intro h0
    exact mul_ne_zero h1 hF (this.symm.trans h0)
  refine ⟨h2, ?_⟩
  obtain ⟨a, ha⟩ : ∃ a, m.kDir q a ≠ 0 := by
    by_contra hc
    push Not at hc
    exact hF (Finset.sum_eq_zero fun a _ => by rw [hc a, zero_mul])
  refine ⟨a, fun h => ?_⟩
  have h3 : (writeFt F).fieldFt a q - m.kDir q a * ∑ i, m.kDir q i * (writeFt F).fieldFt i q = (writeFt F).fieldFt a q := h
  have h4 : m.kDir q a * ∑ i, m.kDir q i * (writeFt F).fieldFt i q = 0 := by linear_combination -h3
  exact mul_ne_zero ha h2 h4

/-! ### The arguments -/

/-- **C111 (arguments).** The wavelength takes precedence over the wavenumber, and the refractive index over the permittivity; otherwise the index is the square root of the permittivity in the
right half-plane.  By default both are 1. -/
theorem C111_arguments (grid : Grid.Obj 3 ℝ) (axis : Fin 3) (k0 eps : ℂ) (wavelength index : Option ℂ) :
    (∀ l, wavelength = some l → l ≠ 0 → (ofArgs grid axis k0 wavelength eps index).k0 * l = 2 * Real.pi) ∧
    (wavelength = none → (ofArgs grid axis k0 wavelength eps index).k0 = k0) ∧
    (∀ n, index = some n → (ofArgs grid axis k0 wavelength eps index).index = n) ∧
    (index = none → (ofArgs grid axis k0 wavelength eps index).index ^ 2 = eps ∧ 0 ≤ (ofArgs grid axis k0 wavelength eps index).index.re) ∧
    ofArgs grid axis 1 none 1 none = ⟨grid, axis, 1, 1⟩ := by
  refine ⟨?_, ?_, ?_, ?_, ?_⟩
  · rintro l rfl hl
    show ((2 * Real.pi : ℝ) : ℂ) / l * l = _
    rw [div_mul_cancel₀ _ hl]
    push_cast; rfl
  · rintro rfl; rfl
  · rintro n rfl; rfl
  · rintro rfl
    refine ⟨?_, re_sqrt_nonneg eps⟩
    show (eps ^ (1 / 2 : ℂ)) ^ 2 = eps
    rw [one_div]
    exact_mod_cast cpow_nat_inv_pow eps two_ne_zero
  · unfold ofArgs
    simp

/-! ### Examples -/

/-- Two samples in a background that absorbs. -/
noncomputable def dim : Medium := ⟨Beam.pairGrid, 0, 1e7, 1 + I⟩

theorem dim_proper : dim.Proper := ⟨rfl, fun _ _ => by show (1e-7 : ℝ) ≠ 0; norm_num⟩

theorem dim_k : dim.k = 1e7 * (1 + I) := rfl

/-- The highest spatial frequency is oblique. -/
theorem dim_oblique : 0 < dim.kappa2 (Beam.at' 1) := by
  have h : 0 < dim.kappa (Beam.at' 1) 2 ^ 2 := by
    refine pow_two_pos_of_ne_zero ?_
    show Beam.pair.kappa (Beam.at' 1) 2 ≠ 0
    rw [Beam.kappa_one]
    exact neg_ne_zero.2 (mul_pos Real.pi_pos (by norm_num)).ne'
  exact h.trans_le (Finset.single_le_sum (f := fun a => dim.kappa (Beam.at' 1) a ^ 2) (fun _ _ => sq_nonneg _) (Finset.mem_univ 2))

theorem dim_re : 0 < dim.k.re ∧ 0 < dim.k.im := by
  have e : dim.k = ((1e7 : ℝ) : ℂ) * (1 + I) := by rw [dim_k]; norm_num
  rw [e]
  constructor
  · simp; norm_num
  · simp; norm_num

theorem dim_shape : ∀ a, 0 < dim.grid.shape a := Beam.pair_shape

example (d : ℝ) (hd : 0 < d) : ∃ z : ℂ, z ^ 2 + dim.kappa2 (Beam.at' 1) = dim.k ^ 2 ∧ ‖exp (I * d * z)‖ < ‖exp (I * d * dim.k)‖ ∧ ‖exp (I * d * dim.k)‖ < ‖dim.propagator d (Beam.at' 1)‖ := by
  obtain ⟨z, hz, hzi⟩ := exists_exact dim_re.1 dim_re.2 (dim.kappa2 (Beam.at' 1))
  exact ⟨z, hz, C111_oblique_violates dim_proper dim_re.1 dim_re.2 _ dim_oblique z hz hzi d hd⟩

example (F : Arr dim scalar) (hF : F (0 : Fin 1) (Beam.at' 1) ≠ 0) (d : ℝ) (hd : 0 < d) :
    ‖F (0 : Fin 1) (Beam.at' 1)‖ < ‖current (propagate dim_shape (writeFt F) d (some fun _ => ((1 : ℝ) : ℂ))) (0 : Fin 1) (Beam.at' 1)‖ := by
  have e : current (writeFt F) = F := advance_zero F
  have h := C111_gain_violates (P := scalar) dim_proper dim_shape 1e7 (by norm_num) (by show (1e7 : ℂ) = ((1e7 : ℝ) : ℂ); norm_num)
    (by show 0 < (1 + I : ℂ).im; simp) (writeFt F) d hd 1 ?_ (0 : Fin 1) (Beam.at' 1) dim_oblique (by rw [e]; exact hF)
  · rwa [e] at h
  · show (1e-8 : ℝ) < ‖((1 : ℝ) : ℂ) / (1 + I) - 1‖
    have h1 : (1 + I : ℂ) ≠ 0 := fun h => by simpa using congrArg im h
    have e1 : ((1 : ℝ) : ℂ) / (1 + I) - 1 = -I / (1 + I) := by
      field_simp
      push_cast
      ring
    have h2 : ‖(1 + I : ℂ)‖ ≤ 2 := (norm_add_le _ _).trans (by simp; norm_num)
    rw [e1, norm_div, norm_neg, norm_I]
    have h3 : (1 / 2 : ℝ) ≤ 1 / ‖(1 + I : ℂ)‖ := one_div_le_one_div_of_le (norm_pos_iff.2 h1) h2
    linarith [show (1e-8 : ℝ) < 1 / 2 by norm_num]

example (s : Section dim vectorial) (d : ℝ) (hd : 0 ≤ d) : energy (read (propagate dim_shape s d none)).1 ≤ energy (read s).1 :=
  (C111_absorption dim_proper dim_shape dim_re.2.le s d).1 hd

example (s : Section dim scalar) (d : ℝ) : current (propagate dim_shape s d none) (0 : Fin 1) (Beam.at' 0) = current s (0 : Fin 1) (Beam.at' 0) * exp (I * dim.k0 * dim.index * d) :=
  (C111_axial dim_proper dim_shape (fun h => by simpa [dim] using congrArg im h) s d (0 : Fin 1) (Beam.at' 0) Beam.kappa_zero).1

example : ∃ F : Arr dim vectorial, ∑ a, dim.kDir (Beam.at' 1) a * (writeFt F).fieldFt a (Beam.at' 1) ≠ 0 := by
  refine ⟨fun a _ => if a = 2 then 1 else 0, (C111_polarization_violates dim_proper dim_re.2.ne' _ _ dim_oblique ?_).1⟩
  have hk : dim.k ≠ 0 := fun h => by simpa [h] using dim_re.1
  simp only [mul_ite, mul_one, mul_zero, Finset.sum_ite_eq', Finset.mem_univ, if_true]
  refine kDir_ne dim_proper hk (Beam.at' 1) (show (2 : Fin 3) ≠ 0 by decide) ?_
  show Beam.pair.kappa (Beam.at' 1) 2 ≠ 0
  rw [Beam.kappa_one]
  exact neg_ne_zero.2 (mul_pos Real.pi_pos (by norm_num)).ne'

end Verif.BeamC
