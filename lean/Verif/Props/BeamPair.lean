import Verif.Props.BeamSlices

/-!
# Two transverse samples: witnesses for properties C56, C57 and C70
-/

namespace Verif.Beam

open Verif.Fourier Verif.Backend Verif.Spec.Modes Complex

/-- Two samples along the last axis, 100 nm apart. -/
noncomputable def pairGrid : Grid.Obj 3 ℝ where
  shape := fun a => if a = 2 then 2 else 1
  step := fun _ => 1e-7
  center := fun _ => 0
  dt := .float
  flat := fun _ => false
  originAtCenter := fun _ => true
  centerAtIndex := fun _ => true
  multidimensional := true
  stepShort := false

/-- Light with a wavelength of about 628 nm in vacuum. -/
noncomputable def pair : Optics := ⟨pairGrid, 0, 1e7, 1⟩

theorem pair_k : pair.k = 1e7 := by
  show (1e7 * 1 : ℝ) = 1e7
  norm_num

theorem pair_proper : pair.Proper where
  axis := rfl
  stepped := fun _ _ => by show (1e-7 : ℝ) ≠ 0; norm_num
  k := by rw [pair_k]; norm_num

theorem pair_shape : ∀ a, 0 < pair.grid.shape a := by
  intro a
  show 0 < (if a = 2 then 2 else 1)
  split_ifs <;> omega

theorem pair_extended : pair.Extended := ⟨2, by show (1 : ℕ) < 2; omega⟩

/-- One of the two points. -/
def at' (j : Fin 2) : Idx pair.grid.shape := fun a => ⟨if a = 2 then j else 0, by show _ < (if a = 2 then 2 else 1); split_ifs <;> omega⟩

/-- The index along the last axis. -/
def along (x : Idx pair.grid.shape) : Fin 2 := x 2

theorem along_at (j : Fin 2) : along (at' j) = j := by fin_cases j <;> rfl

theorem at_along (x : Idx pair.grid.shape) : at' (along x) = x := by
  funext a
  refine Fin.ext ?_
  show (if a = 2 then ((along x : Fin 2) : ℕ) else 0) = x a
  split_ifs with h
  · subst h; rfl
  · have h1 : (x a : ℕ) < (if a = 2 then 2 else 1) := (x a).isLt
    rw [if_neg h] at h1
    omega

/-- The points. -/
def points : Fin 2 ≃ Idx pair.grid.shape := ⟨at', along, along_at, at_along⟩

theorem sum_pair {M : Type} [AddCommMonoid M] (f : Idx pair.grid.shape → M) : ∑ x, f x = f (at' 0) + f (at' 1) := by
  rw [← Equiv.sum_comp points f, Fin.sum_univ_two]
  rfl

theorem origin_pair : origin pair pair_shape = at' 0 := by
  funext a
  refine Fin.ext ?_
  show 0 = (if a = 2 then 0 else 0)
  split_ifs <;> rfl

theorem forall_pair {p : Idx pair.grid.shape → Prop} (h0 : p (at' 0)) (h1 : p (at' 1)) : ∀ x, p x := by
  intro x
  rw [← at_along x]
  generalize along x = j
  fin_cases j
  · exact h0
  · exact h1

theorem prod_twiddle_pair (j l : Fin 2) : ∏ a, twiddle (pair.grid.shape a) (at' j a) (at' l a) = if j = 1 ∧ l = 1 then -1 else 1 := by
  rw [Fin.prod_univ_three]
  show twiddle 1 0 0 * twiddle 1 0 0 * twiddle 2 j l = _
  have h : ∀ n x, twiddle n 0 x = 1 := fun n x => by simp [twiddle]
  rw [h, one_mul, one_mul]
  have h2 : ∀ n x, twiddle n x 0 = 1 := fun n x => by simp [twiddle]
  have h3 : twiddle 2 1 1 = -1 := by
    unfold twiddle
    rw [show -(2 * (Real.pi : ℂ) * I * (((1 : ℕ) : ℂ) * ((1 : ℕ) : ℂ) / ((2 : ℕ) : ℂ))) = -(Real.pi * I) by push_cast; ring, exp_neg, exp_pi_mul_I]
    norm_num
  fin_cases j <;> fin_cases l
  · exact h 2 0
  · exact h 2 1
  · exact h2 2 1
  · exact h3

theorem ft_pair (f : Idx pair.grid.shape → ℂ) : ft f (at' 0) = f (at' 0) + f (at' 1) ∧ ft f (at' 1) = f (at' 0) - f (at' 1) := by
  unfold ft
  simp only [sum_pair, prod_twiddle_pair]
  constructor
  · simp
  · simp [sub_eq_add_neg]

theorem kappa_pair (q : Idx pair.grid.shape) (a : Fin 3) (ha : a ≠ 2) : pair.kappa q a = 0 :=
  kOf_singleton pair_proper.stepped (by show ¬ 1 < (if a = 2 then 2 else 1); rw [if_neg ha]; omega) q

theorem kappa_zero (a : Fin 3) : pair.kappa (at' 0) a = 0 := by
  by_cases ha : a = 2
  · subst ha
    unfold Optics.kappa
    rw [C24_kOf pair.grid pair_proper.stepped]
    show 2 * Real.pi * ((if 2 * 0 < 2 then ((0 : ℕ) : ℝ) else _) / _) = 0
    simp
  · exact kappa_pair _ a ha

theorem kappa_one : pair.kappa (at' 1) 2 = -(Real.pi * 1e7) := by
  unfold Optics.kappa
  rw [C24_kOf pair.grid pair_proper.stepped]
  show 2 * Real.pi * ((if 2 * 1 < 2 then ((1 : ℕ) : ℝ) else ((1 : ℕ) : ℝ) - ((2 : ℕ) : ℝ)) / (((2 : ℕ) : ℝ) * 1e-7)) = _
  norm_num
  ring

/-- The wave with the shortest period is evanescent. -/
theorem axial_one : axial pair.k (pair.kappa (at' 1)) = 0 := by
  unfold axial
  refine Real.sqrt_eq_zero_of_nonpos ?_
  rw [Fin.sum_univ_three, kappa_pair _ 0 (by decide), kappa_pair _ 1 (by decide), kappa_one, pair_k]
  have := Real.pi_gt_three
  nlinarith

theorem axial_zero : axial pair.k (pair.kappa (at' 0)) = pair.k := by
  unfold axial
  simp only [kappa_zero]
  simp [Real.sqrt_sq pair_proper.k.le]

theorem axis_pair : (0 : Fin 3) = pair.axis ∧ (1 : Fin 3) ≠ pair.axis ∧ (2 : Fin 3) ≠ pair.axis :=
  ⟨rfl, (by decide : (1 : Fin 3) ≠ 0), (by decide : (2 : Fin 3) ≠ 0)⟩

theorem kDir_one : pair.kDir (at' 1) 0 = 0 ∧ pair.kDir (at' 1) 1 = 0 ∧ pair.kDir (at' 1) 2 ^ 2 = 1 := by
  have hne := (mul_pos pair_proper.k (norm_kProj_pos pair_proper (at' 1))).ne'
  have h0 := kDir_eq pair_proper (at' 1) 0
  have h1 := kDir_eq pair_proper (at' 1) 1
  rw [if_pos axis_pair.1, axial_one] at h0
  rw [if_neg axis_pair.2.1, kappa_pair _ 1 (by decide)] at h1
  have e0 := (mul_eq_zero.1 h0).resolve_right hne
  have e1 := (mul_eq_zero.1 h1).resolve_right hne
  have := sum_kDir pair_proper (at' 1)
  rw [Fin.sum_univ_three, e0, e1] at this
  exact ⟨e0, e1, by linarith⟩

theorem kDir_zero : pair.kDir (at' 0) 1 = 0 ∧ pair.kDir (at' 0) 2 = 0 := by
  have hne := (mul_pos pair_proper.k (norm_kProj_pos pair_proper (at' 0))).ne'
  have h1 := kDir_eq pair_proper (at' 0) 1
  have h2 := kDir_eq pair_proper (at' 0) 2
  rw [if_neg axis_pair.2.1, kappa_zero] at h1
  rw [if_neg axis_pair.2.2, kappa_zero] at h2
  exact ⟨(mul_eq_zero.1 h1).resolve_right hne, (mul_eq_zero.1 h2).resolve_right hne⟩

theorem shift_zero : pair.shift (at' 0) = 1 := by
  unfold Optics.shift
  rw [Finset.sum_eq_zero fun a _ => by
    have := kappa_zero a
    unfold Optics.kappa at this
    rw [this, zero_mul]]
  simp

/-- A material that delays the light by half a period more at the second point, for a slice of one micrometre. -/
noncomputable def step' (x : Idx pair.grid.shape) : ℂ := if along x = 1 then 1 + Real.pi / 10 else 1

theorem step_not_uniform : ¬ NearUniform (step' (origin pair pair_shape)) step' := by
  intro h
  have := h (at' 1)
  rw [origin_pair] at this
  unfold step' at this
  simp only [along_at] at this
  norm_num at this
  rw [abs_of_pos Real.pi_pos] at this
  have := Real.pi_gt_three
  linarith

theorem step_phase (x : Idx pair.grid.shape) : exp (I * pair.k * (step' x / pair.index - 1) * (1e-6 : ℝ)) = if along x = 1 then -1 else 1 := by
  rw [pair_k]
  unfold step'
  show exp (I * _ * (_ / ((1 : ℝ) : ℂ) - 1) * _) = _
  split_ifs
  · rw [← exp_pi_mul_I]
    congr 1
    push_cast
    norm_num
    ring
  · norm_num

theorem fieldOf_pair {P : Projection} {F : Arr pair P} (h : ¬ AllClose0 F) (c : Fin P.c) (hF : F c (at' 1) = 0) (x : Idx pair.grid.shape) : fieldOf F c x = F c (at' 0) / 2 := by
  have hg : fieldOf F c = ift (ft fun _ => F c (at' 0) / 2) := by
    rw [fieldOf_eq pair_proper.stepped fun _ => h]
    congr 1
    refine funext (forall_pair ?_ ?_)
    · rw [(ft_pair _).1, shift_zero]; ring
    · rw [(ft_pair _).2, hF]; ring
  rw [hg, C23_ift_ft]

theorem project_eq (k : Fin 3 → ℝ) (f : Fin 3 → ℂ) (c : Fin 3) : vectorial.project k f c = projectTransverse k f c := rfl

theorem projectTransverse_longitudinal {k : Fin 3 → ℝ} {f : Fin 3 → ℂ} (k0 : k 0 = 0) (k1 : k 1 = 0) (k2 : k 2 ^ 2 = 1) (f0 : f 0 = 0) (f1 : f 1 = 0) (c : Fin 3) :
    projectTransverse k f c = 0 := by
  have hk : (k 2 : ℂ) ^ 2 = 1 := by exact_mod_cast k2
  unfold projectTransverse
  simp only [Fin.sum_univ_three, f0, f1, mul_zero, zero_add]
  match c with
  | 0 => simp [f0, k0]
  | 1 => simp [f1, k1]
  | 2 => linear_combination -(f 2) * hk

/-! ### C57 -/

/-- A plane wave with a polarization along the last axis. -/
noncomputable def polarizedWave : Arr pair vectorial := fun (c : Fin 3) q => if c = 2 ∧ along q = 0 then 2 else 0

theorem polarizedWave_update : (writeFt polarizedWave).fieldFt = polarizedWave := by
  funext (c : Fin 3)
  refine funext (forall_pair ?_ ?_)
  · show projectTransverse (pair.kDir (at' 0)) (fun c => polarizedWave c (at' 0)) c = _
    have hz : ∑ i, (pair.kDir (at' 0) i : ℂ) * polarizedWave i (at' 0) = 0 := by
      rw [Fin.sum_univ_three, kDir_zero.1, kDir_zero.2]
      have : polarizedWave (0 : Fin 3) (at' 0) = 0 := if_neg (by simp)
      rw [this]
      simp
    unfold projectTransverse
    simp only [hz, mul_zero, sub_zero]
  · show projectTransverse (pair.kDir (at' 1)) (fun c => polarizedWave c (at' 1)) c = _
    have hz : ∀ i : Fin 3, polarizedWave i (at' 1) = 0 := fun i => if_neg (by rw [along_at]; simp)
    unfold projectTransverse
    simp only [hz]
    simp

theorem polarizedWave_big : ¬ AllClose0 polarizedWave := by
  intro h
  have := h (2 : Fin 3) (at' 0)
  rw [show polarizedWave (2 : Fin 3) (at' 0) = 2 from if_pos ⟨rfl, along_at 0⟩] at this
  norm_num at this

/-- **C57** is violated by vectorial fields: after a slice of one micrometre that delays the light by half a period at every second sample, nothing is left of a plane wave with unit
amplitude, so that it cannot be restored by propagating it back. -/
theorem C57_vectorial_violates : (∀ x, (read (writeFt polarizedWave)).1 (2 : Fin 3) x = 1) ∧
    current (propagate pair_shape (writeFt polarizedWave) 1e-6 (some step')) = (fun _ _ => 0) ∧ current (thereAndBack pair_shape (writeFt polarizedWave) 1e-6 step') = fun _ _ => 0 := by
  have hcur : current (writeFt polarizedWave) = polarizedWave := by
    exact (advance_zero _).trans polarizedWave_update
  have hfield : ∀ (c : Fin 3) x, fieldOf polarizedWave c x = if c = 2 then 1 else 0 := by
    intro c x
    rw [fieldOf_pair polarizedWave_big c (if_neg (by rw [along_at]; simp))]
    unfold polarizedWave
    rw [along_at]
    by_cases hc : c = 2
    · rw [if_pos ⟨hc, rfl⟩, if_pos hc]; norm_num
    · rw [if_neg (fun h => hc h.1), if_neg hc, zero_div]
  have hset : Settled (propagate pair_shape (writeFt polarizedWave) (min 1e-6 0) none) := by
    rw [min_eq_right (by norm_num), propagate_none]
    exact .inl (add_zero 0)
  have hint : interactField polarizedWave 1e-6 (step' (origin pair pair_shape)) step' = fun _ _ => 0 := by
    rw [interactField_neg step_not_uniform, write_eq pair_proper.stepped, current_update]
    simp only [step_phase]
    funext (c : Fin 3)
    have hft : ∀ i : Fin 3, ft (fun x => fieldOf polarizedWave i x * if along x = 1 then -1 else 1) (at' 0) = 0 ∧
        (i ≠ 2 → ft (fun x => fieldOf polarizedWave i x * if along x = 1 then -1 else 1) (at' 1) = 0) := by
      intro i
      rw [(ft_pair _).1, (ft_pair _).2]
      simp only [hfield, along_at]
      constructor
      · simp
      · intro hi; simp [hi]
    refine funext (forall_pair ?_ ?_)
    · unfold projectTransverse
      simp only [hft]
      simp
    · refine projectTransverse_longitudinal kDir_one.1 kDir_one.2.1 kDir_one.2.2 ?_ ?_ c
      · exact (congrArg (· * _) ((hft 0).2 (by decide))).trans (zero_mul _)
      · exact (congrArg (· * _) ((hft 1).2 (by decide))).trans (zero_mul _)
  have ha : ∀ d, advance d (fun _ _ => 0 : Arr pair vectorial) = fun _ _ => 0 := by
    intro d; funext c q; exact zero_mul _
  refine ⟨?_, ?_, ?_⟩
  · intro x
    unfold read
    rw [(readFt_settled (.inl rfl)).1, hcur]
    exact (hfield 2 x).trans (if_pos rfl)
  · rw [current_propagate_some pair_shape _ _ fun _ => hset, min_eq_right (by norm_num), advance_zero, hcur, hint, ha]
  · rw [thereAndBack_current pair_shape _ _ fun _ => hset, min_eq_right (by norm_num), advance_zero, hcur, hint, neg_zero, advance_zero, interactField_neg step_not_uniform]
    have h0 : fieldOf (fun _ _ => 0 : Arr pair vectorial) = fun _ _ => 0 := fieldOf_zero fun _ _ => rfl
    rw [h0, write_eq pair_proper.stepped, current_update]
    funext (c : Fin 3) q
    refine (project_eq _ _ c).trans ?_
    unfold projectTransverse
    simp [ft]

/-- A scalar plane wave with amplitude `a`. -/
noncomputable def wave (a : ℂ) : Arr pair scalar := fun _ _ => a

/-- Its Fourier transform. -/
noncomputable def waveFt (a : ℂ) : Arr pair scalar := fun _ q => if along q = 0 then 2 * a else 0

theorem current_wave (a : ℂ) : current (write (wave a)) = waveFt a := by
  rw [current_write_scalar pair_proper.stepped]
  funext c
  refine funext (forall_pair ?_ ?_)
  · rw [(ft_pair _).1, shift_zero]
    show (a + a) * _ = (if along (at' 0) = 0 then 2 * a else 0)
    rw [along_at, if_pos rfl, map_one]
    ring
  · rw [(ft_pair _).2]
    show (a - a) * _ = (if along (at' 1) = 0 then 2 * a else 0)
    rw [along_at, if_neg (by decide), sub_self, zero_mul]

theorem waveFt_significant {a : ℂ} (ha : 1 ≤ ‖a‖) : Significant (waveFt a) := by
  intro _ h
  have := h (0 : Fin 1) (at' 0)
  rw [show waveFt a (0 : Fin 1) (at' 0) = 2 * a from if_pos (along_at 0), norm_mul] at this
  norm_num at this
  linarith

theorem settled_wave (a : ℂ) (d : ℝ) (hd : 0 ≤ d) : Settled (propagate pair_shape (write (wave a)) (min d 0) none) := by
  rw [min_eq_right hd, propagate_none]
  left
  show (write (wave a)).distance + 0 = 0
  rw [distance_write, add_zero]

theorem interact_significant {a : ℂ} (ha : 1 ≤ ‖a‖) : Significant (current (propagate pair_shape (write (wave a)) 1e-6 (some step'))) := by
  intro _ h
  rw [current_propagate_some pair_shape _ _ fun _ => settled_wave a 1e-6 (by norm_num), min_eq_right (by norm_num), advance_zero, allClose0_advance, current_wave,
    interactField_neg step_not_uniform, current_write_scalar pair_proper.stepped] at h
  have h1 := h (0 : Fin 1) (at' 1)
  have hf : ∀ x, fieldOf (waveFt a) (0 : Fin 1) x = a := by
    intro x
    rw [fieldOf_pair (waveFt_significant ha pair_extended) _ (if_neg (by rw [along_at]; decide))]
    rw [show waveFt a (0 : Fin 1) (at' 0) = 2 * a from if_pos (along_at 0)]
    ring
  rw [norm_mul, RCLike.norm_conj, norm_shift, mul_one, (ft_pair _).2] at h1
  simp only [step_phase, along_at, hf] at h1
  norm_num at h1
  rw [← two_mul, norm_mul] at h1
  norm_num at h1
  linarith

/-- The hypotheses of `C57_read_partial` and `C70_partial` can be met. -/
example : (read (thereAndBack pair_shape (write (wave 1)) 1e-6 step')).1 = wave 1 :=
  C57_read_partial pair_proper.stepped pair_shape _ _ (.inr (by norm_num [abs_of_pos])) _ (by rw [current_wave]; exact waveFt_significant (by simp)) (interact_significant (by simp))

example (x : Idx pair.grid.shape) : (read (propagate pair_shape (propagate pair_shape (write (wave 1)) 1e-6 (some step')) (-1e-6) none)).1 (0 : Fin 1) x = if along x = 1 then -1 else 1 := by
  rw [C70_partial pair_proper.stepped pair_shape _ _ (by norm_num) _ step_not_uniform (by rw [current_wave]; exact waveFt_significant (by simp)) (interact_significant (by simp)), step_phase]
  exact one_mul _

/-- The hypotheses of `C56_partial` can be met by a history with a heterogeneous material. -/
example : AllSettled pair_shape (write (wave 1)) [.read, .propagate 1e-6 (some step'), .readFt] := by
  refine ⟨fun d n h => (nomatch h), fun d n h _ => ?_, fun d n h => (nomatch h), ?_⟩
  · cases h
    rw [min_eq_right (by norm_num), propagate_none]
    left
    show (readFt (write (wave 1))).2.distance + 0 = 0
    rw [(readFt_settled (.inl (distance_write _))).2, add_zero]
  · left
    refine (readFt_settled (.inr ?_)).2
    show 1e-8 < |(propagate pair_shape _ 1e-6 (some step')).distance|
    rw [propagate_some, propagate_none, distance_interact, if_neg step_not_uniform, max_eq_left (by norm_num), zero_add]
    norm_num [abs_of_pos]

/-- **C57** is violated by small fields: nothing is left of a plane wave with amplitude 1e-9. -/
theorem C57_tiny_violates : (readFt (write (wave 1e-9))).1 (0 : Fin 1) (at' 0) = 2e-9 ∧ (readFt (thereAndBack pair_shape (write (wave 1e-9)) 1e-6 step')).1 = fun _ _ => 0 := by
  have hsmall : AllClose0 (current (write (wave 1e-9))) := by
    rw [current_wave]
    intro c q
    show ‖if along q = 0 then 2 * (1e-9 : ℂ) else 0‖ ≤ _
    split_ifs
    · rw [norm_mul]; norm_num
    · norm_num
  constructor
  · rw [(readFt_settled (.inl (distance_write _))).1, current_wave]
    exact (if_pos (along_at 0)).trans (by norm_num)
  · have h := (C57_tiny pair_proper.stepped pair_shape pair_extended _ hsmall 1e-6 step' step_not_uniform (settled_wave _ _ (by norm_num))).2
    obtain ⟨lag, -, hl, -⟩ := readFt_lag (thereAndBack pair_shape (write (wave 1e-9)) 1e-6 step')
    rw [hl, h]
    funext c q
    exact zero_mul _

theorem kDir_zero_axis : pair.kDir (at' 0) pair.axis = 1 := by
  have := k_kDir pair_proper (at' 0)
  rw [axial_zero] at this
  exact mul_left_cancel₀ pair_proper.k.ne' (this.trans (mul_one _).symm)

theorem current_mk (F : Arr pair scalar) : current (⟨F, 0⟩ : Section pair scalar) = F := advance_zero _

/-- **C57** is violated after propagation over 5 nm: this distance is lost in a heterogeneous material, so that the field one micrometre further is different. -/
theorem C57_short_violates : let s := propagate pair_shape ⟨waveFt 1, 0⟩ 5e-9 none
    (readFt (propagate pair_shape (thereAndBack pair_shape s 1e-6 step') 1e-6 none)).1 ≠ (readFt (propagate pair_shape s 1e-6 none)).1 := by
  intro s
  have hsig : Significant (waveFt 1) := waveFt_significant (by simp)
  have hsame : propagate pair_shape ⟨waveFt 1, 0⟩ 1e-6 (some step') = propagate pair_shape (write (wave 1)) 1e-6 (some step') := by
    have : write (wave 1) = ⟨waveFt 1, 0⟩ := by
      have h1 := current_wave 1
      have h2 := distance_write (wave 1)
      unfold current at h1
      rw [h2, advance_zero] at h1
      rw [← h1, ← h2]
    rw [this]
  have h := C57_short pair_proper.stepped pair_shape (waveFt 1) 5e-9 (by norm_num [abs_of_pos]) 1e-6 (by norm_num) step' step_not_uniform hsig
    (by rw [hsame]; exact interact_significant (by simp))
  have hd : (thereAndBack pair_shape s 1e-6 step').distance = 0 := by
    unfold thereAndBack
    simp only [propagate_some, propagate_none, distance_interact, if_neg step_not_uniform, zero_add]
    exact max_eq_right (by norm_num)
  have h1 : Settled (propagate pair_shape (thereAndBack pair_shape s 1e-6 step') 1e-6 none) := by
    rw [propagate_none]
    right
    show 1e-8 < |(thereAndBack pair_shape s 1e-6 step').distance + 1e-6|
    rw [hd]
    norm_num [abs_of_pos]
  have h2 : Settled (propagate pair_shape s 1e-6 none) := by
    right
    show 1e-8 < |(propagate pair_shape (propagate pair_shape ⟨waveFt 1, 0⟩ 5e-9 none) 1e-6 none).distance|
    rw [propagate_none, propagate_none]
    norm_num [abs_of_pos]
  rw [(readFt_settled h1).1, (readFt_settled h2).1, current_propagate_none, current_propagate_none, h]
  show advance 1e-6 (waveFt 1) ≠ advance 1e-6 (current (propagate pair_shape ⟨waveFt 1, 0⟩ 5e-9 none))
  rw [current_propagate_none, current_mk, advance_advance]
  intro heq
  have h3 := congrFun (congrFun (congrArg (advance (-1e-6)) heq) (0 : Fin 1)) (at' 0)
  rw [advance_advance, advance_advance, add_neg_cancel, advance_zero, add_neg_cancel_right] at h3
  change waveFt 1 (0 : Fin 1) (at' 0) = waveFt 1 (0 : Fin 1) (at' 0) * exp (I * (5e-9 * pair.k * pair.kDir (at' 0) pair.axis : ℝ)) at h3
  rw [kDir_zero_axis, pair_k, show waveFt 1 (0 : Fin 1) (at' 0) = 2 * 1 from if_pos (along_at 0), mul_one] at h3
  have h4 := mul_left_cancel₀ (by norm_num : (2 : ℂ) * 1 ≠ 0) ((mul_one _).trans (by rw [mul_one] at h3 ⊢; exact h3) : (2 : ℂ) * 1 * 1 = 2 * 1 * _)
  have h5 := congrArg Complex.im h4
  rw [mul_comm, exp_ofReal_mul_I_im] at h5
  have := Real.sin_pos_of_pos_of_lt_pi (x := 5e-9 * 1e7) (by norm_num) (by have := Real.pi_gt_three; norm_num; linarith)
  rw [← h5] at this
  simp at this

/-! ### C70 -/

/-- A refractive index that varies by one part in 100000. -/
noncomputable def slight (x : Idx pair.grid.shape) : ℂ := if along x = 1 then 1 + 1e-5 else 1

theorem slight_uniform : NearUniform (slight (origin pair pair_shape)) slight := by
  rw [origin_pair]
  refine forall_pair ?_ ?_
  · rw [sub_self, norm_zero]; positivity
  · unfold slight
    simp only [along_at]
    norm_num

/-- **C70** is violated: a slice of 31 mm with a variation of the index of 1e-5, which should delay the light by half a period more at the second point, does not do so. -/
theorem C70_violates : exp (I * pair.k * (slight (at' 1) / pair.index - 1) * (Real.pi / 100 : ℝ)) = -1 ∧
    (read (propagate pair_shape (propagate pair_shape (write (wave 1)) (Real.pi / 100) (some slight)) (-(Real.pi / 100)) none)).1 = wave 1 := by
  constructor
  · rw [pair_k, ← exp_pi_mul_I]
    unfold slight
    rw [along_at, if_pos rfl]
    congr 1
    show I * _ * (_ / ((1 : ℝ) : ℂ) - 1) * _ = _
    push_cast
    norm_num
    ring
  · have h1 : slight (origin pair pair_shape) = (pair.index : ℂ) := by
      rw [origin_pair]
      unfold slight
      rw [along_at, if_neg (by decide)]
      exact ofReal_one.symm
    rw [C70_rounded pair_shape _ _ slight slight_uniform, h1, C70_background pair_shape _ _ (by show (1 : ℝ) ≠ 0; exact one_ne_zero), C55_inverse]
    unfold read
    rw [(readFt_settled (.inl (distance_write _))).1]
    have hsig := waveFt_significant (a := 1) (by simp)
    rw [← current_wave] at hsig
    rw [current_write_scalar pair_proper.stepped] at hsig ⊢
    exact fieldOf_transform pair_proper.stepped _ hsig

end Verif.Beam
